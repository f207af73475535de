import Verif.Sync.Model

/-!
# Model of the library's pools used by several threads

`ThreadPool::self()` and `ThreadPoolFIFO::self()` (ThreadPool.cpp:171-180, 193-203) create and register the pool when they are
first called, and every call of the wrappers goes through them (ThreadPool.cpp:156-169, 205-219; SpatialOpsTools.h:54-77).
Here several threads make such calls, and the steps of `self()` interleave: the guarded initialisation of the function's static
variable, the unguarded test of `init_`, the registration under the mutex of the registry and the unguarded write of `init_`.

Assumed of the compiler: a static variable of a function is initialised by one thread while others wait (C++11; g++ does so for
C++98 as well). The static variables `tprm` (ThreadPool.cpp:36-40) and `m` (30) have trivial effects and are taken to be there.
-/

namespace SpatialOps.First

open Threads (Pool Push Act)
open Sync (Mgr upd)

/-- A call of a wrapper; `id` tells the pools apart. ThreadPool.cpp:156-169, 205-219. -/
inductive Call where
  /-- `resize_pool(n)`, `set_soft_thread_count(n)` -/
  | resizePool (id : Nat) (n : Int)
  /-- `get_pool_size()`, `get_soft_thread_count()` -/
  | poolSize (id : Nat)
  /-- `set_pool_capacity(n)`, `set_hard_thread_count(n)` -/
  | setCapacity (id : Nat) (n : Int)
  /-- `get_pool_capacity()`, `get_hard_thread_count()` -/
  | capacity (id : Nat)
  deriving DecidableEq, Repr

/-- The pool a call is about. ThreadPool.cpp:156-169, 205-219. -/
def Call.pool : Call → Nat
  | .resizePool id _ => id
  | .poolSize id => id
  | .setCapacity id _ => id
  | .capacity id => id

/-- The function of the registry a wrapper calls, with its value; `made` is the number of threads the system is able to
create. ThreadPool.cpp:74-144, 156-169, 205-219. -/
def Call.run {T : Type} (m : Mgr T) (made : Nat) : Call → Int × Mgr T
  | .resizePool id n => m.resizeActive id n
  | .poolSize id => (m.maxActive id, m)
  | .setCapacity id n => m.resize id n made
  | .capacity id => (m.workerCount id, m)

/-- Where a thread is in a wrapper. ThreadPool.cpp:42-57, 74-144, 156-219. -/
inductive Pc where
  /-- about to reach `static ThreadPoolFIFO tp(NTHREADS)` -/
  | start
  /-- executing the constructor of `tp` -/
  | making
  /-- about to read `tp.init_` -/
  | test
  /-- about to lock the mutex in `insert` -/
  | insert
  /-- in `insert`, with the mutex locked -/
  | inserting
  /-- about to write `tp.init_` -/
  | mark
  /-- `self()` has returned; about to lock the mutex in the function of the registry -/
  | call
  /-- in the function of the registry, with the mutex locked -/
  | body
  deriving DecidableEq, Repr

/-- A thread: where it is in the first of the calls it has still to make. ThreadPool.cpp:156-219. -/
structure Thr where
  pc : Pc
  todo : List Call
  deriving DecidableEq, Repr

/-- The guard of the static variable `tp`. ThreadPool.cpp:173, 196. -/
inductive Guard where
  | untouched
  /-- being initialised by thread `i` -/
  | busy (i : Nat)
  | done
  deriving DecidableEq, Repr

/-- All threads and what they share: the registry with its pools, the guards and the members `init_` of the pools, the holder of
the registry's mutex. `log` lists the calls in the order in which they held the mutex, by thread and with their values;
`inserts` lists the executions of `insert` by thread, pool and value: `false` is the warning that the pool already exists.
ThreadPool.cpp:7-57, 171-203. -/
structure St (T : Type) where
  mgr : Mgr T
  guard : Nat → Guard
  init : Nat → Bool
  lock : Option Nat
  threads : List Thr
  log : List (Nat × Call × Int)
  inserts : List (Nat × Nat × Bool)

/-- No pool has been used; thread `i` is going to make the calls `progs[i]`. ThreadPool.cpp:7-40, 147-151, 184-188. -/
def St.start {T : Type} (progs : List (List Call)) : St T :=
  ⟨Mgr.empty, fun _ => .untouched, fun _ => false, none, progs.map (⟨.start, ·⟩), [], []⟩

/-- A step: of thread `i`, where the system is able to create `made` threads, or of a worker of a pool.
ThreadPool.cpp:42-219, detail/pool_core.hpp:172-438. -/
inductive Move (T : Type) where
  | thread (i made : Nat)
  | world (id : Nat) (a : Act T)

/-- Thread `i` goes to `pc`, in the same call. ThreadPool.cpp:42-219. -/
def St.goto {T : Type} (s : St T) (i : Nat) (pc : Pc) (todo : List Call) : St T :=
  { s with threads := s.threads.set i ⟨pc, todo⟩ }

/-- A step of thread `i`, which is at `pc` in the call `c` and has the calls `r` to make after it; `none` while it has to wait.
`nt` is `NTHREADS`. ThreadPool.cpp:42-57, 74-144, 171-203. -/
def St.advance {T : Type} (nt : Nat) (s : St T) (i made : Nat) (c : Call) (r : List Call) : Pc → Option (St T)
  | .start => match s.guard c.pool with
    | .untouched => some ({ s with guard := upd s.guard c.pool (.busy i) }.goto i .making (c :: r))
    | .busy _ => none
    | .done => some (s.goto i .test (c :: r))
  | .making => some ({ s with
      mgr := { s.mgr with pools := upd s.mgr.pools c.pool (some (Pool.create nt made)) }
      guard := upd s.guard c.pool .done }.goto i .test (c :: r))
  | .test => some (s.goto i (if s.init c.pool = false then .insert else .call) (c :: r))
  | .insert => if s.lock = none then some ({ s with lock := some i }.goto i .inserting (c :: r)) else none
  | .inserting => some ({ s with
      mgr := (s.mgr.insert c.pool nt).2
      lock := none
      inserts := s.inserts ++ [(i, c.pool, (s.mgr.insert c.pool nt).1)] }.goto i .mark (c :: r))
  | .mark => some ({ s with init := upd s.init c.pool true }.goto i .call (c :: r))
  | .call => if s.lock = none then some ({ s with lock := some i }.goto i .body (c :: r)) else none
  | .body => some ({ s with
      mgr := (c.run s.mgr made).2
      lock := none
      log := s.log ++ [(i, c, (c.run s.mgr made).1)] }.goto i .start r)

/-- One step; `none` if it is not enabled. ThreadPool.cpp:42-219. -/
def St.step {T : Type} (push : Push T) (nt : Nat) (s : St T) : Move T → Option (St T)
  | .thread i made => match s.threads[i]? with
    | some ⟨pc, c :: r⟩ => s.advance nt i made c r pc
    | _ => none
  | .world id a => (s.mgr.step push (.pool id a)).map fun m => { s with mgr := m }

end SpatialOps.First
