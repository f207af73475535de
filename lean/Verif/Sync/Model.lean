import Verif.Threads.Model

/-!
# Model of the semaphore, the thread-parallel assigner, futures and the thread-pool registry

spatialops/Semaphore.h, spatialops/NeboLhs.h:173-226 and 402-414,
spatialops/threadpool/threadpool/detail/future.hpp, spatialops/ThreadPool.cpp.
As in `Verif.Threads.Model`, every action is one critical section or one unlocked
access, and the system's choices are part of the action.
-/

namespace SpatialOps.Sync

/-! ## Semaphore -/

/-- A thread that has called `Semaphore::wait`. Semaphore.h:39-44. -/
inductive SWait where
  | asleep
  | woken
  | passed
  deriving DecidableEq, Repr

/-- `Semaphore`, Semaphore.h:20-50, with the threads that have called `wait` and the
number of completed `post`s (observer). -/
structure Sem where
  val : Int
  waiters : List SWait
  posts : Nat
  deriving DecidableEq, Repr

/-- What can happen to a semaphore, Semaphore.h:29-44. -/
inductive SemAct where
  /-- `post()`; `who` is the sleeper picked by `notify_one` -/
  | post (who : Option Nat)
  /-- a thread calls `wait()` -/
  | wait
  | spurious (j : Nat)
  /-- a woken thread gets the lock back -/
  | resume (j : Nat)
  deriving DecidableEq, Repr

/-- `Semaphore(initial)`, Semaphore.h:26. -/
def Sem.init (initial : Int) : Sem := ⟨initial, [], 0⟩

/-- The test of the loop in `wait` and the decrement, Semaphore.h:40-43: outcome for
the calling thread and the new value. -/
def Sem.tryPass (v : Int) : SWait × Int := if v ≤ 0 then (.asleep, v) else (.passed, v - 1)

/-- One action of the semaphore, Semaphore.h:29-44. -/
def Sem.step (s : Sem) : SemAct → Option Sem
  | .post who => match who with
    | some j => match s.waiters[j]? with
      | some .asleep => some ⟨s.val + 1, s.waiters.set j .woken, s.posts + 1⟩
      | _ => none
    | none => if s.waiters.all (fun w => w != .asleep) then some ⟨s.val + 1, s.waiters, s.posts + 1⟩ else none
  | .wait => some ⟨(Sem.tryPass s.val).2, s.waiters ++ [(Sem.tryPass s.val).1], s.posts⟩
  | .spurious j => match s.waiters[j]? with
    | some .asleep => some { s with waiters := s.waiters.set j .woken }
    | _ => none
  | .resume j => match s.waiters[j]? with
    | some .woken => some ⟨(Sem.tryPass s.val).2, s.waiters.set j (Sem.tryPass s.val).1, s.posts⟩
    | _ => none

/-! ## Thread-parallel assignment -/

/-- A partition task, NeboLhs.h:402-414: it writes its part of the field and posts. -/
inductive TaskSt where
  | pending
  | written
  | posted
  deriving DecidableEq, Repr

/-- The assigning thread, NeboLhs.h:205-220. -/
inductive MainSt where
  | scheduling
  /-- about to call `semaphore.wait()` or to leave the loop -/
  | looping
  | asleep
  | woken
  | returned
  deriving DecidableEq, Repr

/-- `thread_parallel_assign`, NeboLhs.h:173-226, with `max` partition tasks. The
tasks are run by the pool in any order and at any time after they have been scheduled. -/
structure Assign where
  max : Nat
  tasks : List TaskSt
  val : Int
  taken : Nat
  main : MainSt
  deriving DecidableEq, Repr

/-- What can happen during a thread-parallel assignment, NeboLhs.h:173-226, 402-414. -/
inductive AssignAct where
  | schedule
  | write (i : Nat)
  | post (i : Nat)
  /-- one pass of the waiting loop, NeboLhs.h:220 -/
  | loop
  | spurious
  | resume
  deriving DecidableEq, Repr

/-- State on entry: `Semaphore semaphore(0)`, NeboLhs.h:180. -/
def Assign.init (max : Nat) : Assign := ⟨max, [], 0, 0, .scheduling⟩

/-- `semaphore.wait()` up to the point where the thread sleeps or has passed.
NeboLhs.h:220, Semaphore.h:39-44. -/
def Assign.pass (s : Assign) : Assign :=
  match Sem.tryPass s.val with
  | (.asleep, _) => { s with main := .asleep }
  | (_, v) => { s with val := v, taken := s.taken + 1, main := .looping }

/-- One action. NeboLhs.h:205-220, 402-414. -/
def Assign.step (s : Assign) : AssignAct → Option Assign
  | .schedule =>
    if s.main = .scheduling then
      if s.tasks.length < s.max then some { s with tasks := s.tasks ++ [.pending] }
      else some { s with main := .looping }
    else none
  | .write i => if s.tasks[i]? = some .pending then some { s with tasks := s.tasks.set i .written } else none
  | .post i =>
    if s.tasks[i]? = some .written then
      some { s with tasks := s.tasks.set i .posted, val := s.val + 1, main := if s.main = .asleep then .woken else s.main }
    else none
  | .loop =>
    if s.main = .looping then
      if s.taken < s.max then some s.pass else some { s with main := .returned }
    else none
  | .spurious => if s.main = .asleep then some { s with main := .woken } else none
  | .resume => if s.main = .woken then some s.pass else none

/-! ## Futures -/

/-- Progress of the task that computes the value,
detail/future.hpp `future_impl_task_func::operator()`. detail/future.hpp:191-203. -/
inductive FTask (V : Type) where
  | notRun
  /-- `set_execution_status(true)` done -/
  | executing
  /-- `is_cancelled()` returned false -/
  | checked
  /-- the function has returned `v`, `set_value(v)` not yet entered -/
  | computed (v : V)
  /-- past `set_value` (or past the test, if cancelled) -/
  | delivered
  | finished
  deriving DecidableEq, Repr

/-- A thread in `wait()` (or `operator()`). detail/future.hpp:70-79, 96-107. -/
inductive FWait (V : Type) where
  | asleep
  | woken
  | returned (v : Option V)
  deriving DecidableEq, Repr

/-- A thread in `cancel()`: its two accesses are not protected by the lock.
detail/future.hpp:133-144. -/
inductive FCancel where
  | tested (ok : Bool)
  | returned (ok : Bool)
  deriving DecidableEq, Repr

/-- `future_impl`, detail/future.hpp. `m_executing` is not initialised by the
constructor: `garbage` is what it happens to hold. detail/future.hpp:45-52. -/
structure Future (V : Type) where
  ready : Bool
  result : Option V
  cancelled : Bool
  executing : Bool
  task : FTask V
  waiters : List (FWait V)
  cancels : List FCancel
  /-- values returned by calls of the task function (observer) -/
  calls : List V
  deriving DecidableEq, Repr

/-- `future_impl()` detail/future.hpp:59-63. -/
def Future.init {V : Type} (garbage : Bool) : Future V :=
  ⟨false, none, false, garbage, .notRun, [], [], []⟩

/-- What can happen to a future, detail/future.hpp:65-203. -/
inductive FAct (V : Type) where
  /-- next step of the task; `v` is what the function returns when it is called -/
  | task (v : V)
  | wait
  | spurious (j : Nat)
  | resume (j : Nat)
  /-- a thread calls `cancel()` and reads the flags -/
  | cancelTest
  /-- and then writes and returns -/
  | cancelWrite (j : Nat)
  deriving DecidableEq, Repr

/-- Effect of `notify_all` on a sleeper. detail/future.hpp:117. -/
def wakeF {V : Type} : FWait V → FWait V
  | .asleep => .woken
  | w => w

/-- What a thread holding the lock in `wait()` does. detail/future.hpp:75. -/
def Future.look {V : Type} (s : Future V) : FWait V := if s.ready then .returned s.result else .asleep

/-- `set_value(v)`. detail/future.hpp:110-119. -/
def Future.setValue {V : Type} (s : Future V) (v : V) : Future V :=
  if !s.ready && !s.cancelled then
    { s with result := some v, ready := true, waiters := s.waiters.map wakeF }
  else s

/-- One action. detail/future.hpp:70-203. -/
def Future.step {V : Type} (s : Future V) : FAct V → Option (Future V)
  | .task v => match s.task with
    | .notRun => some { s with task := .executing, executing := true }
    | .executing => some { s with task := if s.cancelled then .delivered else .checked }
    | .checked => some { s with task := .computed v, calls := s.calls ++ [v] }
    | .computed w => some { s.setValue w with task := .delivered }
    | .delivered => some { s with task := .finished, executing := false }
    | .finished => none
  | .wait => some { s with waiters := s.waiters ++ [s.look] }
  | .spurious j => match s.waiters[j]? with
    | some .asleep => some { s with waiters := s.waiters.set j .woken }
    | _ => none
  | .resume j => match s.waiters[j]? with
    | some .woken => some { s with waiters := s.waiters.set j s.look }
    | _ => none
  | .cancelTest => some { s with cancels := s.cancels ++ [.tested (!s.ready || s.executing)] }
  | .cancelWrite j => match s.cancels[j]? with
    | some (.tested ok) =>
      some { s with cancelled := s.cancelled || ok, cancels := s.cancels.set j (.returned ok) }
    | _ => none

/-! ## Registry of thread pools -/

open Threads (Pool Push Act)

/-- `ThreadPoolResourceManager`, ThreadPool.cpp:7-36, with the pools it knows by
address: `reg` is `resourceMap_`. -/
structure Mgr (T : Type) where
  reg : Nat → Option Int
  pools : Nat → Option (Pool T)

/-- Before the first pool is created, ThreadPool.cpp:7-36. -/
def Mgr.empty {T : Type} : Mgr T := ⟨fun _ => none, fun _ => none⟩

/-- Function update. As `resourceMap_[k] = v`, ThreadPool.cpp:51. -/
def upd {β : Type} (f : Nat → β) (k : Nat) (v : β) : Nat → β := fun x => if x = k then v else f x

namespace Mgr
variable {T : Type}

/-- `insert`, ThreadPool.cpp:42-57. -/
def insert (m : Mgr T) (id : Nat) (threads : Int) : Bool × Mgr T :=
  let threads := if threads < 1 then 1 else threads
  match m.reg id with
  | none => (true, { m with reg := upd m.reg id (some threads) })
  | some _ => (false, m)

/-- `remove`, ThreadPool.cpp:59-72. -/
def remove (m : Mgr T) (id : Nat) : Bool × Mgr T :=
  match m.reg id with
  | some _ => (true, { m with reg := upd m.reg id none })
  | none => (false, m)

/-- Apply a change to the pool at address `id` (a registered address is that of a
pool, so the `none` case does not arise after registration by `self`).
ThreadPool.cpp:88-93, 107-110. -/
def onPool (m : Mgr T) (id : Nat) (f : Pool T → Pool T) : Mgr T :=
  { m with pools := upd m.pools id ((m.pools id).map f) }

/-- `resize`, ThreadPool.cpp:74-96, hence `set_pool_capacity`. `threads` is an `int`,
`size_controller().resize` takes a `size_t`. -/
def resize (m : Mgr T) (id : Nat) (threads : Int) (made : Nat) : Int × Mgr T :=
  match m.reg id with
  | none => (-1, m)
  | some r =>
    if r = threads then (threads, m)
    else
      let threads := if threads < 1 then 1 else threads
      (threads, { m with reg := upd m.reg id (some threads) }.onPool id fun p => p.resize threads.toNat made)

/-- `resize_active`, ThreadPool.cpp:98-113, hence `resize_pool`. -/
def resizeActive (m : Mgr T) (id : Nat) (threads : Int) : Int × Mgr T :=
  match m.reg id with
  | none => (-1, m)
  | some _ => (threads, m.onPool id fun p => p.resizeActive (max 1 threads).toNat)

/-- `get_worker_count`, ThreadPool.cpp:115-127, hence `get_pool_capacity`. -/
def workerCount (m : Mgr T) (id : Nat) : Int :=
  match m.reg id, m.pools id with
  | some _, some p => p.wc
  | _, _ => -1

/-- `get_max_active_worker_count`, ThreadPool.cpp:129-144, hence `get_pool_size`. -/
def maxActive (m : Mgr T) (id : Nat) : Int :=
  match m.reg id, m.pools id with
  | some _, some p => p.tact
  | _, _ => -1

/-- First use of `ThreadPool::self()` / `ThreadPoolFIFO::self()`, ThreadPool.cpp:171-180,
193-203: create the pool with `NTHREADS` threads and register it; later uses do
nothing. -/
def self (m : Mgr T) (id nthreads made : Nat) : Mgr T :=
  match m.pools id with
  | some _ => m
  | none => ({ m with pools := upd m.pools id (some (Pool.create nthreads made)) }.insert id nthreads).2

end Mgr

/-- What can happen to the registry and its pools. ThreadPool.cpp:42-207. -/
inductive MAct (T : Type) where
  | self (id nthreads made : Nat)
  | remove (id : Nat)
  | resize (id : Nat) (threads : Int) (made : Nat)
  | resizeActive (id : Nat) (threads : Int)
  /-- any action inside pool `id` -/
  | pool (id : Nat) (a : Act T)

/-- One action; results of calls are dropped. ThreadPool.cpp:42-207. -/
def Mgr.step {T : Type} (push : Push T) (m : Mgr T) : MAct T → Option (Mgr T)
  | .self id n made => some (m.self id n made)
  | .remove id => some (m.remove id).2
  | .resize id n made => some (m.resize id n made).2
  | .resizeActive id n => some (m.resizeActive id n).2
  | .pool id a => match m.pools id with
    | some p => (p.step push a).map fun p' => { m with pools := upd m.pools id (some p') }
    | none => none

end SpatialOps.Sync
