import Verif.Shutdown.Model

/-!
# Model of a program that uses one thread pool

spatialops/threadpool/tutorial/tutorial.cpp, spatialops/threadpool/quickstart/quickstart.cpp.

One thread creates a pool, calls its members one after the other and destroys it. The program is the list of calls; the thread
executing them, the workers and the system take turns (`Threads.Pool`, `Shutdown.Sys`). Which tasks throw is fixed by the program.
-/

namespace SpatialOps.Script
open Threads Shutdown

/-- A call. tutorial/tutorial.cpp:114-260. -/
inductive Stmt (T : Type) where
  /-- `tp.schedule(t)` or `schedule(tp, t)`, tutorial.cpp:120-123, 158-160, 184-186, 208-210 -/
  | schedule (t : T)
  /-- `tp.size_controller().resize(n)`, tutorial.cpp:153, 191, 215, 258 -/
  | resize (n : Nat)
  /-- `tp.size_controller().resize_active(n)`, size_policies.hpp:70-72 -/
  | resizeActive (n : Nat)
  /-- `tp.wait(threshold)`, tutorial.cpp:194, 218 -/
  | wait (threshold : Nat)
  /-- `res.wait()` on the future of task `t`, tutorial.cpp:162-163: returns when the task has finished without throwing,
  detail/future.hpp:70-79 -/
  | await (t : T)
  /-- `tp.empty()`, `tp.pending()`: no effect, tutorial.cpp:143, 147, 259 -/
  | look
  deriving DecidableEq, Repr

/-- The pool, the calls still to be made, and the waiting call the thread is in, if any (its number among the pool's clients).
tutorial/tutorial.cpp:114-260. -/
structure St (T : Type) where
  sys : Sys T
  rest : List (Stmt T)
  inWait : Option Nat

/-- The pool is created with `n` threads of which the system grants `made`; then come the calls of `prog`.
tutorial/tutorial.cpp:117, 140, 181, 204, 257; pool.hpp:93-98. -/
def start {T : Type} (n made : Nat) (prog : List (Stmt T)) : St T := ⟨Sys.create n made, prog, none⟩

/-- What the workers and the system do by themselves. A task that throws ends its worker, the others return.
detail/pool_core.hpp:386-430, detail/worker_thread.hpp:66-100. -/
def byItself {T : Type} (throws : T → Bool) (p : Pool T) : Act T → Bool
  | .fetch _ | .resume _ | .exit _ | .spurious _ | .clientSpurious _ | .clientResume _ => true
  | .finish i => match p.workers[i]? with
    | some (.running t) => !throws t
    | _ => false
  | .fail i _ => match p.workers[i]? with
    | some (.running t) => throws t
    | _ => false
  | _ => false

/-- A move: of the workers and the system, or of the program's thread. For the latter, `who` is the worker a `notify_one` picks and
`made` the number of threads the system is able to create. tutorial/tutorial.cpp:114-260. -/
inductive Move (T : Type) where
  | world (a : Act T)
  | main (who : Option Nat) (made : Nat)

/-- The program's thread makes its next call. The futures' tasks are those of `finished`. After the last call the pool is destroyed.
tutorial/tutorial.cpp:114-260. -/
def St.call {T : Type} [DecidableEq T] (push : Push T) (s : St T) (who : Option Nat) (made : Nat) : Option (St T) :=
  match s.rest with
  | [] => (s.sys.step push .allTasks .call).map fun y => ⟨y, [], none⟩
  | .schedule t :: r => (s.sys.step push .allTasks (.pool (.schedule t who))).map fun y => ⟨y, r, none⟩
  | .resize n :: r => (s.sys.step push .allTasks (.pool (.resize n made))).map fun y => ⟨y, r, none⟩
  | .resizeActive n :: r => (s.sys.step push .allTasks (.pool (.resizeActive n))).map fun y => ⟨y, r, none⟩
  | .wait k :: r => (s.sys.step push .allTasks (.pool (.wait (.tasks k)))).map fun y => ⟨y, r, some s.sys.pool.clients.length⟩
  | .await t :: r => if t ∈ s.sys.pool.finished then some ⟨s.sys, r, none⟩ else none
  | .look :: r => some ⟨s.sys, r, none⟩

/-- One move; `none` if it is not enabled. tutorial/tutorial.cpp:114-260. -/
def St.step {T : Type} [DecidableEq T] (push : Push T) (throws : T → Bool) (s : St T) : Move T → Option (St T)
  | .world a =>
    if byItself throws s.sys.pool a then (s.sys.step push .allTasks (.pool a)).map fun y => { s with sys := y } else none
  | .main who made =>
    match s.sys.phase with
    | .idle =>
      match s.inWait with
      | some j => if hasReturned s.sys.pool j then some { s with inWait := none } else none
      | none => s.call push who made
    | _ => (s.sys.step push .allTasks .proceed).map fun y => { s with sys := y }

/-- A task of the tutorial, tutorial/tutorial.cpp:51-91; two tasks of the same function differ by their number. -/
structure Job where
  name : String
  number : Nat
  deriving DecidableEq, Repr

/-- `task_1` and `task_2` throw, tutorial/tutorial.cpp:51-61; the others do not, 63-91. -/
def Job.throws (j : Job) : Bool := j.name == "task_1" || j.name == "task_2"

/-- Section 1, tutorial/tutorial.cpp:117-123: the calls on `pool tp(2)`. -/
def section1 : List (Stmt Job) :=
  [.schedule ⟨"task_1", 0⟩, .schedule ⟨"task_2", 0⟩, .schedule ⟨"task_3", 0⟩, .schedule ⟨"task_with_parameter", 4⟩]

/-- The section on futures, tutorial/tutorial.cpp:140-163: the calls on `pool tp`, which has no threads. The call `tp.wait(t)` with an
uninitialised time returns at once, as the pool is idle. `res.get()` and `res2.get()` wait too. -/
def futures : List (Stmt Job) :=
  [.look, .look, .look, .resize 2, .schedule ⟨"task_int_1", 0⟩, .schedule ⟨"task_int_23", 0⟩, .schedule ⟨"task_int_1", 1⟩,
    .await ⟨"task_int_23", 0⟩, .await ⟨"task_int_23", 0⟩, .await ⟨"task_int_1", 1⟩]

/-- Section 2, tutorial/tutorial.cpp:181-194: the calls on `lifo_pool tp(0)`. -/
def section2 : List (Stmt Job) :=
  [.schedule ⟨"task_1", 0⟩, .schedule ⟨"task_2", 0⟩, .schedule ⟨"task_3", 0⟩, .resize 5, .wait 0]

/-- Section 3, tutorial/tutorial.cpp:204-218: the calls on `prio_pool tp(0)`. -/
def section3 : List (Stmt Job) :=
  [.schedule ⟨"task_1", 0⟩, .schedule ⟨"task_2", 0⟩, .schedule ⟨"task_3", 0⟩, .resize 10, .wait 0]

/-- The priorities of section 3, tutorial/tutorial.cpp:208-210. -/
def priority (j : Job) : Nat := if j.name = "task_1" then 1 else if j.name = "task_2" then 10 else 5

/-- The compile tests, tutorial/tutorial.cpp:257-259: the calls on `fifo_pool tp`. -/
def compileTests : List (Stmt Job) := [.resize 0, .look]

/-- `main` of the quick start, quickstart/quickstart.cpp:37-47: the calls on `pool tp(2)`. -/
def quickstart : List (Stmt Job) := [.schedule ⟨"first_task", 0⟩, .schedule ⟨"second_task", 0⟩, .wait 0]

end SpatialOps.Script
