/-!
# Model of the thread pool

spatialops/threadpool/threadpool/detail/pool_core.hpp, worker_thread.hpp,
scheduling_policies.hpp, size_policies.hpp.

The pool is a transition system. Each action is one critical section of the
monitor mutex (or one unlocked step of a thread); the choices the code leaves to
the system (which thread runs, which sleeper a `notify_one` picks, spurious
wake-ups, thread creation failures, a task throwing) are part of the action.
Counters are integers: `size_t` wrap-around is excluded by an invariant, not by
the representation.
-/

namespace SpatialOps.Threads

/-- Where a worker thread is, worker_thread.hpp:75-82 and pool_core.hpp:386-430. -/
inductive WState (T : Type) where
  /-- created, or between two calls of `execute_task`; does not hold the lock -/
  | ready
  /-- asleep in `m_task_or_terminate_workers_event.wait(lock)`, pool_core.hpp:413 -/
  | waiting
  /-- woken, has not yet got the lock back -/
  | woken
  /-- executing a task outside the lock, pool_core.hpp:425 -/
  | running (t : T)
  /-- `execute_task` returned false; `worker_destructed` not yet run -/
  | leaving
  | dead
  deriving DecidableEq, Repr

/-- What a client thread waits for: `wait(threshold)`, pool_core.hpp:229-248, or
the termination of all workers, pool_core.hpp:293-296. -/
inductive CKind where
  | tasks (threshold : Nat)
  | allGone
  deriving DecidableEq, Repr

/-- A client thread inside a waiting call. detail/pool_core.hpp:229-249, 282-300. -/
inductive CState where
  | waiting (k : CKind)
  | woken (k : CKind)
  | returned (k : CKind)
  deriving DecidableEq, Repr

/-- Members of `pool_core`, pool_core.hpp:109-124, the threads attached to it and
an observer's record (`scheduled`, `started`, `finished`, `failed`, `cleared`). The
list of terminated workers kept for joining is not modelled. -/
structure Pool (T : Type) where
  wc : Int
  target : Int
  act : Int
  tact : Int
  queue : List T
  terminating : Bool
  workers : List (WState T)
  clients : List CState
  scheduled : List T
  started : List T
  finished : List T
  failed : List T
  cleared : List T
  deriving DecidableEq, Repr

/-- `pool_core()`, pool_core.hpp:128-139. -/
def Pool.empty {T : Type} : Pool T :=
  ⟨0, 0, 0, 0, [], false, [], [], [], [], [], [], []⟩

/-- Effect of `notify_all` on one sleeping worker. detail/pool_core.hpp:289, 338. -/
def wakeW {T : Type} : WState T → WState T
  | .waiting => .woken
  | s => s

/-- Effect of `notify_all` on one sleeping client. detail/pool_core.hpp:361, 378, 412. -/
def wakeC : CState → CState
  | .waiting k => .woken k
  | s => s

/-- How the scheduling policy stores a new task; the next task to run is the
head. scheduling_policies.hpp:59, 131, 207. -/
abbrev Push (T : Type) := List T → T → List T

/-- `fifo_scheduler::push`, scheduling_policies.hpp:59-63. -/
def fifoPush {T : Type} : Push T := fun q t => q ++ [t]
/-- `lifo_scheduler::push`, scheduling_policies.hpp:131-135. -/
def lifoPush {T : Type} : Push T := fun q t => t :: q
/-- `prio_scheduler::push`, scheduling_policies.hpp:207-211: a list in descending
priority stands for the `std::priority_queue`. Among equal priorities the standard
leaves the order open; here the earlier one comes first. `C34_prio` holds for any
order among them. -/
def prioInsert {T : Type} (prio : T → Nat) (t : T) : List T → List T
  | [] => [t]
  | u :: q => if prio u < prio t then t :: u :: q else u :: prioInsert prio t q

/-- `prio_scheduler::push`, see `prioInsert`. scheduling_policies.hpp:207-211. -/
def prioPush {T : Type} (prio : T → Nat) : Push T := fun q t => prioInsert prio t q

namespace Pool
variable {T : Type}

/-- The condition a client waits for: the negated loop conditions of
pool_core.hpp:236, 243, 293. -/
def cond (s : Pool T) : CKind → Bool
  | .tasks 0 => decide (s.act = 0) && s.queue.isEmpty
  | .tasks (n + 1) => !decide (((n + 1 : Nat) : Int) < s.act + s.queue.length)
  | .allGone => !decide (0 < s.wc)

/-- Creation of up to `want` threads of which the system grants `made`,
pool_core.hpp:325-336. -/
def grow (s : Pool T) (k : Nat) : Pool T :=
  { s with wc := s.wc + k, act := s.act + k, workers := s.workers ++ List.replicate k .ready }

/-- `resize(worker_count)`, pool_core.hpp:313-342; `made` is how many threads the
system is able to create (`thread_resource_error` after that). -/
def resize (s : Pool T) (n made : Nat) : Pool T :=
  if s.terminating then s
  else
    let s := { s with target := n }
    if s.wc ≤ s.target then s.grow (min made (s.target - s.wc).toNat)
    else { s with workers := s.workers.map wakeW }

/-- `resize_active(worker_count)`, pool_core.hpp:349-352 (no lock, no notification). -/
def resizeActive (s : Pool T) (n : Nat) : Pool T :=
  { s with tact := if (n : Int) < s.wc then n else s.wc }

/-- `thread_pool(initial_threads)`, pool.hpp:93-98 and size_policies.hpp:89-92. -/
def create (n made : Nat) : Pool T := (empty.resize n made).resizeActive n

/-- The waiting loop and the fetch of `execute_task`, pool_core.hpp:401-420, by
worker `i` holding the lock and counted as active. -/
def tryFetch (s : Pool T) (i : Nat) : Pool T :=
  match s.queue with
  | [] =>
    if s.target < s.wc then { s with workers := s.workers.set i .leaving }
    else { s with act := s.act - 1, clients := s.clients.map wakeC, workers := s.workers.set i .waiting }
  | t :: q =>
    if s.tact < s.act then
      if s.target < s.wc then { s with workers := s.workers.set i .leaving }
      else { s with act := s.act - 1, clients := s.clients.map wakeC, workers := s.workers.set i .waiting }
    else { s with queue := q, started := s.started ++ [t], workers := s.workers.set i (.running t) }

/-- Worker `i` ends: `worker_destructed`, pool_core.hpp:373-384, and the common
part of `worker_died_unexpectedly`, 355-371. -/
def gone (s : Pool T) (i : Nat) : Pool T :=
  { s with wc := s.wc - 1, act := s.act - 1, clients := s.clients.map wakeC, workers := s.workers.set i .dead }

end Pool

/-- Actions of clients, of workers and of the system. detail/pool_core.hpp:172-438. -/
inductive Act (T : Type) where
  /-- `schedule(t)`; `who` is the sleeping worker picked by `notify_one` -/
  | schedule (t : T) (who : Option Nat)
  | clear
  | resize (n made : Nat)
  | resizeActive (n : Nat)
  /-- first part of `terminate_all_workers` -/
  | terminateAll
  /-- a client enters a waiting call -/
  | wait (k : CKind)
  | clientSpurious (j : Nat)
  | clientResume (j : Nat)
  /-- worker `i` enters `execute_task` -/
  | fetch (i : Nat)
  | spurious (i : Nat)
  /-- worker `i` gets the lock back after having been woken -/
  | resume (i : Nat)
  /-- the task of worker `i` returns -/
  | finish (i : Nat)
  /-- the task of worker `i` throws; `made` as for `resize` -/
  | fail (i : Nat) (made : Nat)
  /-- worker `i` runs `worker_destructed` -/
  | exit (i : Nat)
  deriving DecidableEq, Repr

namespace Pool
variable {T : Type}

/-- One action; `none` if it is not enabled.
detail/pool_core.hpp:172-438, worker_thread.hpp:66-100. -/
def step (push : Push T) (s : Pool T) : Act T → Option (Pool T)
  | .schedule t who =>
    let s' := { s with queue := push s.queue t, scheduled := s.scheduled ++ [t] }
    match who with
    | some i => match s.workers[i]? with
      | some .waiting => some { s' with workers := s.workers.set i .woken }
      | _ => none
    | none => if s.workers.all (fun w => match w with | .waiting => false | _ => true) then some s' else none
  | .clear => some { s with queue := [], cleared := s.cleared ++ s.queue }
  | .resize n made => some (s.resize n made)
  | .resizeActive n => some (s.resizeActive n)
  | .terminateAll =>
    some { s with terminating := true, target := 0, workers := s.workers.map wakeW }
  | .wait k =>
    some { s with clients := s.clients ++ [if s.cond k then .returned k else .waiting k] }
  | .clientSpurious j => match s.clients[j]? with
    | some (.waiting k) => some { s with clients := s.clients.set j (.woken k) }
    | _ => none
  | .clientResume j => match s.clients[j]? with
    | some (.woken k) =>
      some { s with clients := s.clients.set j (if s.cond k then .returned k else .waiting k) }
    | _ => none
  | .fetch i => match s.workers[i]? with
    | some .ready =>
      if s.target < s.wc then some { s with workers := s.workers.set i .leaving }
      else some (s.tryFetch i)
    | _ => none
  | .spurious i => match s.workers[i]? with
    | some .waiting => some { s with workers := s.workers.set i .woken }
    | _ => none
  | .resume i => match s.workers[i]? with
    | some .woken => some (Pool.tryFetch { s with act := s.act + 1 } i)
    | _ => none
  | .finish i => match s.workers[i]? with
    | some (.running t) =>
      some { s with workers := s.workers.set i .ready, finished := s.finished ++ [t] }
    | _ => none
  | .fail i made => match s.workers[i]? with
    | some (.running t) =>
      let s1 := { s.gone i with failed := s.failed ++ [t] }
      some (if s1.terminating then s1 else s1.resize (s1.wc + 1).toNat made)
    | _ => none
  | .exit i => match s.workers[i]? with
    | some .leaving => some (s.gone i)
    | _ => none

/-- A run. detail/pool_core.hpp:172-438 repeated. -/
def run (push : Push T) (s : Pool T) : List (Act T) → Option (Pool T)
  | [] => some s
  | a :: as => (s.step push a).bind fun s' => s'.run push as

end Pool
end SpatialOps.Threads
