import Verif.Threads.Model

/-!
# Model of shutting a thread pool down

spatialops/threadpool/threadpool/shutdown_policies.hpp, pool.hpp,
detail/pool_core.hpp.

On top of the pool (`Threads.Pool`): one thread, the one destroying the last copy of
the `thread_pool` object, runs `shutdown()` of the chosen policy, while the workers and
any other threads go on. Each action is one critical section of the monitor mutex.
Not modelled: joining the threads of the terminated workers (they have left the pool
for good by then).
-/

namespace SpatialOps.Shutdown
open Threads

/-- The shutdown policies, shutdown_policies.hpp:35-90. -/
inductive Policy where
  /-- `wait_for_all_tasks`, shutdown_policies.hpp:35-44 -/
  | allTasks
  /-- `wait_for_active_tasks`, shutdown_policies.hpp:53-63 -/
  | activeTasks
  /-- `immediately`, shutdown_policies.hpp:74-83 -/
  | immediately
  deriving DecidableEq, Repr

/-- Where the thread running `shutdown()` is. shutdown_policies.hpp:35-83,
detail/pool_core.hpp:229-249, 282-306. -/
inductive Phase where
  /-- `shutdown()` has not been called -/
  | idle
  /-- after `pool.clear()` -/
  | cleared
  /-- in, or just back from, `pool.wait()`, as client `j` -/
  | waiting (j : Nat)
  /-- in, or just back from, the wait of `terminate_all_workers(true)`, as client `j` -/
  | ending (j : Nat)
  /-- `shutdown()` has returned -/
  | done
  deriving DecidableEq, Repr

/-- The pool, the thread shutting it down, and (for the observer) the state of the pool
when `shutdown()` was called. detail/pool_core.hpp:109-124, 167-169. -/
structure Sys (T : Type) where
  pool : Pool T
  phase : Phase
  atCall : Option (Pool T)

/-- A pool just created, pool.hpp:93-98. -/
def Sys.create {T : Type} (n made : Nat) : Sys T := ⟨Pool.create n made, .idle, none⟩

/-- Actions: of the workers, other threads and the system (`pool`), and of the thread
running `shutdown()`. shutdown_policies.hpp:35-83. -/
inductive SAct (T : Type) where
  | pool (a : Act T)
  | call
  | proceed
  deriving DecidableEq, Repr

/-- `terminate_all_workers` is private to the shutdown policy: no other thread calls it.
detail/pool_core.hpp:280-282. -/
def isPrivate {T : Type} : Act T → Bool
  | .terminateAll => true
  | .wait .allGone => true
  | _ => false

/-- Has client `j` returned from its waiting call? detail/pool_core.hpp:229-249, 293-296. -/
def hasReturned {T : Type} (p : Pool T) (j : Nat) : Bool :=
  match p.clients[j]? with
  | some (.returned _) => true
  | _ => false

/-- `pool.wait()`, called by the thread running `shutdown()`: entering it.
detail/pool_core.hpp:229-240. -/
def enterWait {T : Type} (push : Push T) (s : Sys T) : Option (Sys T) :=
  (s.pool.step push (.wait (.tasks 0))).map fun p => { s with pool := p, phase := .waiting s.pool.clients.length }

/-- `terminate_all_workers(true)` up to the first wait: one critical section.
detail/pool_core.hpp:282-296. -/
def enterTerminate {T : Type} (push : Push T) (s : Sys T) : Option (Sys T) :=
  (s.pool.step push .terminateAll).bind fun p =>
    (p.step push (.wait .allGone)).map fun p' => { s with pool := p', phase := .ending p.clients.length }

/-- One action; `none` if it is not enabled. `shutdown()`, shutdown_policies.hpp:38-43,
56-62, 77-82. -/
def Sys.step {T : Type} (push : Push T) (pol : Policy) (s : Sys T) : SAct T → Option (Sys T)
  | .pool a => if isPrivate a then none else (s.pool.step push a).map fun p => { s with pool := p }
  | .call =>
    match s.phase with
    | .idle =>
      match pol with
      | .allTasks => enterWait push { s with atCall := some s.pool }
      | _ => (s.pool.step push .clear).map fun p => { pool := p, phase := .cleared, atCall := some s.pool }
    | _ => none
  | .proceed =>
    match s.phase with
    | .cleared =>
      match pol with
      | .immediately => (s.pool.step push .terminateAll).map fun p => { s with pool := p, phase := .done }
      | _ => enterWait push s
    | .waiting j => if hasReturned s.pool j then enterTerminate push s else none
    | .ending j => if hasReturned s.pool j then some { s with phase := .done } else none
    | _ => none

/-- A run. shutdown_policies.hpp:35-83 among everything else. -/
def Sys.run {T : Type} (push : Push T) (pol : Policy) (s : Sys T) : List (SAct T) → Option (Sys T)
  | [] => some s
  | a :: as => (s.step push pol a).bind fun s' => s'.run push pol as

end SpatialOps.Shutdown
