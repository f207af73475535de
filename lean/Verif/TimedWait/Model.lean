import Verif.Threads.Model

/-!
# Model of waiting with a time limit

spatialops/threadpool/threadpool/pool.hpp:175-185, detail/pool_core.hpp:251-278:
`wait(timestamp, task_threshold)`.

On top of the pool (`Threads.Pool`): any number of calls of the timed `wait`, each
of them a client of the pool, together with the clock, which may run out at any moment
after the call has gone to sleep. The client record of a call that has given up stays in
the pool's list and is not looked at again.
-/

namespace SpatialOps.TimedWait
open Threads

/-- Where a call of the timed `wait` is, detail/pool_core.hpp:257-278. -/
inductive TState where
  /-- in the loop; whether asleep or woken is in the client's state -/
  | inLoop
  /-- `timed_wait` has noticed that the time is up; the lock is not yet got back -/
  | expired
  /-- returned with this result -/
  | result (b : Bool)
  deriving DecidableEq, Repr

/-- A call: its client in the pool and its threshold. detail/pool_core.hpp:257. -/
structure Call where
  client : Nat
  threshold : Nat
  state : TState
  deriving DecidableEq, Repr

/-- The pool and the calls of the timed `wait`. detail/pool_core.hpp:109-124, 257. -/
structure TSys (T : Type) where
  pool : Pool T
  calls : List Call

/-- A pool just created, pool.hpp:93-98. -/
def TSys.create {T : Type} (n made : Nat) : TSys T := ⟨Pool.create n made, []⟩

/-- Actions. detail/pool_core.hpp:172-438, 257-278. -/
inductive TAct (T : Type) where
  /-- any action of the pool, except the resumption of a timed client -/
  | pool (a : Act T)
  /-- a call of `wait(timestamp, threshold)` begins -/
  | wait (threshold : Nat)
  /-- the time of call `i`, asleep, is up -/
  | expire (i : Nat)
  /-- call `i`, whose time is up, gets the lock back -/
  | giveUp (i : Nat)
  /-- call `i`, woken, gets the lock back -/
  | resume (i : Nat)
  deriving DecidableEq, Repr

/-- Has the client returned from its loop? detail/pool_core.hpp:264, 271. -/
def stateOf {T : Type} (p : Pool T) (j : Nat) : TState :=
  match p.clients[j]? with
  | some (.returned _) => .result true
  | _ => .inLoop

/-- Is the action the resumption of the client of a timed call? detail/pool_core.hpp:266, 273. -/
def resumesTimed {T : Type} (cs : List Call) : Act T → Bool
  | .clientResume j => cs.any fun c => c.client == j
  | _ => false

/-- One action; `none` if it is not enabled. `wait(timestamp, task_threshold)`,
detail/pool_core.hpp:257-278. -/
def TSys.step {T : Type} (push : Push T) (s : TSys T) : TAct T → Option (TSys T)
  | .pool a => if resumesTimed s.calls a then none else (s.pool.step push a).map fun p => { s with pool := p }
  | .wait k => (s.pool.step push (.wait (.tasks k))).map fun p =>
      ⟨p, s.calls ++ [⟨s.pool.clients.length, k, stateOf p s.pool.clients.length⟩]⟩
  | .expire i => match s.calls[i]? with
    | some ⟨j, k, .inLoop⟩ => match s.pool.clients[j]? with
      | some (.waiting _) => some { s with calls := s.calls.set i ⟨j, k, .expired⟩ }
      | _ => none
    | _ => none
  | .giveUp i => match s.calls[i]? with
    | some ⟨j, k, .expired⟩ => some { s with calls := s.calls.set i ⟨j, k, .result false⟩ }
    | _ => none
  | .resume i => match s.calls[i]? with
    | some ⟨j, k, .inLoop⟩ => (s.pool.step push (.clientResume j)).map fun p =>
        ⟨p, s.calls.set i ⟨j, k, stateOf p j⟩⟩
    | _ => none

/-- A run. detail/pool_core.hpp:172-438 repeated. -/
def TSys.run {T : Type} (push : Push T) (s : TSys T) : List (TAct T) → Option (TSys T)
  | [] => some s
  | a :: as => (s.step push a).bind fun s' => s'.run push as

end SpatialOps.TimedWait
