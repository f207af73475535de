import Verif.Threads.Model

/-!
# Specification vocabulary for the thread pool
-/

namespace SpatialOps.Threads

/-- States reached from `s0` by actions satisfying `P` (a restriction on what
clients do; `fun _ _ => True` for none). -/
inductive Reach {T : Type} (push : Push T) (P : Pool T → Act T → Prop) (s0 : Pool T) : Pool T → Prop
  | init : Reach push P s0 s0
  | step {s s' : Pool T} {a : Act T} : Reach push P s0 s → P s a → s.step push a = some s' →
      Reach push P s0 s'

/-- A scheduling policy stores the new task and keeps the others. -/
def Keeps {T : Type} (push : Push T) : Prop := ∀ q t, (push q t).Perm (t :: q)

/-- A scheduling policy that takes pending tasks by descending priority, in any
order among equal priorities. -/
def ByPriority {T : Type} (prio : T → Nat) (push : Push T) : Prop :=
  Keeps push ∧ ∀ q t, (q.Pairwise fun a b => prio b ≤ prio a) →
    (push q t).Pairwise fun a b => prio b ≤ prio a

/-- The tasks being executed at this moment. -/
def runningTasks {T : Type} (ws : List (WState T)) : List T :=
  ws.filterMap fun w => match w with
    | .running t => some t
    | _ => none

/-- Actions taken by the workers themselves (not by clients, and no spurious
wake-ups or failures). -/
def WorkerAct {T : Type} : Act T → Prop
  | .fetch _ => True
  | .resume _ => True
  | .finish _ => True
  | .exit _ => True
  | _ => False

/-- No worker can do anything: all are asleep or gone. -/
def Quiet {T : Type} (push : Push T) (s : Pool T) : Prop :=
  ∀ a, WorkerAct a → s.step push a = none

/-- Number of live worker threads. -/
def liveWorkers {T : Type} (ws : List (WState T)) : Nat :=
  ws.countP fun w => match w with
    | .dead => false
    | _ => true

/-- Behaviour under which no wake-up of a worker can be lost: the number of
workers is not reduced and the pool not shut down, at least one worker may be
active, and the system grants the replacement of a worker whose task threw. -/
def NoShrink {T : Type} (s : Pool T) : Act T → Prop
  | .resize n _ => s.wc ≤ n
  | .resizeActive n => 1 ≤ n
  | .terminateAll => False
  | .fail _ made => 1 ≤ made
  | _ => True

/-- Clients never discard pending tasks. -/
def NoClear {T : Type} (_ : Pool T) : Act T → Prop
  | .clear => False
  | _ => True

/-- The limit on active workers is never lowered. -/
def NoLower {T : Type} (s : Pool T) : Act T → Prop
  | .resizeActive n => s.tact ≤ n ∧ s.tact ≤ s.wc
  | _ => True

end SpatialOps.Threads
