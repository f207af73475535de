import Verif.Shutdown.Model
import Verif.Threads.Spec

/-!
# Specification vocabulary for shutting a thread pool down
-/

namespace SpatialOps.Shutdown
open Threads

/-- States reached from `s0` where the workers, other threads and the system only take
actions satisfying `P` (`fun _ _ => True`: anything), and the thread running
`shutdown()` calls it at any moment and takes its steps at any moment. -/
inductive SReach {T : Type} (push : Push T) (pol : Policy) (P : Sys T → Act T → Prop) (s0 : Sys T) :
    Sys T → Prop
  | init : SReach push pol P s0 s0
  | pool {s s' : Sys T} {a : Act T} : SReach push pol P s0 s → P s a →
      s.step push pol (.pool a) = some s' → SReach push pol P s0 s'
  | call {s s' : Sys T} : SReach push pol P s0 s → s.step push pol .call = some s' → SReach push pol P s0 s'
  | proceed {s s' : Sys T} : SReach push pol P s0 s → s.step push pol .proceed = some s' →
      SReach push pol P s0 s'

/-- Nobody discards tasks. -/
def NobodyClears {T : Type} (_ : Sys T) : Act T → Prop
  | .clear => False
  | _ => True

/-- Nobody hands over tasks once `shutdown()` has been called. -/
def NobodySchedules {T : Type} (s : Sys T) : Act T → Prop
  | .schedule _ _ => s.phase = .idle
  | _ => True

/-- What goes on by itself: steps of the workers, of clients that have been woken, and
of the thread running `shutdown()`. No new calls of other threads. -/
def OwnStep {T : Type} : SAct T → Prop
  | .pool (.clientResume _) => True
  | .pool a => WorkerAct a
  | .call => False
  | .proceed => True

end SpatialOps.Shutdown
