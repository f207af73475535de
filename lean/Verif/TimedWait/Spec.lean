import Verif.TimedWait.Model
import Verif.Threads.Spec

/-!
# Specification vocabulary for waiting with a time limit
-/

namespace SpatialOps.TimedWait
open Threads

/-- States reached from `s0`, in any interleaving. -/
inductive TReach {T : Type} (push : Push T) (s0 : TSys T) : TSys T → Prop
  | init : TReach push s0 s0
  | step {s s' : TSys T} {a : TAct T} : TReach push s0 s → s.step push a = some s' → TReach push s0 s'

/-- Call `i` has returned `b`. -/
def Returned {T : Type} (s : TSys T) (i : Nat) (b : Bool) : Prop :=
  ∃ c, s.calls[i]? = some c ∧ c.state = .result b

/-- Call `i` has begun and not returned. -/
def Pending {T : Type} (s : TSys T) (i : Nat) : Prop :=
  ∃ c, s.calls[i]? = some c ∧ ∀ b, c.state ≠ .result b

/-- Steps of the thread in call `i`, and its clock. -/
def OfCall {T : Type} (i : Nat) : TAct T → Prop
  | .expire i' => i' = i
  | .giveUp i' => i' = i
  | .resume i' => i' = i
  | _ => False

end SpatialOps.TimedWait
