import Verif.MarchPar.Model
import Verif.HeatPar.Spec
import Verif.March.Spec

/-!
# Specification of time steps with threads
-/

namespace SpatialOps
namespace Heat

/-- With the assignments of `cs` divided as `p` says, started on memory `m`: some schedule leads to the end, and the memory at the end of every
one satisfies `P`. -/
def EndsWith {V : Type} [Add V] [Mul V] (cs : List (Cmd V)) (p : Nat → Option Int) (m : Mem V) (P : Mem V → Prop) : Prop :=
  (∃ k x, CmdRun (.idle (divide p cs) m) k (.idle [] x)) ∧ ∀ k x, CmdRun (.idle (divide p cs) m) k (.idle [] x) → P x

/-- How assignments are divided: not at all or into at least one task each. -/
def Division (p : Nat → Option Int) : Prop := ∀ i k, p i = some k → 1 ≤ k

end Heat
end SpatialOps
