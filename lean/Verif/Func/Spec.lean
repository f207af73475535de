import Verif.Func.Model
import Verif.Nebo.Spec

/-!
# Specification of the analytic field functions
-/

namespace SpatialOps
namespace Func
open Nebo

/-- At most `GHOST_MAX` ghost and boundary cells on each side. -/
def FewGhosts (g : FieldGeo) : Prop :=
  IntVec.Le g.validGhosts.minus ⟨ghostMax, ghostMax, ghostMax⟩ ∧
    IntVec.Le (g.bc.hasExtra + g.validGhosts.plus) ⟨ghostMax, ghostMax, ghostMax⟩

/-- The operation, applied to any destination field `f` and any memory, succeeds whenever the
coordinate field `x` (in other memory, with at most `GHOST_MAX` ghost and boundary cells per side)
covers the destination's interior, sets every cell of `f`
where `x` has a value to `g` of that value, and changes no other block of memory. -/
def Computes (op : FieldObj → Mem ℝ → Outcome (Mem ℝ)) (x : FieldObj) (g : ℝ → ℝ) : Prop :=
  ∀ (n : IntVec) (f : FieldObj) (bf bx : Nat) (mem : Mem ℝ), IntVec.Lt 0 n → Target n f bf → OnMesh n x.geo →
    FewGhosts x.geo → x.values = some bx → bx ≠ bf → (∀ c, Interior n f c → HasCell x.geo c) →
    ∃ mem', op f mem = .ok mem' ∧
      (∀ c, Stored n f c → HasCell x.geo c → mem' bf (cellAddr f.geo c) = g (mem bx (cellAddr x.geo c))) ∧
      (∀ b a, b ≠ bf → mem' b a = mem b a)

end Func
end SpatialOps
