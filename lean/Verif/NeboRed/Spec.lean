import Verif.Nebo.Spec
import Verif.NeboRed.Model

/-!
# Specification of reductions
-/

namespace SpatialOps
namespace Nebo

/-- The loop ends and returns `r`: some number of trips is enough. -/
def Returns {R : Type} (f : Nat → Option (Outcome R)) (r : R) : Prop := ∃ k, ∀ j, k ≤ j → f j = some (.ok r)

/-- `cells` lists exactly the cells satisfying `P`, each once, in fortran order. -/
def Lists (cells : List IntVec) (P : IntVec → Prop) : Prop :=
  cells.Pairwise FortranLt ∧ ∀ c, c ∈ cells ↔ P c

/-- The expression has at least one field or mask operand (the C++ types guarantee this
for everything that can be assigned or reduced). -/
def Expr.HasOperand {V : Type} : {t : Ty} → Expr V t → Prop
  | _, .scalar _ | _, .single _ => False
  | _, .field _ | _, .mask _ => True
  | _, .maskShift _ a => a.HasOperand
  | _, .un _ a => a.HasOperand
  | _, .bin _ a b | _, .and a b | _, .or a b => a.HasOperand ∨ b.HasOperand
  | _, .cond c a b => c.HasOperand ∨ a.HasOperand ∨ b.HasOperand
  | _, .stencil _ a => a.HasOperand
  | _, .sumStencil _ a => a.HasOperand

/-- The expression contains no stencil (one with a stencil cannot be reduced, its
`reduce_init` does not compile). -/
def Expr.StencilFree {V : Type} : {t : Ty} → Expr V t → Prop
  | _, .scalar _ | _, .single _ | _, .field _ | _, .mask _ => True
  | _, .maskShift _ a => a.StencilFree
  | _, .un _ a => a.StencilFree
  | _, .bin _ a b | _, .and a b | _, .or a b => a.StencilFree ∧ b.StencilFree
  | _, .cond c a b => c.StencilFree ∧ a.StencilFree ∧ b.StencilFree
  | _, .stencil _ _ => False
  | _, .sumStencil _ _ => False

end Nebo
end SpatialOps
