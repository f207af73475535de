import Verif.Nebo.Spec
import Verif.NeboCond.Model

/-!
# Specification of `cond`
-/

namespace SpatialOps
namespace Nebo

variable {V : Type} [Add V] [Mul V]

/-- Does the condition hold at a cell? -/
def TestArg.holds (m : Mem V) (c : IntVec) : TestArg V → Bool
  | .plain b => b
  | .expr t => t.value m c

/-- The value at a cell. -/
def ValArg.at (m : Mem V) (c : IntVec) : ValArg V → V
  | .plain d => d
  | .expr e => e.value m c

/-- The value of the first clause, in the order written, whose condition holds at the
cell, and the final value if none does. -/
def firstHolding (m : Mem V) (c : IntVec) (clauses : List (TestArg V × ValArg V)) (last : ValArg V) : V :=
  match clauses.find? fun cl => cl.1.holds m c with
  | some cl => cl.2.at m c
  | none => last.at m c

omit [Add V] [Mul V] in
/-- `P` holds of every expression appearing in the call. -/
def AllArgs (P : {t : Ty} → Expr V t → Prop) (clauses : List (TestArg V × ValArg V)) (last : ValArg V) : Prop :=
  (∀ cl ∈ clauses, P cl.1.toExpr ∧ P cl.2.toExpr) ∧ P last.toExpr

end Nebo
end SpatialOps
