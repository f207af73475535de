import Verif.Nebo.Model

/-!
# Model of a sequence of Nebo assignments

NeboAssignment.h:28-178 on top of `Verif.Nebo.Model`: consecutive statements `t <<= e;`. A field object is not
changed by being assigned to: `NeboField<Initial>` holds a copy of it (NeboLhs.h:56-58, 387) and only the copy's valid
ghosts are reset (NeboLhs.h:164-169), so later statements see the field with the valid ghosts it had.
-/

namespace SpatialOps
namespace Nebo

/-- A statement `t <<= e`. NeboAssignment.h:50-59. -/
structure Stmt (V : Type) where
  t : FieldObj
  e : Expr V .num

/-- Statements one after the other. NeboAssignment.h:50-59. -/
def runAll {V : Type} [Add V] [Mul V] : List (Stmt V) → Mem V → Outcome (Mem V)
  | [], m => .ok m
  | s :: rest, m => assign s.t s.e m >>= runAll rest

end Nebo
end SpatialOps
