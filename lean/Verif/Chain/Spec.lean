import Verif.Chain.Model
import Verif.Nebo.Spec

/-!
# Specification: intermediate fields and composed expressions

`subst` writes an expression in place of a field, `composed` does so for all intermediate fields of a sequence of
assignments.
-/

namespace SpatialOps
namespace Nebo
namespace Expr

/-- The expression with `e` in place of the field whose memory is `b`. -/
def subst {V : Type} : {t : Ty} → Expr V t → Nat → Expr V .num → Expr V t
  | _, .scalar v, _, _ => .scalar v
  | _, .field f, b, e => if f.values = some b then e else .field f
  | _, .single f, _, _ => .single f
  | _, .mask m, _, _ => .mask m
  | _, .maskShift p a, b, e => .maskShift p (a.subst b e)
  | _, .un op a, b, e => .un op (a.subst b e)
  | _, .bin op a a', b, e => .bin op (a.subst b e) (a'.subst b e)
  | _, .and a a', b, e => .and (a.subst b e) (a'.subst b e)
  | _, .or a a', b, e => .or (a.subst b e) (a'.subst b e)
  | _, .cond c a a', b, e => .cond (c.subst b e) (a.subst b e) (a'.subst b e)
  | _, .stencil pts a, b, e => .stencil pts (a.subst b e)
  | _, .sumStencil pts a, b, e => .sumStencil pts (a.subst b e)

/-- The memory of field `t` is used in the expression only through `t` itself, not through another window on it or as a
single value. -/
def UsedAs {V : Type} (t : FieldObj) : {s : Ty} → Expr V s → Prop
  | _, .scalar _ | _, .mask _ => True
  | _, .field f => f.values = t.values → f.geo = t.geo
  | _, .single f => f.values ≠ t.values
  | _, .maskShift _ a | _, .un _ a | _, .stencil _ a | _, .sumStencil _ a => a.UsedAs t
  | _, .bin _ a b | _, .and a b | _, .or a b => a.UsedAs t ∧ b.UsedAs t
  | _, .cond c a b => c.UsedAs t ∧ a.UsedAs t ∧ b.UsedAs t

end Expr

/-- The expression `F` with the intermediate fields replaced by what was assigned to them: the last
statement first, since earlier intermediate fields may occur in later statements. -/
def composed {V : Type} : List (Stmt V) → Expr V .num → Expr V .num
  | [], F => F
  | s :: rest, F => (composed rest F).subst (s.t.values.getD 0) s.e

/-- The statements can be executed: each assigns to a field on the mesh with memory for its valid ghosts, an expression
that has values at all its interior cells and does not read it elsewhere; and the field is later used as
it is. -/
def Steps {V : Type} (n : IntVec) (F : Expr V .num) : List (Stmt V) → Prop
  | [] => True
  | s :: rest => (∃ b, Target n s.t b) ∧ (∀ c, HasCell s.t.geo c → Stored n s.t c) ∧ s.e.Wf n ∧
      (∀ c, Interior n s.t c → s.e.DefinedAt n c) ∧ s.e.Independent s.t 0 ∧
      (∀ s' ∈ rest, s'.e.UsedAs s.t) ∧ F.UsedAs s.t ∧ Steps n F rest

/-- The composed expression and all partly composed ones have a value at cell `c`. -/
def DefinedThrough {V : Type} (n : IntVec) (F : Expr V .num) (c : IntVec) : List (Stmt V) → Prop
  | [] => F.DefinedAt n c
  | s :: rest => (composed (s :: rest) F).DefinedAt n c ∧ DefinedThrough n F c rest

end Nebo
end SpatialOps
