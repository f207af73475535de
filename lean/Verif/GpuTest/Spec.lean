import Verif.GpuTest.Model
import Verif.NeboGpu.Spec
import Verif.FieldMem.Spec

/-!
# Specification of assignment in a GPU test build

The meaning of an expression is the meaning it has on the memory in which each of its fields
lives, wherever that is.
-/

namespace SpatialOps
namespace Nebo

/-- The expression with the data each field has where it lives. -/
def Expr.atHome {V : Type} : {t : Ty} → Expr V t → Expr V t
  | _, .scalar v => .scalar v
  | _, .field f => .field { f with values := f.home }
  | _, .single f => .single { f with values := f.home }
  | _, .mask k => .mask k
  | _, .maskShift p a => .maskShift p a.atHome
  | _, .un op a => .un op a.atHome
  | _, .bin op a b => .bin op a.atHome b.atHome
  | _, .and a b => .and a.atHome b.atHome
  | _, .or a b => .or a.atHome b.atHome
  | _, .cond c a b => .cond c.atHome a.atHome b.atHome
  | _, .stencil pts a => .stencil pts a.atHome
  | _, .sumStencil pts a => .sumStencil pts a.atHome

/-- The field's recorded size is that of its memory, and it has no copy on device 0 yet. -/
def Portable (f : FieldObj) : Prop :=
  f.alloc = f.geo.window.globNpts ∧ f.consumers.lookup 0 = none

/-- The cells an assignment in a GPU test build stores a value at: those of the interior and, for `<<=`, of
the destination's valid ghosts where the expression has one. -/
def TestRegion {V : Type} (useGhost : Bool) (n : IntVec) (l : FieldObj) (e : Expr V .num) (c : IntVec) : Prop :=
  if useGhost then HasCell l.geo c ∧ e.DefinedAt n c else Interior n l c

/-- Memory after an assignment in a GPU test build: cells of `region` hold the value of the
expression, all other elements of the destination's memory `b` are zero, and nothing else has changed except blocks
obtained for the call (`fresh`). -/
def TestAssigned {V : Type} [Add V] [Mul V] (zero : V) (fresh : Nat → Nat) (l : FieldObj) (b : Nat) (e : Expr V .num)
    (region : IntVec → Prop) (m m' : Mem V) : Prop :=
  (∀ c, region c → m' b (cellAddr l.geo c) = e.value m c) ∧
  (∀ a, 0 ≤ a → a < l.geo.window.globNpts → (∀ c, region c → cellAddr l.geo c ≠ a) → m' b a = zero) ∧
  (∀ blk a, (∀ k, blk ≠ fresh k) → (blk ≠ b ∨ a < 0 ∨ l.geo.window.globNpts ≤ a) → m' blk a = m blk a)

end Nebo
end SpatialOps
