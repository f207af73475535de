import Verif.Release.Spec
import Verif.Flat.Spec
import Verif.Iter.Spec

/-!
# Specification: assignments whose operands lie on another mesh than the destination

The model is that of area Nebo; nothing in it says that the meshes agree.
-/

namespace SpatialOps
namespace Nebo

/-- Wherever the expression is evaluated, a field on a mesh of `n` cells is read. -/
def Expr.AlwaysReads {V : Type} (n : IntVec) : {t : Ty} → Expr V t → Prop
  | _, .scalar _ | _, .single _ | _, .mask _ => False
  | _, .field f => OnMesh n f.geo
  | _, .maskShift _ a | _, .un _ a => a.AlwaysReads n
  | _, .bin _ a b => a.AlwaysReads n ∨ b.AlwaysReads n
  | _, .and a _ | _, .or a _ => a.AlwaysReads n
  | _, .cond c a b => c.AlwaysReads n ∨ (a.AlwaysReads n ∧ b.AlwaysReads n)
  | _, .stencil _ a | _, .sumStencil _ a => a.AlwaysReads n

/-- A mesh with no more cells than `n` in any direction, and fewer in one. -/
def Smaller (n' n : IntVec) : Prop := IntVec.Lt 0 n' ∧ IntVec.Le n' n ∧ n' ≠ n

/-- The number of cells of a block. -/
def cells (d : IntVec) : Int := d.x * d.y * d.z

/-- The `lo` cells before and the `hi` cells after a mesh of `n` cells, and the mesh. -/
def Around (n lo hi c : IntVec) : Prop := IntVec.Le (-lo) c ∧ IntVec.Lt c (n + hi)

/-- Cell `c` of the mesh of `n` cells and cell `c'` of the mesh of `n'` cells are reached after the same number of
cells, row by row, when both are walked with `lo` cells before and `hi` cells after them. -/
def SameTurn (n n' lo hi c c' : IntVec) : Prop :=
  ∃ k, IsNthCell (n + lo + hi) k (c + lo) ∧ IsNthCell (n' + lo + hi) k (c' + lo)

end Nebo
end SpatialOps
