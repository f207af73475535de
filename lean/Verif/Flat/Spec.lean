import Verif.Nebo.Spec

/-!
# Specification of one- and two-dimensional problems

On a mesh with a single cell in some direction, `get_window_with_ghost` gives fields one layer of cells there and no
memory for ghost cells, whatever their ghost counts. Mesh cells are counted from the first interior cell as
before; in such a direction the only cell a field has is number 0. The definitions below are those of
`Verif.Nebo.Spec` with this reading of "the field has the cell" and "the element of the cell".
-/

namespace SpatialOps
namespace Nebo

/-- Number `c` is among the cells of a direction with `n` interior cells, `lo` ghost cells before and `hi` ghost and
boundary cells after them; only 0 is if `n` is 1. -/
def InSpan (n lo hi c : Int) : Prop := (n = 1 → c = 0) ∧ (n ≠ 1 → -lo ≤ c ∧ c < n + hi)

/-- The same in all three directions. -/
def InSpans (n lo hi c : IntVec) : Prop :=
  InSpan n.x lo.x hi.x c.x ∧ InSpan n.y lo.y hi.y c.y ∧ InSpan n.z lo.z hi.z c.z

/-- Place of cell `c` in a direction with `n` interior cells and `lo` ghost cells before them. -/
def place (n lo c : Int) : Int := if n = 1 then 0 else lo + c

/-- Component-wise `place`. -/
def places (n lo c : IntVec) : IntVec := ⟨place n.x lo.x c.x, place n.y lo.y c.y, place n.z lo.z c.z⟩

/-- Mesh cell `c` is an interior or valid ghost cell of the field. -/
def FlatHas (n : IntVec) (f : FieldGeo) (c : IntVec) : Prop :=
  InSpans n f.validGhosts.minus (f.validGhosts.plus + f.bc.hasExtra) c

/-- The element of the field's memory for mesh cell `c`. -/
def flatAddr (n : IntVec) (f : FieldGeo) (c : IntVec) : Int :=
  fortranPos f.window.npts (f.window.offset + places n f.validGhosts.minus c)

/-- One direction of a field's layout: `ext` cells in the window, `ex` boundary cells, `lo` and `hi` valid
ghosts; a direction with one cell has nothing else, and all fields have the same ghost counts `glo`, `ghi` there. -/
def Span (n ext ex lo hi glo ghi : Int) : Prop :=
  (n = 1 → ext = 1 ∧ ex = 0 ∧ lo = glo ∧ hi = ghi) ∧ (n ≠ 1 → ext = n + ex + lo + hi)

/-- The field lies on the mesh with `n` interior cells; `g` are the ghost counts all fields have in the directions with
a single cell. -/
structure FlatOn (n : IntVec) (g : GhostData) (f : FieldGeo) : Prop where
  fits : f.window.Fits
  x : Span n.x f.window.extent.x f.bc.hasExtra.x f.validGhosts.minus.x f.validGhosts.plus.x g.minus.x g.plus.x
  y : Span n.y f.window.extent.y f.bc.hasExtra.y f.validGhosts.minus.y f.validGhosts.plus.y g.minus.y g.plus.y
  z : Span n.z f.window.extent.z f.bc.hasExtra.z f.validGhosts.minus.z f.validGhosts.plus.z g.minus.z g.plus.z
  extra : IntVec.Le 0 f.bc.hasExtra
  valid : f.validGhosts.Valid
  finite : f.validGhosts.isInf = false
  ghosts : f.ghosts.Valid
  ghostsFinite : f.ghosts.isInf = false

/-- The point does not lead across a direction with a single cell. -/
def InPlane (n p : IntVec) : Prop := (n.x = 1 → p.x = 0) ∧ (n.y = 1 → p.y = 0) ∧ (n.z = 1 → p.z = 0)

namespace Expr

/-- The fields of the expression lie on the mesh and have memory; its stencils do not lead across directions
with a single cell. -/
def FlatWf {V : Type} (n : IntVec) (g : GhostData) : {t : Ty} → Expr V t → Prop
  | _, .scalar _ => True
  | _, .field f => FlatOn n g f.geo ∧ f.values ≠ none
  | _, .single f => f.values ≠ none ∧ 0 < f.geo.window.globNpts
  | _, .mask m => FlatOn n g m.geo ∧ m.bits.size = roundToInt m.geo.window.globNpts
  | _, .maskShift p a => InPlane n p ∧ a.FlatWf n g
  | _, .un _ a => a.FlatWf n g
  | _, .bin _ a b | _, .and a b | _, .or a b => a.FlatWf n g ∧ b.FlatWf n g
  | _, .cond c a b => c.FlatWf n g ∧ a.FlatWf n g ∧ b.FlatWf n g
  | _, .stencil pts a => (pts.All fun q => InPlane n q.1) ∧ a.FlatWf n g
  | _, .sumStencil pts a => (pts.All fun q => InPlane n q) ∧ a.FlatWf n g

/-- The mesh cells at which the expression has a value. -/
def FlatDefined {V : Type} (n : IntVec) : {t : Ty} → Expr V t → IntVec → Prop
  | _, .scalar _, c | _, .single _, c =>
    InSpans n ⟨ghostMax, ghostMax, ghostMax⟩ ⟨ghostMax, ghostMax, ghostMax⟩ c
  | _, .field f, c => FlatHas n f.geo c
  | _, .mask m, c => FlatHas n m.geo c
  | _, .maskShift p a, c => a.FlatDefined n c ∧ a.FlatDefined n (c + p)
  | _, .un _ a, c => a.FlatDefined n c
  | _, .bin _ a b, c | _, .and a b, c | _, .or a b, c => a.FlatDefined n c ∧ b.FlatDefined n c
  | _, .cond t a b, c => t.FlatDefined n c ∧ a.FlatDefined n c ∧ b.FlatDefined n c
  | _, .stencil pts a, c => pts.All fun q => a.FlatDefined n c ∧ a.FlatDefined n (c + q.1)
  | _, .sumStencil pts a, c => pts.All fun q => a.FlatDefined n c ∧ a.FlatDefined n (c + q)

/-- The value of the expression at mesh cell `c`. -/
def flatValue {V : Type} [Add V] [Mul V] (n : IntVec) (m : Mem V) : {t : Ty} → Expr V t → IntVec → t.den V
  | _, .scalar v, _ => v
  | _, .field f, c => m (f.values.getD 0) (flatAddr n f.geo c)
  | _, .single f, _ => m (f.values.getD 0) 0
  | _, .mask k, c => bitAt k.bits.words (flatAddr n k.geo c)
  | _, .maskShift p a, c => a.flatValue n m (c + p)
  | _, .un op a, c => op (a.flatValue n m c)
  | _, .bin op a b, c => op (a.flatValue n m c) (b.flatValue n m c)
  | _, .and a b, c => a.flatValue n m c && b.flatValue n m c
  | _, .or a b, c => a.flatValue n m c || b.flatValue n m c
  | _, .cond t a b, c => if t.flatValue n m c then a.flatValue n m c else b.flatValue n m c
  | _, .stencil pts a, c => pts.sum fun q => (a.flatValue n m (c + q.1) * q.2 : V)
  | _, .sumStencil pts a, c => pts.sum fun q => (a.flatValue n m (c + q) : V)

end Expr

/-- One direction of the room a destination has for its ghosts: in a direction with a single cell its ghost counts
are the common ones. -/
def Room (n ofs npts ex lo gm gp glo ghi : Int) : Prop :=
  (n = 1 → gm = glo ∧ gp = ghi) ∧ (n ≠ 1 → 0 ≤ ofs + lo - gm ∧ ofs + lo + n + ex + gp ≤ npts)

/-- The destination is a writable CPU field on the mesh whose memory, `b`, has room for its ghosts. -/
structure FlatTarget (n : IntVec) (g : GhostData) (l : FieldObj) (b : Nat) : Prop where
  mesh : FlatOn n g l.geo
  cpu : l.memType = .localRam
  writable : l.readOnly = false
  mem : l.values = some b
  x : Room n.x l.geo.window.offset.x l.geo.window.npts.x l.geo.bc.hasExtra.x l.geo.validGhosts.minus.x
    l.geo.ghosts.minus.x l.geo.ghosts.plus.x g.minus.x g.plus.x
  y : Room n.y l.geo.window.offset.y l.geo.window.npts.y l.geo.bc.hasExtra.y l.geo.validGhosts.minus.y
    l.geo.ghosts.minus.y l.geo.ghosts.plus.y g.minus.y g.plus.y
  z : Room n.z l.geo.window.offset.z l.geo.window.npts.z l.geo.bc.hasExtra.z l.geo.validGhosts.minus.z
    l.geo.ghosts.minus.z l.geo.ghosts.plus.z g.minus.z g.plus.z

/-- Interior cells of the destination, boundary cells included. -/
def FlatInterior (n : IntVec) (l : FieldObj) (c : IntVec) : Prop := InSpans n 0 l.geo.bc.hasExtra c

/-- Interior and ghost cells of the destination. -/
def FlatStored (n : IntVec) (l : FieldObj) (c : IntVec) : Prop :=
  InSpans n l.geo.ghosts.minus (l.geo.ghosts.plus + l.geo.bc.hasExtra) c

/-- `m'` differs from `m` exactly by the destination's cells in `region` having the value of `e`. -/
def FlatAssigned {V : Type} [Add V] [Mul V] (n : IntVec) (l : FieldObj) (b : Nat) (e : Expr V .num)
    (region : IntVec → Prop) (m m' : Mem V) : Prop :=
  (∀ c, region c → m' b (flatAddr n l.geo c) = e.flatValue n m c) ∧
  (∀ blk a, (blk ≠ b ∨ ∀ c, region c → flatAddr n l.geo c ≠ a) → m' blk a = m blk a)

/-- A field's layout as the public constructors build it: a window from `get_window_with_ghost`, then
`SpatialField(window, bc, ghosts, ...)`. -/
def BuiltAs (n : IntVec) (g : GhostData) (bc : BcInfo) (f : FieldGeo) : Prop :=
  ∃ w, getWindowWithGhost n g bc = .ok w ∧ FieldGeo.ctor false w bc g = .ok f

/-- The ghost counts are not negative and not beyond the bound that stands for "infinitely many". -/
def Moderate (g : GhostData) : Prop :=
  g.Valid ∧ IntVec.Le g.minus ⟨ghostMax, ghostMax, ghostMax⟩ ∧ IntVec.Le g.plus ⟨ghostMax, ghostMax, ghostMax⟩

/-- In the directions with a single cell the field's memory ends with its window, as it does for fields built by the public
constructors. -/
def Thin (n : IntVec) (f : FieldGeo) : Prop :=
  (n.x = 1 → f.window.npts.x = f.window.offset.x + 1) ∧ (n.y = 1 → f.window.npts.y = f.window.offset.y + 1) ∧
  (n.z = 1 → f.window.npts.z = f.window.offset.z + 1)

/-- The call ends with an exception or a failed assertion; nothing has been stored. -/
def Refused {α : Type} (o : Outcome α) : Prop := o = .abort ∨ o = .throws

end Nebo
end SpatialOps
