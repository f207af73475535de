import Verif.Nebo.Model
import Verif.Mask.Lemmas
import Verif.Geometry.Spec

/-!
# Specification of field expressions

Cells of the mesh are integer triples counted from the first interior cell; all
fields of one expression lie on the same mesh of `n` interior cells. `value` is
the pointwise meaning of an expression at a mesh cell, `DefinedAt` says where the
expression has one. Neither mentions windows being cut, iterators or ghosts being
traded off.
-/

namespace SpatialOps
namespace Nebo

/-- Block index of the first interior cell of a field. -/
def origin (f : FieldGeo) : IntVec := f.window.offset + f.validGhosts.minus

/-- The field lies on the mesh with `n` interior cells: its window is inside its
allocation and consists of the `n` cells, the boundary cells and the valid ghosts;
counts are non-negative and fewer than `GHOST_MAX` (not flagged infinite). -/
structure OnMesh (n : IntVec) (f : FieldGeo) : Prop where
  fits : f.window.Fits
  size : f.window.extent = n + f.bc.hasExtra + f.validGhosts.minus + f.validGhosts.plus
  extra : IntVec.Le 0 f.bc.hasExtra
  valid : f.validGhosts.Valid
  finite : f.validGhosts.isInf = false
  ghosts : f.ghosts.Valid
  ghostsFinite : f.ghosts.isInf = false

/-- The element of the field's memory for mesh cell `c`. -/
def cellAddr (f : FieldGeo) (c : IntVec) : Int := fortranPos f.window.npts (origin f + c)

/-- Mesh cell `c` is an interior or valid ghost cell of the field. -/
def HasCell (f : FieldGeo) (c : IntVec) : Prop := f.window.Covers (origin f + c)

/-- Every element of a point collection satisfies `P`. -/
def Pts.All {α : Type} (P : α → Prop) (pts : Pts α) : Prop := ∀ a ∈ pts.toList, P a

/-- The sum of the terms of the points, earlier points first. -/
def Pts.sum {V α : Type} [Add V] (f : α → V) : Pts α → V
  | .one a => f a
  | .more e a => e.sum f + f a

namespace Expr

/-- The fields of the expression lie on the mesh and have memory on the CPU. -/
def Wf {V : Type} (n : IntVec) : {t : Ty} → Expr V t → Prop
  | _, .scalar _ => True
  | _, .field f => OnMesh n f.geo ∧ f.values ≠ none
  | _, .single f => f.values ≠ none ∧ 0 < f.geo.window.globNpts
  | _, .mask m => OnMesh n m.geo ∧ m.bits.size = roundToInt m.geo.window.globNpts
  | _, .maskShift _ a => a.Wf n
  | _, .un _ a => a.Wf n
  | _, .bin _ a b | _, .and a b | _, .or a b => a.Wf n ∧ b.Wf n
  | _, .cond c a b => c.Wf n ∧ a.Wf n ∧ b.Wf n
  | _, .stencil _ a => a.Wf n
  | _, .sumStencil _ a => a.Wf n

/-- Every field of the expression is consistent in itself: it has memory and lies on
some mesh of its own with at least one cell in each direction. Different fields may
have different sizes. -/
def Sane {V : Type} : {t : Ty} → Expr V t → Prop
  | _, .scalar _ => True
  | _, .field f => (∃ n, IntVec.Lt 0 n ∧ OnMesh n f.geo) ∧ f.values ≠ none
  | _, .single f => f.values ≠ none ∧ 0 < f.geo.window.globNpts
  | _, .mask m => (∃ n, IntVec.Lt 0 n ∧ OnMesh n m.geo) ∧ m.bits.size = roundToInt m.geo.window.globNpts
  | _, .maskShift _ a => a.Sane
  | _, .un _ a => a.Sane
  | _, .bin _ a b | _, .and a b | _, .or a b => a.Sane ∧ b.Sane
  | _, .cond c a b => c.Sane ∧ a.Sane ∧ b.Sane
  | _, .stencil _ a => a.Sane
  | _, .sumStencil _ a => a.Sane

/-- The mesh cells at which the expression has a value: a field has one at its
interior and valid ghost cells, a constant at the mesh and `GHOST_MAX` cells
around it, an operation where all its operands have one, a stencil where its
argument has one at the cell itself and at every stencil point. -/
def DefinedAt {V : Type} (n : IntVec) : {t : Ty} → Expr V t → IntVec → Prop
  | _, .scalar _, c | _, .single _, c =>
    IntVec.Le (-⟨ghostMax, ghostMax, ghostMax⟩) c ∧ IntVec.Lt c (n + ⟨ghostMax, ghostMax, ghostMax⟩)
  | _, .field f, c => HasCell f.geo c
  | _, .mask m, c => HasCell m.geo c
  | _, .maskShift p a, c => a.DefinedAt n c ∧ a.DefinedAt n (c + p)
  | _, .un _ a, c => a.DefinedAt n c
  | _, .bin _ a b, c | _, .and a b, c | _, .or a b, c => a.DefinedAt n c ∧ b.DefinedAt n c
  | _, .cond t a b, c => t.DefinedAt n c ∧ a.DefinedAt n c ∧ b.DefinedAt n c
  | _, .stencil pts a, c => pts.All fun q => a.DefinedAt n c ∧ a.DefinedAt n (c + q.1)
  | _, .sumStencil pts a, c => pts.All fun q => a.DefinedAt n c ∧ a.DefinedAt n (c + q)

/-- The value of the expression at mesh cell `c`. -/
def value {V : Type} [Add V] [Mul V] (m : Mem V) : {t : Ty} → Expr V t → IntVec → t.den V
  | _, .scalar v, _ => v
  | _, .field f, c => m (f.values.getD 0) (cellAddr f.geo c)
  | _, .single f, _ => m (f.values.getD 0) 0
  | _, .mask k, c => bitAt k.bits.words (cellAddr k.geo c)
  | _, .maskShift p a, c => a.value m (c + p)
  | _, .un op a, c => op (a.value m c)
  | _, .bin op a b, c => op (a.value m c) (b.value m c)
  | _, .and a b, c => a.value m c && b.value m c
  | _, .or a b, c => a.value m c || b.value m c
  | _, .cond t a b, c => if t.value m c then a.value m c else b.value m c
  | _, .stencil pts a, c => pts.sum fun q => (a.value m (c + q.1) * q.2 : V)
  | _, .sumStencil pts a, c => pts.sum fun q => (a.value m (c + q) : V)

/-- The value of the expression at mesh cell `c` when single-value fields are read from
`m0` (before the assignment starts) and everything else from `m`. -/
def value2 {V : Type} [Add V] [Mul V] (m0 m : Mem V) : {t : Ty} → Expr V t → IntVec → t.den V
  | _, .scalar v, _ => v
  | _, .field f, c => m (f.values.getD 0) (cellAddr f.geo c)
  | _, .single f, _ => m0 (f.values.getD 0) 0
  | _, .mask k, c => bitAt k.bits.words (cellAddr k.geo c)
  | _, .maskShift p a, c => a.value2 m0 m (c + p)
  | _, .un op a, c => op (a.value2 m0 m c)
  | _, .bin op a b, c => op (a.value2 m0 m c) (b.value2 m0 m c)
  | _, .and a b, c => a.value2 m0 m c && b.value2 m0 m c
  | _, .or a b, c => a.value2 m0 m c || b.value2 m0 m c
  | _, .cond t a b, c => if t.value2 m0 m c then a.value2 m0 m c else b.value2 m0 m c
  | _, .stencil pts a, c => pts.sum fun q => (a.value2 m0 m (c + q.1) * q.2 : V)
  | _, .sumStencil pts a, c => pts.sum fun q => (a.value2 m0 m (c + q) : V)

/-- The expression, read at cells displaced by `s`, reads the memory of the field
`l` only at the very cell being assigned (single-value fields are read before
anything is assigned and may be anywhere). -/
def Independent {V : Type} (l : FieldObj) : {t : Ty} → Expr V t → IntVec → Prop
  | _, .scalar _, _ | _, .single _, _ | _, .mask _, _ => True
  | _, .field f, s => f.values ≠ l.values ∨
      (s = 0 ∧ origin f.geo = origin l.geo ∧ f.geo.window.npts = l.geo.window.npts)
  | _, .maskShift p a, s => a.Independent l (s + p)
  | _, .un _ a, s => a.Independent l s
  | _, .bin _ a b, s | _, .and a b, s | _, .or a b, s => a.Independent l s ∧ b.Independent l s
  | _, .cond t a b, s => t.Independent l s ∧ a.Independent l s ∧ b.Independent l s
  | _, .stencil pts a, s => pts.All fun q => a.Independent l (s + q.1)
  | _, .sumStencil pts a, s => pts.All fun q => a.Independent l (s + q)

/-- Two memories agree on everything the expression may read: the interior and valid
ghost cells of its fields and the element of its single-value fields. -/
def SameInputs {V : Type} : {t : Ty} → Expr V t → Mem V → Mem V → Prop
  | _, .scalar _, _, _ | _, .mask _, _, _ => True
  | _, .field f, m1, m2 => ∀ c, HasCell f.geo c →
      m1 (f.values.getD 0) (cellAddr f.geo c) = m2 (f.values.getD 0) (cellAddr f.geo c)
  | _, .single f, m1, m2 => m1 (f.values.getD 0) 0 = m2 (f.values.getD 0) 0
  | _, .maskShift _ a, m1, m2 => a.SameInputs m1 m2
  | _, .un _ a, m1, m2 => a.SameInputs m1 m2
  | _, .bin _ a b, m1, m2 | _, .and a b, m1, m2 | _, .or a b, m1, m2 =>
    a.SameInputs m1 m2 ∧ b.SameInputs m1 m2
  | _, .cond t a b, m1, m2 => t.SameInputs m1 m2 ∧ a.SameInputs m1 m2 ∧ b.SameInputs m1 m2
  | _, .stencil _ a, m1, m2 => a.SameInputs m1 m2
  | _, .sumStencil _ a, m1, m2 => a.SameInputs m1 m2

end Expr

/-- The destination is a writable CPU field on the mesh whose memory, `b`, has
room for all its ghosts. -/
structure Target (n : IntVec) (l : FieldObj) (b : Nat) : Prop where
  mesh : OnMesh n l.geo
  cpu : l.memType = .localRam
  writable : l.readOnly = false
  mem : l.values = some b
  room : IntVec.Le 0 (origin l.geo - l.geo.ghosts.minus) ∧
    IntVec.Le (origin l.geo + n + l.geo.bc.hasExtra + l.geo.ghosts.plus) l.geo.window.npts

/-- Interior cells of the destination, boundary cells included. -/
def Interior (n : IntVec) (l : FieldObj) (c : IntVec) : Prop :=
  IntVec.Le 0 c ∧ IntVec.Lt c (n + l.geo.bc.hasExtra)

/-- Interior and ghost cells of the destination. -/
def Stored (n : IntVec) (l : FieldObj) (c : IntVec) : Prop :=
  IntVec.Le (-l.geo.ghosts.minus) c ∧ IntVec.Lt c (n + l.geo.bc.hasExtra + l.geo.ghosts.plus)

/-- `m'` differs from `m` exactly by the destination's cells in `region` having
the value of `e`. -/
def Assigned {V : Type} [Add V] [Mul V] (l : FieldObj) (b : Nat) (e : Expr V .num) (region : IntVec → Prop)
    (m m' : Mem V) : Prop :=
  (∀ c, region c → m' b (cellAddr l.geo c) = e.value m c) ∧
  (∀ blk a, (blk ≠ b ∨ ∀ c, region c → cellAddr l.geo c ≠ a) → m' blk a = m blk a)

/-- `mm` is the memory met at cell `c` by an assignment that visits the cells of `region`
in Fortran order: cells before `c` hold their new contents (of `m'`), everything else is
still as in `m`. -/
def During {V : Type} (l : FieldObj) (b : Nat) (region : IntVec → Prop) (m m' : Mem V) (c : IntVec)
    (mm : Mem V) : Prop :=
  ∀ blk a, ((blk = b ∧ ∃ c', region c' ∧ FortranLt c' c ∧ cellAddr l.geo c' = a) → mm blk a = m' blk a) ∧
    (¬ (blk = b ∧ ∃ c', region c' ∧ FortranLt c' c ∧ cellAddr l.geo c' = a) → mm blk a = m blk a)

/-- What an assignment does when the right-hand side may read the destination itself: each
cell of `region` receives the value of `e` in the memory as it is when that cell's turn
comes; nothing else changes. -/
def AssignedInTurn {V : Type} [Add V] [Mul V] (l : FieldObj) (b : Nat) (e : Expr V .num)
    (region : IntVec → Prop) (m m' : Mem V) : Prop :=
  (∀ c, region c → ∃ mm, During l b region m m' c mm ∧ m' b (cellAddr l.geo c) = e.value2 m mm c) ∧
  (∀ blk a, (blk ≠ b ∨ ∀ c, region c → cellAddr l.geo c ≠ a) → m' blk a = m blk a)

end Nebo
end SpatialOps
