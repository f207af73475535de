import Verif.Views.Model
import Verif.Nebo.Spec
import Verif.Heat.Spec

/-!
# Specification of expressions of views

A view is a box of cells of a field. Its cells are numbered from the first cell of the box. An expression of views of one
size has a value at every cell of that box, computed from the cells with the same number in each view.
-/

namespace SpatialOps
namespace Views

open Nebo Stencil

/-- A view of `size` cells of a field with ghost counts `g` and `extra` boundary cells. -/
structure ViewOf (g : GhostData) (extra size : IntVec) (f : FieldGeo) : Prop where
  fits : f.window.Fits
  size : f.window.extent = size
  ghosts : f.ghosts = g
  valid : f.validGhosts = g
  extra : f.bc.hasExtra = extra

/-- The element of the field's memory for cell `c` of the view. -/
def element (f : FieldGeo) (c : IntVec) : Int := fortranPos f.window.npts (f.window.offset + c)

/-- The expression is made of constants, views of `size` cells, views of masks, and operations applied cell by cell; all views
are of fields with ghost counts `g` and `extra` boundary cells. -/
def OfViews {V : Type} (g : GhostData) (extra size : IntVec) : {t : Ty} → Expr V t → Prop
  | _, .scalar _ => True
  | _, .field f => ViewOf g extra size f.geo ∧ f.values ≠ none
  | _, .single f => f.values ≠ none ∧ 0 < f.geo.window.globNpts
  | _, .mask m => ViewOf g extra size m.geo ∧ m.bits.size = roundToInt m.geo.window.globNpts
  | _, .un _ a => OfViews g extra size a
  | _, .bin _ a b | _, .and a b | _, .or a b => OfViews g extra size a ∧ OfViews g extra size b
  | _, .cond c a b => OfViews g extra size c ∧ OfViews g extra size a ∧ OfViews g extra size b
  | _, .maskShift _ _ | _, .stencil _ _ | _, .sumStencil _ _ => False

/-- The value of the expression at cell `c` of its views. -/
def shown {V : Type} [Add V] [Mul V] (m : Mem V) : {t : Ty} → Expr V t → IntVec → t.den V
  | _, .scalar v, _ => v
  | _, .field f, c => m (f.values.getD 0) (element f.geo c)
  | _, .single f, _ => m (f.values.getD 0) 0
  | _, .mask k, c => bitAt k.bits.words (element k.geo c)
  | _, .maskShift p a, c => shown m a (c + p)
  | _, .un op a, c => op (shown m a c)
  | _, .bin op a b, c => op (shown m a c) (shown m b c)
  | _, .and a b, c => shown m a c && shown m b c
  | _, .or a b, c => shown m a c || shown m b c
  | _, .cond t a b, c => if shown m t c then shown m a c else shown m b c
  | _, .stencil pts a, c => pts.sum fun q => (shown m a (c + q.1) * q.2 : V)
  | _, .sumStencil pts a, c => pts.sum fun q => (shown m a (c + q) : V)

/-- No view of the expression shares memory with the view `l`, except `l` itself. -/
def Apart {V : Type} (l : FieldObj) : {t : Ty} → Expr V t → Prop
  | _, .scalar _ | _, .single _ | _, .mask _ => True
  | _, .field f => f.values ≠ l.values ∨ f.geo.window = l.geo.window
  | _, .maskShift _ a | _, .un _ a => Apart l a
  | _, .bin _ a b | _, .and a b | _, .or a b => Apart l a ∧ Apart l b
  | _, .cond t a b => Apart l t ∧ Apart l a ∧ Apart l b
  | _, .stencil _ a => Apart l a
  | _, .sumStencil _ a => Apart l a

/-- A writable view in CPU memory, `b`. -/
structure Writable (f : FieldObj) (b : Nat) : Prop where
  cpu : f.memType = .localRam
  writable : f.readOnly = false
  mem : f.values = some b

section
variable {K : Type} [Field K]

/-- `-∇·(D ∇φ)` at cell `c`: the flux at each face is the mean of `D` times the difference quotient of `φ`. -/
def diffusion (h : Dir → K) (φ D : IntVec → K) (c : IntVec) : K :=
  -(((D c + D (c + unit .x)) / 2 * ((φ (c + unit .x) - φ c) / h .x) - (D (c - unit .x) + D c) / 2 * ((φ c - φ (c - unit .x)) / h .x)) / h .x)
  - ((D c + D (c + unit .y)) / 2 * ((φ (c + unit .y) - φ c) / h .y) - (D (c - unit .y) + D c) / 2 * ((φ c - φ (c - unit .y)) / h .y)) / h .y
  - ((D c + D (c + unit .z)) / 2 * ((φ (c + unit .z) - φ c) / h .z) - (D (c - unit .z) + D c) / 2 * ((φ c - φ (c - unit .z)) / h .z)) / h .z

/-- The four fields and the nine intermediate ones have different memory. -/
structure Separate (blk : Nat → Nat) (tmp : Dir → Nat → Nat) : Prop where
  fields : ∀ i < 4, ∀ j < 4, blk i = blk j → i = j
  temps : ∀ d d', ∀ i < 3, ∀ j < 3, tmp d i = tmp d' j → d = d' ∧ i = j
  apart : ∀ d, ∀ i < 3, ∀ j < 4, tmp d i ≠ blk j

end
end Views
end SpatialOps
