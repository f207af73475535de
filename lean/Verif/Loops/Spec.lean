import Verif.Loops.Model
import Verif.Conserve.Spec

/-!
# Specification of loops written with field iterators

What a loop should do, in terms of the cells of windows and of the mesh; iterators are not mentioned.
-/

namespace SpatialOps
namespace Loops

open Nebo Stencil

/-- The element of memory that holds cell `loc` of the window, counted from its first cell. -/
def element (w : Window) (loc : IntVec) : Int := fortranPos w.npts (w.offset + loc)

/-- A window that lies in its memory and has cells. -/
def Proper (w : Window) : Prop := w.Fits ∧ w.Nonempty

/-- The values a cell of the destination gets from sources, each given by its block of memory and its window: those
of their cells `loc`. -/
def inputs {V : Type} (m : Mem V) (srcs : List (Nat × Window)) (loc : IntVec) : List V :=
  srcs.map fun s => m s.1 (element s.2 loc)

/-- No source shares memory with the destination, unless it is the very same cells. -/
def Apart (b : Nat) (w : Window) (srcs : List (Nat × Window)) : Prop := ∀ s ∈ srcs, s.1 ≠ b ∨ s.2 = w

/-- `m'` differs from `m` exactly in the cells of the window `w` of block `b`, where it has `val`. -/
def Written {V : Type} (b : Nat) (w : Window) (val : IntVec → V) (m m' : Mem V) : Prop :=
  (∀ loc, InBlock w.extent loc → m' b (element w loc) = val loc) ∧
  (∀ blk a, (blk ≠ b ∨ ∀ loc, InBlock w.extent loc → element w loc ≠ a) → m' blk a = m blk a)

/-- A CPU field with memory `b` that may be written. -/
structure Dest (d : FieldObj) (b : Nat) : Prop where
  cpu : d.memType = .localRam
  writable : d.readOnly = false
  mem : d.values = some b

/-- The block of memory and the window of a field. -/
def whole (s : FieldObj) : Nat × Window := (s.values.getD 0, s.geo.window)

/-- The block of memory and the interior of a field. -/
def inside (s : FieldObj) : Nat × Window := (s.values.getD 0, s.geo.interior)

/-- Source and destination of a reference stencil, of types `st` and `dt`: two fields on one mesh with the same ghost
cells, at least one of them everywhere, and the same boundaries, each with the boundary cells of its type. -/
structure Twins (n : IntVec) (st dt : FieldType) (src dest : FieldObj) (b : Nat) : Prop where
  target : Target n dest b
  mesh : OnMesh n src.geo
  mem : src.values ≠ none
  apart : src.values ≠ dest.values
  minus : src.geo.validGhosts.minus = dest.geo.validGhosts.minus
  plus : src.geo.validGhosts.plus = dest.geo.validGhosts.plus
  enough : IntVec.Le ⟨1, 1, 1⟩ dest.geo.validGhosts.minus ∧ IntVec.Le ⟨1, 1, 1⟩ dest.geo.validGhosts.plus
  bc : ∃ x y z, src.geo.bc = BcInfo.build x y z st.bcExtra ∧ dest.geo.bc = BcInfo.build x y z dt.bcExtra

/-- A field of type `t` built by `get_window_with_ghost` and the constructor, with boundaries `x`, `y`, `z` and ghosts `g`
on the mesh of `n` cells; `b` is its memory. -/
structure Built (n : IntVec) (g : GhostData) (x y z : Bool) (t : FieldType) (f : FieldObj) (b : Nat) : Prop where
  geo : ∃ w, getWindowWithGhost n g (BcInfo.build x y z t.bcExtra) = .ok w ∧
    FieldGeo.ctor false w (BcInfo.build x y z t.bcExtra) g = .ok f.geo
  cpu : f.memType = .localRam
  writable : f.readOnly = false
  mem : f.values = some b

/-- A source for an assignment to `l` cell by cell: another field on the mesh, with the valid ghost cells and the boundary cells
of `l`, and with memory. -/
structure Alike (n : IntVec) (l s : FieldObj) : Prop where
  mesh : OnMesh n s.geo
  mem : s.values ≠ none
  apart : s.values ≠ l.values
  minus : s.geo.validGhosts.minus = l.geo.validGhosts.minus
  plus : s.geo.validGhosts.plus = l.geo.validGhosts.plus
  extra : s.geo.bc.hasExtra = l.geo.bc.hasExtra

/-- `src` and `dest` differ in their positions in the directions `d1` and `d2` only. -/
def TwoDirections (src dest : FieldType) (d1 d2 : Dir) : Prop :=
  d1 ≠ d2 ∧ ∀ d, staggered src d ≠ staggered dest d ↔ d = d1 ∨ d = d2

/-- The field's interior is that of the mesh, with the boundary cells `ex`, and may be iterated over. -/
structure HasInterior (n ex : IntVec) (f : FieldGeo) : Prop where
  enabled : f.disableInterior = false
  npts : f.interior.npts = f.window.npts
  offset : f.interior.offset = origin f
  extent : f.interior.extent = n + ex

section
variable {K : Type}

/-- `m1`, left by a reference stencil that started from `m`, agrees with `m2`, left by the operator: in the interior of the
destination both have `value`. Any other cell `c` of the destination has `value c` in `m1`, the source having all cells
`q` with `reads c q`, from which it is computed, or is unchanged. Nothing else has changed. -/
structure Agrees (n : IntVec) (src dest : FieldObj) (b : Nat) (reads : IntVec → IntVec → Prop) (value : IntVec → K) (m m1 m2 : Mem K) : Prop where
  same : ∀ c, Interior n dest c → valueAt m1 dest c = valueAt m2 dest c
  interior : ∀ c, Interior n dest c → valueAt m1 dest c = value c
  ghosts : ∀ c, HasCell dest.geo c →
    (valueAt m1 dest c = value c ∧ ∀ q, reads c q → HasCell src.geo q) ∨ valueAt m1 dest c = valueAt m dest c
  others : ∀ blk a, (blk ≠ b ∨ ∀ c, HasCell dest.geo c → cellAddr dest.geo c ≠ a) → m1 blk a = m blk a

end

end Loops
end SpatialOps
