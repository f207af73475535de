import Verif.Conserve.Model
import Verif.Stencil.Spec
import Mathlib.Algebra.BigOperators.Group.Finset.Basic
import Mathlib.Algebra.Order.Ring.Defs

/-!
# Specification of conservation

The two values of one field that lie half a cell before and after a value of another, and
sums over blocks of cells.
-/

namespace SpatialOps
namespace Stencil

open Nebo

/-- One cell in direction `d`. -/
def unit : Dir → IntVec
  | .x => ⟨1, 0, 0⟩
  | .y => ⟨0, 1, 0⟩
  | .z => ⟨0, 0, 1⟩

/-- For a value of type `dest` at cell `c`: the cell at which a field that differs from it in
direction `d` only has the value half a cell before it (`C64_sides_located` says that it is there). -/
def lowSide (dest : FieldType) (d : Dir) (c : IntVec) : IntVec :=
  if staggered dest d then c - unit d else c

/-- Likewise half a cell after it. -/
def highSide (dest : FieldType) (d : Dir) (c : IntVec) : IntVec := lowSide dest d c + unit d

/-- The value of the field at cell `c`. -/
def valueAt {K : Type} (m : Mem K) (f : FieldObj) (c : IntVec) : K := m (f.values.getD 0) (cellAddr f.geo c)

/-- The sum over the `ext.x * ext.y * ext.z` cells from `lo` on. -/
def blockSum {K : Type} [AddCommMonoid K] (lo ext : IntVec) (f : IntVec → K) : K :=
  ∑ i ∈ Finset.range ext.x.toNat, ∑ j ∈ Finset.range ext.y.toNat, ∑ k ∈ Finset.range ext.z.toNat,
    f ⟨lo.x + i, lo.y + j, lo.z + k⟩

/-- The block extent with a single layer of cells in direction `d`. -/
def layer (ext : IntVec) : Dir → IntVec
  | .x => ⟨1, ext.y, ext.z⟩
  | .y => ⟨ext.x, 1, ext.z⟩
  | .z => ⟨ext.x, ext.y, 1⟩

/-- `k` cells in direction `d`. -/
def along (k : Int) : Dir → IntVec
  | .x => ⟨k, 0, 0⟩
  | .y => ⟨0, k, 0⟩
  | .z => ⟨0, 0, k⟩

/-- Cell `c` is in the block of `ext` cells from `lo` on. -/
def InExtent (lo ext c : IntVec) : Prop := IntVec.Le lo c ∧ IntVec.Lt c (lo + ext)

/-- The fields a two-point operator is applied to: the destination is a writable CPU field on the mesh, the source
a field on the same mesh with other memory, which has the values on both sides of each interior cell
of the destination. -/
structure Applicable (n : IntVec) (r : Reg) (d : Dir) (src dest : FieldObj) (b : Nat) : Prop where
  target : Target n dest b
  extra : IntVec.Le dest.geo.bc.hasExtra ⟨1, 1, 1⟩
  mesh : OnMesh n src.geo
  mem : src.values ≠ none
  apart : src.values ≠ dest.values
  low : ∀ c, Interior n dest c → HasCell src.geo (lowSide r.dest d c)
  high : ∀ c, Interior n dest c → HasCell src.geo (highSide r.dest d c)

/-- The displacements of the values an operator reads. -/
def Reg.reads (r : Reg) : List IntVec :=
  match r.type with
  | some (.coefs _ p _ _) | some (.sum p _ _) | some (.average p _ _) => p.toList
  | none => []

/-- The fields any operator is applied to: as above, the source having all values the operator
reads. -/
structure Readable (n : IntVec) (r : Reg) (src dest : FieldObj) (b : Nat) : Prop where
  target : Target n dest b
  extra : IntVec.Le dest.geo.bc.hasExtra ⟨1, 1, 1⟩
  mesh : OnMesh n src.geo
  mem : src.values ≠ none
  apart : src.values ≠ dest.values
  self : ∀ c, Interior n dest c → HasCell src.geo c
  reads : ∀ c, Interior n dest c → ∀ p ∈ r.reads, HasCell src.geo (c + p)

end Stencil
end SpatialOps
