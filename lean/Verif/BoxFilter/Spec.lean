import Verif.BoxFilter.Model
import Verif.Heat.Spec

/-!
# Specification of the box filters
-/

namespace SpatialOps
namespace BoxFilter

open Nebo Stencil

/-- The directions a filter averages over, by its name. -/
def Box.over : Box → Dir → Bool
  | .xyz, _ => true
  | .xy, d => d != .z
  | .xz, d => d != .y
  | .yz, d => d != .x
  | .x, d => d == .x
  | .y, d => d == .y
  | .z, d => d == .z

/-- How far it reaches: one cell in each of its directions. -/
def Box.reach (b : Box) : IntVec := ⟨if b.over .x then 1 else 0, if b.over .y then 1 else 0, if b.over .z then 1 else 0⟩

/-- The size of the box: three cells in each of its directions, one in the others. -/
def Box.size (b : Box) : IntVec := ⟨if b.over .x then 3 else 1, if b.over .y then 3 else 1, if b.over .z then 3 else 1⟩

/-- The mean of `v` over the box around cell `c`. -/
def mean {K : Type} [Field K] (b : Box) (v : IntVec → K) (c : IntVec) : K :=
  blockSum (c - b.reach) b.size v / ((b.size.x * b.size.y * b.size.z : Int) : K)

/-- The source and destination of a filter: two fields on the mesh with memories of their own; the source has the values up to
`r` cells around the interior cells of the destination, and `r` does not lead across a direction with a single cell. -/
structure Fit (n : IntVec) (g : GhostData) (r : IntVec) (src dest : FieldObj) (b : Nat) : Prop where
  ghosts : Moderate g
  target : FlatTarget n g dest b
  extra : IntVec.Le dest.geo.bc.hasExtra ⟨1, 1, 1⟩
  mesh : FlatOn n g src.geo
  mem : src.values ≠ none
  apart : src.values ≠ dest.values
  plane : InPlane n r
  reads : ∀ c, FlatInterior n dest c → ∀ q, IntVec.Le (c - r) q → IntVec.Le q (c + r) → FlatHas n src.geo q

end BoxFilter
end SpatialOps
