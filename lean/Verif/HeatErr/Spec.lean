import Verif.Heat.Spec
import Verif.Accuracy.Spec

/-!
# Specification of the accuracy of the heat equation program
-/

namespace SpatialOps
namespace Heat

open Nebo Stencil Accuracy

/-- In direction `d`, `D 1, ..., D order` are the partial derivatives of `F = D 0` in the box, bounded by `B 1, ..., B order`. -/
structure Smooth (lo hi : Dir → ℝ) (d : Dir) (order : Nat) (F : (Dir → ℝ) → ℝ) (D : Nat → (Dir → ℝ) → ℝ) (B : Nat → ℝ) : Prop where
  zero : D 0 = F
  deriv : ∀ i < order, IsPartial lo hi d (D i) (D (i + 1))
  bound : ∀ i, 1 ≤ i → i ≤ order → ∀ p, Accuracy.InBox lo hi p → |D i p| ≤ B i

/-- The values `v` are those of `F` at the centres of the cells of the mesh and of their neighbours, all in the box. -/
def Centred (n : IntVec) (h lo hi : Dir → ℝ) (v : IntVec → ℝ) (F : (Dir → ℝ) → ℝ) : Prop :=
  ∀ c c', InMesh n c → (c' = c ∨ Neighbour n c c') → Accuracy.InBox lo hi (position h .sVol c') ∧ v c' = F (position h .sVol c')

/-- The sum over the directions with more than one cell. -/
noncomputable def active (n : IntVec) (f : Dir → ℝ) : ℝ :=
  (if 1 < comp n .x then f .x else 0) + (if 1 < comp n .y then f .y else 0) + (if 1 < comp n .z then f .z else 0)

end Heat
end SpatialOps
