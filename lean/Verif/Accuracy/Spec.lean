import Verif.Conserve.Spec
import Mathlib.Analysis.Calculus.Deriv.Basic

/-!
# Specification of accuracy

Fields that hold the values of a function of position, the partial derivatives of such a
function, and the constants in the error bounds.
-/

namespace SpatialOps
namespace Accuracy

open Nebo Stencil

/-- The point lies in the box with corners `lo` and `hi`. -/
def InBox (lo hi p : Dir → ℝ) : Prop := ∀ d, lo d ≤ p d ∧ p d ≤ hi d

/-- `G` is the partial derivative of `F` in direction `d` at every point of the box. -/
def IsPartial (lo hi : Dir → ℝ) (d : Dir) (F G : (Dir → ℝ) → ℝ) : Prop :=
  ∀ p, InBox lo hi p → HasDerivAt (fun t => F (Function.update p d t)) (G p) (p d)

/-- The field, of type `t` on a mesh with spacing `h`, holds in each of its cells the value of `F` at the place of the
cell; all the places lie in the box. -/
def Samples (h : Dir → ℝ) (t : FieldType) (lo hi : Dir → ℝ) (m : Mem ℝ) (f : FieldObj) (F : (Dir → ℝ) → ℝ) : Prop :=
  ∀ c, HasCell f.geo c → InBox lo hi (position h t c) ∧ valueAt m f c = F (position h t c)

/-- The share of direction `d` in the error of an interpolant, filter or directional interpolant, per `h² M`, `M` a bound
on the second derivative in that direction. -/
noncomputable def share (r : Reg) (d : Dir) : ℝ :=
  match r.op with
  | .filter => 1 / 3
  | .interpolantD d' => if d = d' then 1 / 2 else 0
  | _ => if staggered r.src d = staggered r.dest d then 0 else 1 / 8

end Accuracy
end SpatialOps
