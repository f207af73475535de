import Verif.Round.Spec
import Verif.Accuracy.Spec

/-!
# Specification of the error of the operators in floating point
-/

namespace SpatialOps
namespace FloatErr

open Nebo Stencil Accuracy Round

/-- The field, of type `t` on a mesh with spacing `h`, holds in each of its cells the value of `F` at the place of the cell up to an error
of `eps`; all the places lie in the box. -/
def NearSamples {rnd : ℝ → ℝ} (h : Dir → Fl rnd) (t : FieldType) (lo hi : Dir → ℝ) (m : Mem (Fl rnd)) (f : FieldObj) (F : (Dir → ℝ) → ℝ)
    (eps : ℝ) : Prop :=
  ∀ c, HasCell f.geo c → Accuracy.InBox lo hi (position (fun d => (h d).val) t c) ∧
    |(valueAt m f c).val - F (position (fun d => (h d).val) t c)| ≤ eps

end FloatErr
end SpatialOps
