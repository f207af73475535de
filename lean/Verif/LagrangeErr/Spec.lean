import Mathlib.Analysis.Calculus.Deriv.Basic
import Mathlib.Analysis.Real.Sqrt

/-!
# Specification of smoothness for the interpolation error
-/

namespace SpatialOps
namespace Lagr

/-- On the interval from `a` to `b`, `D 1`, ..., `D n` are the first `n` derivatives of `f`. -/
structure Derivatives (f : ℝ → ℝ) (D : ℕ → ℝ → ℝ) (n : ℕ) (a b : ℝ) : Prop where
  first : D 0 = f
  next : ∀ k < n, ∀ t, a ≤ t → t ≤ b → HasDerivAt (D k) (D (k + 1) t) t

end Lagr
end SpatialOps
