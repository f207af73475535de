import Verif.Round.Spec

/-!
# Specification: numbers near each other
-/

namespace SpatialOps
namespace Near

section
variable {K : Type} [Field K] [LinearOrder K]

/-- The numbers have the same sign and neither is more than twice the other in absolute value. -/
def Close (x y : K) : Prop := (x ≤ 2 * y ∧ y ≤ 2 * x) ∨ (2 * y ≤ x ∧ 2 * x ≤ y)

end
end Near
end SpatialOps
