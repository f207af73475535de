import Verif.Lagrange.Model
import Verif.ParticleRound.Model

/-!
# Lagrange interpolation in floating point

structured/onedim/LagrangePoly.{h,cpp} over the floating-point numbers of area Round: the functions are those of area Lagrange, comparison is that
of area ParticleRound.
-/

namespace SpatialOps
namespace LagrangeRound

open Round

/-- `std::fabs`, LagrangePoly.cpp:83, is exact. -/
instance {K : Type} [Field K] [LinearOrder K] {rnd : K → K} : Lagr.Fabs (Fl rnd) := ⟨fun a => ⟨|a.val|⟩⟩

end LagrangeRound
end SpatialOps
