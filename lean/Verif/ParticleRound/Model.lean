import Verif.Particle.Model
import Verif.Round.Model

/-!
# Particle operators in floating point

particles/ParticleOperators.h over the floating-point numbers of area Round: the functions are those of area Particle. In
ParticleOperators.h:159-161 the half of the size is `0.5 * size` in two places and `size / 2` in the others: where one half is a number of the
format, these are the same number.
-/

namespace SpatialOps
namespace ParticleRound

open Round

section
variable {K : Type} [Field K] [LinearOrder K] {rnd : K → K}

/-- `<` on values, ParticleOperators.h:168, 170, 229, 231, is exact. -/
instance : LT (Fl rnd) := ⟨fun a b => a.val < b.val⟩

/-- The test of `<`, ParticleOperators.h:168, 170, 229, 231. -/
instance : DecidableLT (Fl rnd) := fun a b => inferInstanceAs (Decidable (a.val < b.val))

/-- Whether a value is zero, for the divisions in ParticleOperators.h:161, 222. -/
instance : DecidableEq (Fl rnd) := fun a b => decidable_of_iff (a.val = b.val) Fl.ext_iff.symm

/-- Conversion to `int`, ParticleOperators.h:161, 222. -/
instance [FloorRing K] : Particle.ToInt (Fl rnd) := ⟨fun a => Particle.trunc a.val⟩

end
end ParticleRound
end SpatialOps
