import Verif.Round.Model

/-!
# `double` with its range

In area Round exponents are not bounded. Here they are: numbers below `2^-1022` lose digits, and results from `2^1024` on do not exist.
-/

namespace SpatialOps
namespace Range

open Round

section
variable {K : Type} [Field K] [LinearOrder K] [FloorRing K]

/-- Rounding to `p` significant binary digits, to nearest, ties to even, but not to digits below `2^emin`: gradual underflow. For `double`
(structured/SpatialField.h:104) `p = 53` and `emin = -1074`. -/
def gradual (p : Nat) (emin : Int) (x : K) : K :=
  (nearestEven (x / 2 ^ max (Int.log 2 |x| - (p - 1 : Int)) emin) : K) * 2 ^ max (Int.log 2 |x| - (p - 1 : Int)) emin

/-- Rounding of `double` (structured/SpatialField.h:104), IEEE 754 binary64. A result of `2^1024` or more in absolute value overflows; nothing is said about what
follows then: `special` stands for it, infinity in the code. -/
def ieee (special : K → K) (x : K) : K := if |gradual 53 (-1074) x| < 2 ^ 1024 then gradual 53 (-1074) x else special x

end
end Range
end SpatialOps
