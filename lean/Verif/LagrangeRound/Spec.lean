import Verif.LagrangeRound.Model
import Verif.Round.Spec
import Mathlib.Algebra.BigOperators.Group.Finset.Basic

/-!
# Specification of Lagrange interpolation in floating point
-/

namespace SpatialOps
namespace LagrangeRound

open Round

section
variable {K : Type} [Field K] [LinearOrder K]

/-- The largest relative error of `k` operations in a row, multiplications, divisions and what is divided by, each with a relative error of `u`. -/
def growth (u : K) (k : Nat) : K := (1 / (1 - u)) ^ k - 1

/-- The weight of point `j` of `n` points in the value at `x` of the polynomial through the points. -/
def weight (pts : Nat → K) (n j : Nat) (x : K) : K := ∏ i ∈ (Finset.range n).erase j, (x - pts i) / (pts j - pts i)

/-- The size of the terms of which the weight of point `j` in the derivative at `x` is the sum. -/
def slopeSize (pts : Nat → K) (n j : Nat) (x : K) : K :=
  (∑ k ∈ (Finset.range n).erase j, ∏ i ∈ ((Finset.range n).erase j).erase k, |x - pts i|) /
    ∏ i ∈ (Finset.range n).erase j, |pts j - pts i|

/-- The points from number `base` on. -/
def pointsFrom {rnd : K → K} (xs : List (Fl rnd)) (base i : Nat) : K := (xs.getD (base + i) 0).val

end
end LagrangeRound
end SpatialOps
