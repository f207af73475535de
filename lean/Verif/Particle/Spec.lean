import Verif.Particle.Model
import Mathlib.Algebra.BigOperators.Intervals

/-!
# Specification of the particle operators
-/

namespace SpatialOps
namespace Particle

section
variable {K : Type} [Field K] [LinearOrder K]

/-- The mesh the operators assume: cell `i` is the interval from `(i - 1) dx` to `i dx`; cell 0
is a ghost cell left of the origin. -/
structure Standard (o : Op K) (n : Nat) : Prop where
  count : o.coord.n = n
  spacing : 0 < o.dx
  centre : ∀ i : Int, 0 ≤ i → i < n → o.coord.at' i = ((i : K) - 1 / 2) * o.dx

/-- The particle lies on the mesh: it has a size, and is between the origin and the right end of
the last cell. -/
def Inside (o : Op K) (n : Nat) (p : Drop K) : Prop :=
  0 < p.size ∧ 0 ≤ p.loc - p.size / 2 ∧ p.loc + p.size / 2 ≤ ((n : K) - 1) * o.dx

/-- The length of the part of the interval from `a` to `b` that lies in cell `i`. -/
def overlap (dx a b : K) (i : Int) : K := max 0 (min b (i * dx) - max a ((i - 1) * dx))

/-- The fraction of the particle that lies in cell `i`. -/
def share (o : Op K) (p : Drop K) (i : Int) : K :=
  overlap o.dx (p.loc - p.size / 2) (p.loc + p.size / 2) i / p.size

/-- The sum of a field. -/
def Line.total (f : Line K) : K := ∑ i ∈ Finset.range f.n, f.at' (i : Int)

end

end Particle
end SpatialOps
