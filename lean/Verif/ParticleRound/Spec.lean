import Verif.ParticleRound.Model
import Verif.Round.Spec
import Mathlib.Algebra.BigOperators.Intervals

/-!
# Specification of particle operators in floating point
-/

namespace SpatialOps
namespace ParticleRound

open Round Particle

section
variable {K : Type} [Field K] [LinearOrder K] {rnd : K → K}

/-- The exact sum of the numbers in a field. -/
def total (f : Line (Fl rnd)) : K := ∑ i ∈ Finset.range f.n, (f.at' (i : Int)).val

/-- The right end of cell `i` as it is computed. -/
def cellEnd (o : Op (Fl rnd)) (i : Int) : K := (o.coord.at' i + o.dx / 2).val

/-- The left end of a particle as it is computed. -/
def leftEnd (p : Drop (Fl rnd)) : K := (p.loc - p.size / 2).val

/-- The right end of a particle as it is computed for depositing and, with the half of the size as `size / 2`, for interpolating. -/
def rightEnd (p : Drop (Fl rnd)) : K := (p.loc + p.size / 2).val

/-- The length of the part of cell `j` that a particle from `l` to `r` covers, by the computed ends of the cells, if it is started in cell `i`: the
cells before `i` get nothing, and cell `i` gets everything from `l` on. -/
def portion (o : Op (Fl rnd)) (i : Int) (l r : K) (j : Int) : K :=
  if j < i then 0
  else if j = i then max 0 (min r (cellEnd o j) - l)
  else max 0 (min r (cellEnd o j) - max l (cellEnd o (j - 1)))

/-- The cells of the mesh are in order. -/
def Ordered (o : Op (Fl rnd)) : Prop := ∀ i : Int, 0 ≤ i → i + 1 < o.coord.n → cellEnd o i ≤ cellEnd o (i + 1)

/-- The cell a particle is started in does not end left of the particle. -/
def StartsBefore [FloorRing K] (o : Op (Fl rnd)) (n : Nat) (p : Drop (Fl rnd)) : Prop :=
  ∀ i, o.start n p = .ok i → i < o.coord.n → leftEnd p ≤ cellEnd o i

/-- The relative error of the length of a particle, which is the difference of its two rounded ends. It is large for a particle that is small in
comparison with its distance from the origin. -/
def drift (u : K) (p : Drop (Fl rnd)) : K := u * (2 * |p.loc.val| + (2 + u) * p.size.val) / p.size.val

/-- What rounding to nearest has besides a small error: it keeps order, changes nothing when repeated, and whole numbers below `n` are numbers of the format. -/
structure Nearest (rnd : K → K) (n : Nat) : Prop where
  mono : ∀ x y, x ≤ y → rnd x ≤ rnd y
  idem : ∀ x, rnd (rnd x) = rnd x
  whole : ∀ k : Nat, k < n → rnd (k : K) = k

/-- The mesh the operators assume (`Particle.Standard`), its coordinates without rounding errors. -/
structure Mesh (o : Op (Fl rnd)) (n : Nat) : Prop where
  count : o.coord.n = n
  spacing : 0 < o.dx.val
  half : rnd (o.dx.val / 2) = o.dx.val / 2
  centre : ∀ i : Int, 0 ≤ i → i < n → (o.coord.at' i).val = ((i : K) - 1 / 2) * o.dx.val

/-- The particle lies on the mesh: it has a size, is between the origin and the right end of the last cell, and its left end is more than two roundings before
that. -/
structure OnLine (u : K) (o : Op (Fl rnd)) (n : Nat) (p : Drop (Fl rnd)) : Prop where
  size : 0 < p.size.val
  half : rnd (p.size.val / 2) = p.size.val / 2
  left : 0 ≤ p.loc.val - p.size.val / 2
  right : p.loc.val + p.size.val / 2 ≤ ((n : K) - 1) * o.dx.val
  margin : (1 + u) ^ 2 * (p.loc.val - p.size.val / 2) < ((n : K) - 1) * o.dx.val

end
end ParticleRound
end SpatialOps
