import Verif.Base
import Mathlib.Algebra.Order.Field.Basic
import Mathlib.Algebra.Order.Floor.Defs
import Mathlib.Algebra.Order.Floor.Ring

/-!
# Model of the particle operators

particles/ParticleOperators.h. `K` is any type with the operations the code uses on `double`: an ordered field with
floors, except in `Verif.ParticleRound`, where it is arithmetic with rounding. Mesh fields are one-dimensional ("note that this assumes 1D"), their windows are their whole
memory: a field of `n` elements is a function on indices, read and written between 0 and
`n - 1` only. `int` conversion of a `double` out of the range of `int` is not modelled.
-/

namespace SpatialOps
namespace Particle

/-- Conversion of a `double` to `int`, ParticleOperators.h:161, 222. -/
class ToInt (K : Type) where
  toInt : K → Int

section
variable {K : Type} [Zero K] [One K] [NatCast K] [Add K] [Sub K] [Mul K] [Div K] [LT K] [DecidableLT K] [DecidableEq K]

/-- A field in one dimension: number of elements and elements (`f[i]`, ParticleOperators.h:116, 171). -/
structure Line (K : Type) where
  n : Nat
  at' : Int → K

/-- `f[i]`, ParticleOperators.h:116, 117, 169, 230, 232: undefined outside the memory. -/
def Line.get (f : Line K) (i : Int) : Outcome K :=
  if 0 ≤ i ∧ i < f.n then .ok (f.at' i) else .ub

/-- `f[i] += v`, ParticleOperators.h:171. -/
def Line.add (f : Line K) (i : Int) (v : K) : Outcome (Line K) :=
  if 0 ≤ i ∧ i < f.n then .ok ⟨f.n, fun j => if j = i then f.at' i + v else f.at' j⟩ else .ub

/-- Members of `ParticleToCell` and `CellToParticle`, ParticleOperators.h:63-64, 98-99. -/
structure Op (K : Type) where
  coord : Line K
  dx : K
  xo : K

/-- One particle: the elements of the particle fields at one position of the three iterators,
ParticleOperators.h:151-154, 216-219. -/
structure Drop (K : Type) where
  loc : K
  size : K

/-- `leftcellIx1` and its debug test, ParticleOperators.h:161-166, 222-227. The conversion of an infinite
quotient is undefined. -/
def Op.start [ToInt K] (o : Op K) (nmax : Nat) (p : Drop K) : Outcome Int := do
  Outcome.ubUnless (o.dx ≠ 0)
  let i := ToInt.toInt ((p.loc - p.size / 2) / o.dx) + 1
  Outcome.throwIf (i ≥ nmax ∨ i < 0)
  return i

/-- The right bound of a piece, ParticleOperators.h:169-170, 230-231. -/
def Op.right (o : Op K) (right : K) (i : Int) : Outcome K := do
  let x ← o.coord.get i
  return if x + o.dx / 2 > right then right else x + o.dx / 2

/-- `while(leftloc < rightloc)` of `ParticleToCell`, ParticleOperators.h:168-174. The first argument
bounds the number of passes; at most `n - i + 1` are made from cell `i` because then the read of the coordinate is out of
range. -/
def Op.spread (o : Op K) (src size right : K) : Nat → Int → K → Line K → Outcome (Line K)
  | 0, _, _, _ => .ub
  | fuel + 1, i, left, dest =>
    if left < right then do
      let rb ← o.right right i
      let dest' ← dest.add i (src * (rb - left) / size)
      o.spread src size right fuel (i + 1) rb dest'
    else .ok dest

/-- The particle loop of `ParticleToCell::apply_to_field`, ParticleOperators.h:151-175. -/
def Op.toCells [ToInt K] (o : Op K) : List (Drop K × K) → Line K → Outcome (Line K)
  | [], dest => .ok dest
  | (p, src) :: ps, dest => do
    let i ← o.start dest.n p
    let dest' ← o.spread src p.size (p.loc + 1 / 2 * p.size) (o.coord.n + 1) i (p.loc - p.size / 2) dest
    o.toCells ps dest'

/-- `ParticleToCell::apply_to_field`, ParticleOperators.h:137-176: `dest <<= 0.0` and the loop.
The three particle fields have the same length. -/
def Op.particleToCell [ToInt K] (o : Op K) (ps : List (Drop K × K)) (dest : Line K) : Outcome (Line K) :=
  o.toCells ps ⟨dest.n, fun _ => 0⟩

/-- `while(leftloc < rightloc)` of `CellToParticle`, ParticleOperators.h:229-235. -/
def Op.gather (o : Op K) (src : Line K) (size right : K) : Nat → Int → K → K → Outcome K
  | 0, _, _, _ => .ub
  | fuel + 1, i, left, val =>
    if left < right then do
      let rb ← o.right right i
      let s ← src.get i
      o.gather src size right fuel (i + 1) rb (val + s * (rb - left) / size)
    else .ok val

/-- `CellToParticle::apply_to_field`, ParticleOperators.h:205-237: the destination's values. -/
def Op.cellToParticle [ToInt K] (o : Op K) (src : Line K) : List (Drop K) → Outcome (List K)
  | [] => .ok []
  | p :: ps => do
    let i ← o.start src.n p
    let v ← o.gather src p.size (p.loc + p.size / 2) (o.coord.n + 1) i (p.loc - p.size / 2) 0
    let vs ← o.cellToParticle src ps
    return v :: vs

end

section
variable {K : Type} [Field K] [LinearOrder K]

/-- `TOL`, ParticleOperators.h:119, 187. -/
def tol : K := 1 / 1000000

/-- The loop testing for uniform spacing, ParticleOperators.h:122-130, 190-198: `k` more pairs from
element `i`. For `dx = 0` the quotient is infinite or not a number. -/
def uniformFrom (c : Line K) (dx : K) : Nat → Int → Bool
  | 0, _ => true
  | k + 1, i =>
    let rest := uniformFrom c dx k (i + 1)
    if (if dx = 0 then c.at' (i + 1) - c.at' i ≠ 0 else |dx - (c.at' (i + 1) - c.at' i)| / dx > tol) then false else rest

/-- The constructors, ParticleOperators.h:112-133, 180-201. -/
def Op.make (coord : Line K) : Outcome (Op K) := do
  let x1 ← coord.get 1
  let x0 ← coord.get 0
  Outcome.throwIf (uniformFrom coord (x1 - x0) (coord.n - 1) 0 = false)
  return ⟨coord, x1 - x0, x0⟩

/-- `int(q)` for a `double`: rounds towards zero, ParticleOperators.h:161, 222. -/
def trunc [FloorRing K] (q : K) : Int := if 0 ≤ q then ⌊q⌋ else ⌈q⌉

/-- In exact arithmetic, ParticleOperators.h:161, 222. -/
instance [FloorRing K] : ToInt K := ⟨trunc⟩

end

end Particle
end SpatialOps
