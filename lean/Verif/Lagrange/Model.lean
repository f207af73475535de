import Verif.Base
import Mathlib.Algebra.Order.Field.Basic

/-!
# Model of Lagrange interpolation

structured/onedim/LagrangePoly.{h,cpp}. `double` arithmetic is any arithmetic `K`: C41, C42 and C80 are about
ordered fields, C107 about arithmetic with rounding. The result vectors passed by reference and the cached member vectors, which are cleared
before use, are return values here.
-/

namespace SpatialOps
namespace Lagr

/-- `std::fabs`, LagrangePoly.cpp:83. -/
class Fabs (K : Type) where
  fabs : K → K

/-- `std::fabs` in an ordered field, LagrangePoly.cpp:83. -/
instance {K : Type} [Field K] [LinearOrder K] : Fabs K := ⟨fun a => |a|⟩

section
variable {K : Type} [Zero K] [One K] [Add K] [Sub K] [Mul K] [Div K] [LT K] [DecidableLT K] [DecidableEq K] [Fabs K]

/-- `xpts_[i]`: undefined outside the vector. LagrangePoly.cpp:137, 143, 176, 186, 205, 210. -/
def rd (xs : List K) (i : Int) : Outcome K :=
  if 0 ≤ i ∧ i < xs.length then .ok (xs.getD i.toNat 0) else .ub

/-- `std::lower_bound(xpts_.begin(), xpts_.end(), x) - xpts_.begin()`, LagrangePoly.cpp:63: the
number of leading elements less than `x`. The vector is required to be sorted by the standard
library; on other vectors the binary search may give a different answer. -/
def lowerBound (xs : List K) (x : K) : Nat := (xs.takeWhile (· < x)).length

/-- The results of `get_bounds`, LagrangePoly.cpp:57-60. -/
structure Bounds where
  ilo : Int
  nlo : Int
  nhi : Int
  deriving DecidableEq, Repr

/-- First step of `get_bounds`: the point below `x`, LagrangePoly.cpp:62-72. `begin() - 1` for
`x` not above the first point is taken as index -1. The two assertions hold always. -/
def below (xs : List K) (x : K) : Int :=
  let ilo : Int := (lowerBound xs x : Int) - 1
  if ilo < 0 then ilo - ilo else ilo

/-- Second step: how many points on either side, LagrangePoly.cpp:74-88. -/
def share (xs : List K) (x : K) (order ilo : Int) : Outcome (Int × Int) := do
  let npts := order + 1
  let half := npts.tdiv 2
  if npts.tmod 2 ≠ 0 then
    if ilo + 1 ≥ (xs.length : Int) then return (half + 1, half)
    else do
      let a ← rd xs ilo
      let b ← rd xs (ilo + 1)
      if Fabs.fabs (b - x) < Fabs.fabs (a - x) then return (half, half + 1) else return (half + 1, half)
  else return (half, half)

/-- Third step: stay in the table, LagrangePoly.cpp:98-114. -/
def adjust (nx ilo : Int) (n : Int × Int) : Int × Int :=
  let loExcess := ilo - n.1 + 1
  let n := if loExcess < 0 then (n.1 + loExcess, n.2 - loExcess) else n
  let hiExcess := nx - (ilo + n.2 + 1)
  if hiExcess < 0 then (n.1 - hiExcess, n.2 + hiExcess) else n

/-- `get_bounds`, LagrangePoly.cpp:55-115. -/
def getBounds (xs : List K) (x : K) (order : Int) : Outcome Bounds := do
  let ilo := below xs x
  let n ← share xs x order ilo
  let n := adjust xs.length ilo n
  return ⟨ilo, n.1, n.2⟩

/-- The loops `for( int i=ilo-nlo+1; i!=ilo+nhi+1; ++i ){ const double xi = xpts_[i]; ... }`,
LagrangePoly.cpp:142-148, 185-194, 204-219, 209-217: `n` points from index `i`. -/
def forPts {S : Type} (xs : List K) (body : S → K → S) : Nat → Int → S → Outcome S
  | 0, _, s => .ok s
  | n + 1, i, s => do
    let xi ← rd xs i
    forPts xs body n (i + 1) (body s xi)

/-- `forPts` with a body that may itself read, for the nested loop LagrangePoly.cpp:204-219. -/
def forPtsM {S : Type} (xs : List K) (body : S → K → Outcome S) : Nat → Int → S → Outcome S
  | 0, _, s => .ok s
  | n + 1, i, s => do
    let xi ← rd xs i
    let s' ← body s xi
    forPtsM xs body n (i + 1) s'

/-- Number of passes of these loops, LagrangePoly.cpp:142, 185, 204, 209. -/
def Bounds.count (b : Bounds) : Nat := ((b.ilo + b.nhi + 1) - (b.ilo - b.nlo + 1)).toNat

/-- One interpolation coefficient and `haveEntry`, LagrangePoly.cpp:137-148. -/
def interpCoef (xs : List K) (x : K) (b : Bounds) (xk : K) : Outcome (Bool × K) :=
  forPts xs (fun s xi => if xk ≠ xi then (true, s.2 * ((x - xi) / (xk - xi))) else s)
    b.count (b.ilo - b.nlo + 1) (false, 1)

/-- The denominator of a derivative coefficient and `haveEntry`, LagrangePoly.cpp:183-194. -/
def derivDen (xs : List K) (b : Bounds) (xk : K) : Outcome (Bool × K) :=
  forPts xs (fun s xi => if xi ≠ xk then (true, s.2 * (xk - xi)) else s)
    b.count (b.ilo - b.nlo + 1) (false, 1)

/-- The numerator, LagrangePoly.cpp:202-219. -/
def derivNum (xs : List K) (x : K) (order : Int) (b : Bounds) (xk : K) : Outcome K :=
  forPtsM xs (fun num xj =>
      if xj = xk then .ok num
      else do
        let t ← forPts xs (fun s xi => if xi = xk ∨ xi = xj then s else (true, s.2 * (x - xi)))
          b.count (b.ilo - b.nlo + 1) (false, (1 : K))
        if t.1 then return num + t.2 else return num)
    b.count (b.ilo - b.nlo + 1) (if order = 1 then 1 else 0)

/-- The loop over `k`, LagrangePoly.cpp:133-153 and 172-228, from `k`, `n` passes: coefficients
and indices. `coef` computes the coefficient of the point `xk` and whether to keep it. -/
def kLoop (xs : List K) (coef : K → Outcome (Bool × K)) (base : Int) : Nat → Int → Outcome (List K × List Int)
  | 0, _ => .ok ([], [])
  | n + 1, k => do
    let xk ← rd xs (base + k)
    let c ← coef xk
    let r ← kLoop xs coef base n (k + 1)
    return if c.1 then (c.2 :: r.1, (k + base) :: r.2) else r

/-- `get_interp_coefs_indices`, LagrangePoly.cpp:119-154. -/
def interpCoefs (xs : List K) (x : K) (order : Int) : Outcome (List K × List Int) := do
  let b ← getBounds xs x order
  kLoop xs (interpCoef xs x b) (b.ilo - b.nlo + 1) (order + 1).toNat 0

/-- `get_derivative_coefs_indices`, LagrangePoly.cpp:158-229. -/
def derivCoefs (xs : List K) (x : K) (order : Int) : Outcome (List K × List Int) := do
  let b ← getBounds xs x order
  kLoop xs (fun xk => do
      let den ← derivDen xs b xk
      let num ← derivNum xs x order b xk
      return (den.1, num / den.2))
    (b.ilo - b.nlo + 1) (order + 1).toNat 0

/-- `for( ; icoef!=coefVals_.end(); ++icoef, ++iy ) val += *iy * *icoef`, LagrangePoly.cpp:260-262,
311-313. -/
def weigh (ys : List K) : List K → Int → K → Outcome K
  | [], _, val => .ok val
  | c :: cs, i, val => do
    let y ← rd ys i
    weigh ys cs (i + 1) (val + y * c)

/-- A `LagrangeInterpolant` or `LagrangeDerivative`: their members, LagrangePoly.h:161-165,
237-241, without the cached vectors. -/
structure Table (K : Type) where
  xs : List K
  ys : List K
  order : Int

/-- The constructors, LagrangePoly.cpp:233-242, 285-294. -/
def Table.make (xs ys : List K) (order : Int) : Outcome (Table K) := do
  Outcome.assert (xs.length = ys.length)
  return ⟨xs, ys, order⟩

/-- Common part of the two `value` functions: `ypts_.begin() + indices_[0]`, undefined if there
are no indices, and the weighted sum. LagrangePoly.cpp:253-264, 304-315. -/
def combine (ys : List K) (r : List K × List Int) : Outcome K :=
  match r.2 with
  | [] => .ub
  | i :: _ => weigh ys r.1 i 0

/-- `LagrangeInterpolant::value(x,order)`, LagrangePoly.cpp:253-264. -/
def Table.interpolate (t : Table K) (x : K) (order : Int) : Outcome K := do
  let r ← interpCoefs t.xs x order
  combine t.ys r

/-- `LagrangeInterpolant::value(x)`, LagrangePoly.h:134. -/
def Table.interpolateDefault (t : Table K) (x : K) : Outcome K := t.interpolate x t.order

/-- `LagrangeDerivative::value(x,order)`, LagrangePoly.cpp:304-315. -/
def Table.derivative (t : Table K) (x : K) (order : Int) : Outcome K := do
  let r ← derivCoefs t.xs x order
  combine t.ys r

/-- `LagrangeDerivative::value(x)`, LagrangePoly.h:209. -/
def Table.derivativeDefault (t : Table K) (x : K) : Outcome K := t.derivative x t.order

end

end Lagr
end SpatialOps
