import Verif.Stencil.Model
import Verif.NeboCond.Model

/-!
# Model of boundary conditions

structured/stencil/FVStaggeredBCOp.h, structured/FVStaggeredBCTools.h and the boundary
condition builder of NeboStencilBuilder.h:407-568. `K` is any type with the operations the code uses on `double`: exact
arithmetic in a field, except in `Verif.BcRound`, where it is arithmetic with rounding.
-/

namespace SpatialOps
namespace Bc

open Nebo (Pts Expr)
open Stencil (FieldType getCoef)

section
variable {K : Type} [Add K] [Sub K] [Mul K] [Div K]

/-- `BCSide`, FVStaggeredBCOp.h:41-45; `noSide` is `NO_SIDE`. -/
inductive Side where
  | minus | plus | noSide
  deriving DecidableEq, Repr

/-- `S2Shift`: `PointCollectionType::Point`, the last point of the operator,
FVStaggeredBCOp.h:77. -/
def s2Shift : Pts IntVec → IntVec
  | .one p => p
  | .more _ p => p

/-- `S1Shift`: `PointCollectionType::Collection::Point`, the last but one,
FVStaggeredBCOp.h:76; `none`: does not compile. -/
def s1Shift : Pts IntVec → Option IntVec
  | .one _ => none
  | .more e _ => some (s2Shift e)

/-- Members of `BoundaryConditionOp`, FVStaggeredBCOp.h:79-84. `value` is what bcEval_()
returns; evaluators whose result changes from call to call are not modelled. -/
structure BcOp (K : Type) where
  value : K
  apoint : IntVec
  bpoint : IntVec
  ca : K
  cb : K
  single : Bool
  flatGhost : List Int
  flatInterior : List Int

/-- The constructor for one point, FVStaggeredBCOp.h:165-184, given the operator retrieved
from the database: its shifts and its coefficients. -/
def BcOp.point (s1 s2 : IntVec) (cs : Pts K) (dest : IntVec) (side : Side) (value : K) :
    Outcome (BcOp K) := do
  let a := dest + (if side = .minus ∨ side = .noSide then s1 else s2)
  let b := dest + (if side = .minus ∨ side = .noSide then s2 else s1)
  let ca ← (if side = .minus ∨ side = .noSide then getCoef cs 0 else getCoef cs 1 : Outcome K)
  let cb ← (if side = .minus ∨ side = .noSide then getCoef cs 1 else getCoef cs 0 : Outcome K)
  return ⟨value, a, b, ca, cb, true, [], []⟩

/-- The loop of the list constructor, FVStaggeredBCOp.h:208-212. -/
def flatPoints (window : Window) (sa sb : IntVec) : List IntVec → Outcome (List Int × List Int)
  | [] => .ok ([], [])
  | p :: ps => do
    let a ← window.flatIndex (p + sa)
    let b ← window.flatIndex (p + sb)
    let r ← flatPoints window sa sb ps
    return (a :: r.1, b :: r.2)

/-- The constructor for a list of points, FVStaggeredBCOp.h:188-213. -/
def BcOp.list (s1 s2 : IntVec) (cs : Pts K) (window : Window) (dests : List IntVec) (side : Side)
    (value : K) : Outcome (BcOp K) := do
  let ca ← (if side = .minus then getCoef cs 0 else getCoef cs 1 : Outcome K)
  let cb ← (if side = .minus then getCoef cs 1 else getCoef cs 0 : Outcome K)
  let r ← flatPoints window (if side = .minus then s1 else s2) (if side = .minus then s2 else s1) dests
  return ⟨value, 0, 0, ca, cb, false, r.1, r.2⟩

/-- `fa <<= ( bcEval_() - cb_ * fb ) / ca_` on the one-cell windows of the cells `a` and `b`,
counted from the start of the window without ghosts, FVStaggeredBCOp.h:226-230 and 237-241.
`cuda = false`, one thread. -/
def setCell (f : FieldObj) (a b : IntVec) (value ca cb : K) (m : Mem K) : Outcome (Mem K) := do
  let w := f.geo.interior
  let wa ← Window.make w.npts (w.offset + a) ⟨1, 1, 1⟩
  let wb ← Window.make w.npts (w.offset + b) ⟨1, 1, 1⟩
  let ga ← FieldGeo.windowCopy false wa f.geo
  let gb ← FieldGeo.windowCopy false wb f.geo
  Nebo.assign { FieldWorld.copyOf f with geo := ga }
    (.bin (s := .num) (t := .num) (fun x y : K => x / y)
      (.bin (s := .num) (t := .num) (fun x y : K => x - y) (.scalar (t := .num) value)
        (.bin (s := .num) (t := .num) (fun x y : K => x * y) (.scalar (t := .num) cb)
          (.field { FieldWorld.copyOf f with geo := gb })))
      (.scalar (t := .num) ca)) m

/-- The loop over the flat indices, FVStaggeredBCOp.h:232-243; the two lists have the same
length by construction. -/
def applyFlat (f : FieldObj) (value ca cb : K) : List Int → List Int → Mem K → Outcome (Mem K)
  | ia :: as, ib :: bs, m => do
    let a ← f.geo.interior.ijkIndexFromLocal ia
    let b ← f.geo.interior.ijkIndexFromLocal ib
    let m' ← setCell f a b value ca cb m
    applyFlat f value ca cb as bs m'
  | _, _, m => .ok m

/-- `BoundaryConditionOp::operator()`, FVStaggeredBCOp.h:216-244. -/
def BcOp.apply (o : BcOp K) (f : FieldObj) (m : Mem K) : Outcome (Mem K) :=
  if o.single then setCell f o.apoint o.bpoint o.value o.ca o.cb m
  else applyFlat f o.value o.ca o.cb o.flatGhost o.flatInterior m

/-! ## BoundaryCondition -/

/-- `f[i] = v` through `operator[]`, SpatialField.h:1363-1387, undefined outside the
allocation. -/
def poke {V : Type} (f : FieldObj) (i : Int) (v : V) (m : Mem V) : Outcome (Mem V) := do
  let r ← f.subscriptM i
  Outcome.ubUnless (0 ≤ r.2 ∧ r.2 < f.geo.window.globNpts)
  return m.write r.1 r.2 v

/-- Members of `BoundaryCondition`, FVStaggeredBCTools.h:87-90. -/
structure Direct (V : Type) where
  point : IntVec
  value : V
  single : Bool
  flat : List Int

/-- The constructor for one point, FVStaggeredBCTools.h:146-153. -/
def Direct.atPoint {V : Type} (p : IntVec) (v : V) : Direct V := ⟨p, v, true, []⟩

/-- The loop of the list constructor, FVStaggeredBCTools.h:166-170. -/
def flatList (window : Window) : List IntVec → Outcome (List Int)
  | [] => .ok []
  | p :: ps => do
    let i ← window.flatIndex p
    let r ← flatList window ps
    return i :: r

/-- The constructor for a list of points, FVStaggeredBCTools.h:157-171. -/
def Direct.atList {V : Type} (window : Window) (ps : List IntVec) (v : V) : Outcome (Direct V) := do
  let r ← flatList window ps
  return ⟨0, v, false, r⟩

/-- `for(...) f[*flatIterator] = bcEval_()`, FVStaggeredBCTools.h:184-188. -/
def pokeAll {V : Type} (f : FieldObj) (v : V) : List Int → Mem V → Outcome (Mem V)
  | [], m => .ok m
  | i :: is, m => do
    let m' ← poke f i v m
    pokeAll f v is m'

/-- `BoundaryCondition::operator()`, FVStaggeredBCTools.h:175-190. -/
def Direct.apply {V : Type} (o : Direct V) (f : FieldObj) (m : Mem V) : Outcome (Mem V) :=
  if o.single then do
    let i ← f.geo.interior.flatIndex o.point
    poke f i o.value m
  else pokeAll f o.value o.flat m

/-! ## The Nebo boundary condition builder -/

/-- The members of `NeboBoundaryConditionBuilder<DestPnt, SrcPnt, PhiFieldT, GammaFieldT>`,
NeboStencilBuilder.h:489-513. -/
structure NeboBc (K : Type) where
  dest : IntVec
  src : IntVec
  phi : FieldType
  gamma : FieldType
  destCoef : K
  srcCoef : K

/-- `shift_.minus(mask)` or `shift_.plus(mask)`: the displacement of the mask,
NeboStencilBuilder.h:407-419, 475-487. -/
def NeboBc.maskShift (o : NeboBc K) (minus : Bool) : IntVec :=
  if minus then Stencil.maskMinus o.gamma.offset o.phi.offset
  else Stencil.maskPlus o.gamma.offset o.phi.offset

/-- The right-hand side `cond(shift(mask), (gammaShift_(gamma) - phiShift_(phi) * srcCoef_) /
destCoef_)(phi)`, NeboStencilBuilder.h:521-534, with the one-point sum stencils 497-507. -/
def NeboBc.rhs (o : NeboBc K) (mask : Nebo.MaskObj) (phi : FieldObj) (gamma : Expr K .num)
    (minus : Bool) : Expr K .num :=
  (Nebo.condCall
    (.expr (.maskShift (o.maskShift minus) (.mask mask)),
     .expr (.bin (s := .num) (t := .num) (fun x y : K => x / y)
      (.bin (s := .num) (t := .num) (fun x y : K => x - y)
        (.sumStencil (.one (Stencil.tSub ⟨0, 0, 0⟩ o.dest)) gamma)
        (.bin (s := .num) (t := .num) (fun x y : K => x * y)
          (.sumStencil (.one (Stencil.tSub o.src o.dest)) (.field phi)) (.scalar (t := .num) o.srcCoef)))
      (.scalar (t := .num) o.destCoef)))
    [] (.expr (.field phi))).toExpr

/-- `operator()(mask, phi, gamma, minus)`, NeboStencilBuilder.h:520-534; the overloads for a
field and a scalar, 542-566, wrap `gamma` in its leaf. -/
def NeboBc.apply (o : NeboBc K) (mask : Nebo.MaskObj) (phi : FieldObj) (gamma : Expr K .num)
    (minus : Bool) (m : Mem K) : Outcome (Mem K) :=
  Nebo.assign phi (o.rhs mask phi gamma minus) m

end

end Bc
end SpatialOps
