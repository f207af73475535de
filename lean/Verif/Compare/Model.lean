import Verif.Field.Model
import Mathlib.Algebra.Order.Field.Basic

/-!
# Model of the field comparisons

spatialops/structured/FieldComparisons.h. Arithmetic on `double` is exact (no rounding, no
overflow) but has the infinities and NaN.
-/

namespace SpatialOps
namespace Compare

/-- A `double`: a number, an infinity (`inf true` is the negative one) or NaN. There is one
zero. The element type of the fields compared, FieldComparisons.h:146. -/
inductive Dbl (K : Type) where
  | fin (x : K)
  | inf (neg : Bool)
  | nan
  deriving DecidableEq

namespace Dbl
variable {K : Type} [Field K] [LinearOrder K]

/-- `std::abs`, FieldComparisons.h:159, 188, 190. -/
def abs : Dbl K → Dbl K
  | fin x => fin |x|
  | inf _ => inf false
  | nan => nan

/-- Unary minus, as part of `-` in FieldComparisons.h:190. -/
def neg : Dbl K → Dbl K
  | fin x => fin (-x)
  | inf s => inf (!s)
  | nan => nan

/-- `+` of `double`s, FieldComparisons.h:188. -/
def add : Dbl K → Dbl K → Dbl K
  | nan, _ => nan
  | _, nan => nan
  | inf s, inf t => if s = t then inf s else nan
  | inf s, fin _ => inf s
  | fin _, inf t => inf t
  | fin x, fin y => fin (x + y)

/-- `-` of `double`s, FieldComparisons.h:190. -/
def sub (a b : Dbl K) : Dbl K := add a b.neg

/-- `*` of `double`s, FieldComparisons.h:126. -/
def mul : Dbl K → Dbl K → Dbl K
  | nan, _ => nan
  | _, nan => nan
  | inf s, inf t => inf (s != t)
  | inf s, fin y => if y = 0 then nan else inf (s != decide (y < 0))
  | fin x, inf t => if x = 0 then nan else inf (decide (x < 0) != t)
  | fin x, fin y => fin (x * y)

/-- `/` of `double`s, FieldComparisons.h:190. A zero divisor is `+0`: the divisors there are sums
with an absolute value. -/
def div : Dbl K → Dbl K → Dbl K
  | nan, _ => nan
  | _, nan => nan
  | inf _, inf _ => nan
  | inf s, fin y => inf (s != decide (y < 0))
  | fin _, inf _ => fin 0
  | fin x, fin y => if y = 0 then if x = 0 then nan else inf (decide (x < 0)) else fin (x / y)

/-- `>` of `double`s, FieldComparisons.h:190. -/
def gt : Dbl K → Dbl K → Bool
  | nan, _ => false
  | _, nan => false
  | inf s, inf t => !s && t
  | inf s, fin _ => !s
  | fin _, inf t => t
  | fin x, fin y => decide (y < x)

/-- `!=` of `double`s, FieldComparisons.h:182. -/
def ne : Dbl K → Dbl K → Bool
  | nan, _ => true
  | _, nan => true
  | a, b => decide (a ≠ b)

end Dbl

/-- Where the elements compared are read and the two iterators: the macro
`FIELDCOMPARISONS_INITIALIZE_ITERATOR` and the end iterator, FieldComparisons.h:30-52, 168-176. A
field on a GPU is copied to a temporary field with the same window; the model reads the device
memory in place of the copy. -/
def iterators (f : FieldObj) : Outcome (Option Nat × It × It) :=
  match f.memType with
  | .localRam => do
    let b ← f.beginC
    let e ← f.endC
    return (b.base, b.it, e.it)
  | .gpu => do
    let e ← It.finish 0 f.geo.window
    return (f.ext, It.start 0 f.geo.window, e)
  | .other => .throws

section
variable {V : Type}

/-- The element an iterator points to. Dereferencing an iterator over NULL is undefined.
`**if1`, FieldComparisons.h:182. -/
def elem (m : Mem V) (b : Option Nat) (i : It) : Outcome V := do
  let a ← i.deref
  match b with
  | some b => return m b a
  | none => .ub

/-- The comparison loop: `bad` is the test that sets `result = false` and breaks.
FieldComparisons.h:179-195, 270-284, 364-378. -/
def loop (bad : V → V → Outcome Bool) (m : Mem V) (b1 b2 : Option Nat) : Nat → It → It → It → Outcome Bool
  | fuel, i, e, j =>
    if i.eqOp e then .ok true
    else match fuel with
      | 0 => .ub
      | fuel + 1 => do
        let x ← elem m b1 i
        let y ← elem m b2 j
        let r ← bad x y
        if r then return false else loop bad m b1 b2 fuel i.inc e j.inc

/-- The common part of `field_equal`, `field_equal_abs` and `field_equal_ulp`,
FieldComparisons.h:148-203, 240-292, 335-386. -/
def fields (bad : V → V → Outcome Bool) (m : Mem V) (f1 f2 : FieldObj) : Outcome Bool := do
  Outcome.throwIf (f1.geo.window.neOp f2.geo.window = true)
  let (b1, i, e) ← iterators f1
  let (b2, j, _) ← iterators f2
  loop bad m b1 b2 f1.geo.window.localNpts.toNat i e j

/-- The comparison loop of the scalar forms. FieldComparisons.h:500-515, 577-590, 657-670. -/
def loopScalar (bad : V → Outcome Bool) (m : Mem V) (b1 : Option Nat) : Nat → It → It → Outcome Bool
  | fuel, i, e =>
    if i.eqOp e then .ok true
    else match fuel with
      | 0 => .ub
      | fuel + 1 => do
        let x ← elem m b1 i
        let r ← bad x
        if r then return false else loopScalar bad m b1 fuel i.inc e

/-- The common part of the scalar forms, FieldComparisons.h:482-522, 559-597, 640-677. -/
def scalar (bad : V → Outcome Bool) (m : Mem V) (f1 : FieldObj) : Outcome Bool := do
  let (b1, i, e) ← iterators f1
  loopScalar bad m b1 f1.geo.window.localNpts.toNat i e

end

section
variable {K : Type} [Field K] [LinearOrder K]
open Dbl

/-- The test of `field_equal`, FieldComparisons.h:159-160, 181-194. -/
def relBad (error errorAbs : Dbl K) (x y : Dbl K) : Bool :=
  let error := error.abs
  if error = fin 0 then x.ne y
  else
    let denom := add x.abs errorAbs
    ((x.sub y).abs.div denom).gt error

/-- The test of `field_equal_abs`, FieldComparisons.h:251-252, 272-283. -/
def absBad (error : Dbl K) (x y : Dbl K) : Bool :=
  let error := error.abs
  if error = fin 0 then x.ne y
  else (x.sub y).abs.gt error

/-- The test of `field_equal_ulp`, FieldComparisons.h:346, 366-377. `dist` is
`boost::math::float_distance`, which throws for values that are not finite; its result is an
integer. -/
def ulpBad (dist : Dbl K → Dbl K → Outcome Int) (ulps : Nat) (x y : Dbl K) : Outcome Bool := do
  let d ← dist x y
  if ulps = 0 then return decide (d ≠ 0) else return decide (|d| > ulps)

/-- `field_equal(f1,f2,error,error_abs)`, FieldComparisons.h:145-204. -/
def fieldEqual (m : Mem (Dbl K)) (f1 f2 : FieldObj) (error errorAbs : Dbl K) : Outcome Bool :=
  fields (fun x y => .ok (relBad error errorAbs x y)) m f1 f2

/-- `field_equal_abs(f1,f2,error)`, FieldComparisons.h:237-293. -/
def fieldEqualAbs (m : Mem (Dbl K)) (f1 f2 : FieldObj) (error : Dbl K) : Outcome Bool :=
  fields (fun x y => .ok (absBad error x y)) m f1 f2

/-- `field_equal_ulp(f1,f2,ulps)`, FieldComparisons.h:332-387. -/
def fieldEqualUlp (dist : Dbl K → Dbl K → Outcome Int) (m : Mem (Dbl K)) (f1 f2 : FieldObj) (ulps : Nat) : Outcome Bool :=
  fields (ulpBad dist ulps) m f1 f2

/-- The default of `error_abs`, FieldComparisons.h:81, 126. `norm` is what `nebo_norm(f1)` returns. -/
def defaultAbs (norm error : Dbl K) : Dbl K :=
  if error = fin 0 then fin 0 else mul (mul norm error) (fin (1 / 1000000))

/-- `field_equal(f1,f2,error)`, FieldComparisons.h:123-128. -/
def fieldEqualDefault (norm : Dbl K) (m : Mem (Dbl K)) (f1 f2 : FieldObj) (error : Dbl K) : Outcome Bool :=
  fieldEqual m f1 f2 error (defaultAbs norm error)

/-- `!` on the result of a comparison, FieldComparisons.h:82, 102, 222, 311. -/
def negate (o : Outcome Bool) : Outcome Bool := do
  let r ← o
  return !r

/-- `field_not_equal(f1,f2,error,error_abs)`, FieldComparisons.h:100-103. -/
def fieldNotEqual (m : Mem (Dbl K)) (f1 f2 : FieldObj) (error errorAbs : Dbl K) : Outcome Bool :=
  negate (fieldEqual m f1 f2 error errorAbs)

/-- `field_not_equal(f1,f2,error)`, FieldComparisons.h:79-83. -/
def fieldNotEqualDefault (norm : Dbl K) (m : Mem (Dbl K)) (f1 f2 : FieldObj) (error : Dbl K) : Outcome Bool :=
  negate (fieldEqual m f1 f2 error (defaultAbs norm error))

/-- `field_not_equal_abs(f1,f2,error)`, FieldComparisons.h:220-223. -/
def fieldNotEqualAbs (m : Mem (Dbl K)) (f1 f2 : FieldObj) (error : Dbl K) : Outcome Bool :=
  negate (fieldEqualAbs m f1 f2 error)

/-- `field_not_equal_ulp(f1,f2,ulps)`, FieldComparisons.h:309-312. -/
def fieldNotEqualUlp (dist : Dbl K → Dbl K → Outcome Int) (m : Mem (Dbl K)) (f1 f2 : FieldObj) (ulps : Nat) : Outcome Bool :=
  negate (fieldEqualUlp dist m f1 f2 ulps)

/-- The test of the scalar `field_equal`, FieldComparisons.h:486-487, 501-515: the divisor is formed from the scalar. -/
def relBadScalar (d error errorAbs : Dbl K) (x : Dbl K) : Bool :=
  let error := error.abs
  if error = fin 0 then x.ne d
  else
    let denom := add d.abs errorAbs
    ((d.sub x).abs.div denom).gt error

/-- The test of the scalar `field_equal_abs`, FieldComparisons.h:563-564, 579-590. -/
def absBadScalar (d error : Dbl K) (x : Dbl K) : Bool :=
  let error := error.abs
  if error = fin 0 then x.ne d
  else (d.sub x).abs.gt error

/-- `field_equal(d,f1,error,error_abs)`, FieldComparisons.h:479-523. -/
def scalarEqual (m : Mem (Dbl K)) (d : Dbl K) (f1 : FieldObj) (error errorAbs : Dbl K) : Outcome Bool :=
  scalar (fun x => .ok (relBadScalar d error errorAbs x)) m f1

/-- `field_equal_abs(d,f1,error)`, FieldComparisons.h:556-598. -/
def scalarEqualAbs (m : Mem (Dbl K)) (d : Dbl K) (f1 : FieldObj) (error : Dbl K) : Outcome Bool :=
  scalar (fun x => .ok (absBadScalar d error x)) m f1

/-- `field_equal_ulp(d,f1,ulps)`, FieldComparisons.h:637-678. -/
def scalarEqualUlp (dist : Dbl K → Dbl K → Outcome Int) (m : Mem (Dbl K)) (d : Dbl K) (f1 : FieldObj) (ulps : Nat) : Outcome Bool :=
  scalar (fun x => ulpBad dist ulps d x) m f1

end

end Compare
end SpatialOps
