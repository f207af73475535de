import Verif.Conserve.Model
import Verif.NeboRed.Model
import Mathlib.Algebra.Order.Round
import Mathlib.Data.Int.Log

/-!
# Arithmetic with rounding

Field values are `double` (structured/SpatialField.h:90, 104). In the other areas arithmetic on them is exact. Here every
operation yields the exact result rounded. The models of expressions, assignments, reductions and operators are the same
ones: they are functions of the arithmetic of the values.
-/

namespace SpatialOps
namespace Round

/-- A number of a floating-point format, structured/SpatialField.h:104. `rnd` is the rounding of the format. -/
@[ext] structure Fl {K : Type} (rnd : K → K) where
  val : K

section
variable {K : Type} [Field K] {rnd : K → K}

/-- `+` on values, NeboOperators.h:162 and NeboReductions.h:423-440: the sum is rounded. -/
instance : Add (Fl rnd) := ⟨fun a b => ⟨rnd (a.val + b.val)⟩⟩
/-- `-` on values, NeboOperators.h:947: the difference is rounded. -/
instance : Sub (Fl rnd) := ⟨fun a b => ⟨rnd (a.val - b.val)⟩⟩
/-- `*` on values, NeboOperators.h:1732 and NeboStencils.h:172-227: the product is rounded. -/
instance : Mul (Fl rnd) := ⟨fun a b => ⟨rnd (a.val * b.val)⟩⟩
/-- `/` on values, NeboOperators.h:2517, StencilBuilder.cpp:59-71 and NeboStencilBuilder.h:335: the quotient is rounded. -/
instance : Div (Fl rnd) := ⟨fun a b => ⟨rnd (a.val / b.val)⟩⟩
/-- Negation, NeboOperators.h:4624, is exact. -/
instance : Neg (Fl rnd) := ⟨fun a => ⟨-a.val⟩⟩
/-- `1.0`, StencilBuilder.cpp:65. -/
instance : One (Fl rnd) := ⟨⟨1⟩⟩
/-- `0.0`, the value fields are filled with, structured/SpatialFieldStore.h:240-263. -/
instance : Zero (Fl rnd) := ⟨⟨0⟩⟩
/-- Conversion of counts, `double(PointCollectionType::length)`, NeboStencilBuilder.h:335, and of literals,
StencilBuilder.cpp:64-71. Taken as exact, which it is for counts below 2^53. -/
instance : NatCast (Fl rnd) := ⟨fun n => ⟨(n : K)⟩⟩

/-- The numbers in memory (structured/SpatialField.h:104), read as numbers of `K`. -/
def exactly (m : Mem (Fl rnd)) : Mem K := fun b a => (m b a).val

end

section
variable {K : Type} [Field K] [LinearOrder K] [FloorRing K]

/-- The integer nearest to `y`; if two are, the even one. Used for the rounding of `double`, structured/SpatialField.h:104. -/
def nearestEven (y : K) : Int :=
  if y - ⌊y⌋ < 1 / 2 then ⌊y⌋
  else if 1 / 2 < y - ⌊y⌋ then ⌊y⌋ + 1
  else if ⌊y⌋ % 2 = 0 then ⌊y⌋ else ⌊y⌋ + 1

/-- Rounding to `p` significant binary digits, to nearest, ties to even: the default rounding of `double`
(structured/SpatialField.h:104) for `p = 53`. Exponents are not bounded: there is no overflow and no underflow. -/
def roundEven (p : Nat) (x : K) : K :=
  (nearestEven (x / 2 ^ (Int.log 2 |x| - (p - 1 : Int))) : K) * 2 ^ (Int.log 2 |x| - (p - 1 : Int))

end
end Round
end SpatialOps
