import Verif.Round.Spec

/-!
# Specification: results that rise and fall with the data
-/

namespace SpatialOps
namespace Order

open Nebo Round Stencil

section
variable {K : Type} [Field K] [LinearOrder K] {rnd : K → K}

/-- For two memories: at cell `c` the formula rises (`up = true`) or falls (`up = false`) from the first to the second by its form: fields that do, sums, differences,
negations, products with and quotients by numbers that stay the same and whose sign is known, stencils with coefficients of known sign, and products of
two numbers that are not negative. Numbers that are the same in both rise and fall. -/
def Moves (m m' : Mem (Fl rnd)) : Bool → Formula rnd → IntVec → Prop
  | _, .const _, _ => True
  | up, .field f, c => if up then (valueAt m f c).val ≤ (valueAt m' f c).val else (valueAt m' f c).val ≤ (valueAt m f c).val
  | up, .single f, _ => if up then (m (f.values.getD 0) 0).val ≤ (m' (f.values.getD 0) 0).val else (m' (f.values.getD 0) 0).val ≤ (m (f.values.getD 0) 0).val
  | up, .add a b, c => Moves m m' up a c ∧ Moves m m' up b c
  | up, .sub a b, c => Moves m m' up a c ∧ Moves m m' (!up) b c
  | up, .neg a, c => Moves m m' (!up) a c
  | up, .mul a b, c =>
      (Fl.val (a.expr.value m c) = Fl.val (a.expr.value m' c) ∧
        ((0 ≤ (a.expr.value m c : Fl rnd).val ∧ Moves m m' up b c) ∨ ((a.expr.value m c : Fl rnd).val ≤ 0 ∧ Moves m m' (!up) b c))) ∨
      (Fl.val (b.expr.value m c) = Fl.val (b.expr.value m' c) ∧
        ((0 ≤ (b.expr.value m c : Fl rnd).val ∧ Moves m m' up a c) ∨ ((b.expr.value m c : Fl rnd).val ≤ 0 ∧ Moves m m' (!up) a c))) ∨
      (Moves m m' up a c ∧ Moves m m' up b c ∧ 0 ≤ (a.expr.value m c : Fl rnd).val ∧ 0 ≤ (b.expr.value m c : Fl rnd).val ∧
        0 ≤ (a.expr.value m' c : Fl rnd).val ∧ 0 ≤ (b.expr.value m' c : Fl rnd).val)
  | up, .overConst a v, c => (0 ≤ v.val ∧ Moves m m' up a c) ∨ (v.val ≤ 0 ∧ Moves m m' (!up) a c)
  | up, .overField a f, c => valueAt m f c = valueAt m' f c ∧
      ((0 ≤ (valueAt m f c).val ∧ Moves m m' up a c) ∨ ((valueAt m f c).val ≤ 0 ∧ Moves m m' (!up) a c))
  | up, .stencil pts a, c => ∀ q ∈ pts.toList, (0 ≤ q.2.val ∧ Moves m m' up a (c + q.1)) ∨ (q.2.val ≤ 0 ∧ Moves m m' (!up) a (c + q.1))
  | up, .sumStencil pts a, c => ∀ q ∈ pts.toList, Moves m m' up a (c + q)
  | up, .cond t a b, c => (t.value m c : Bool) = t.value m' c ∧ if t.value m c then Moves m m' up a c else Moves m m' up b c

/-- The formula has no negative numbers, differences or negations: constants, coefficients and the fields at the cells read are not negative. -/
def Positive (m : Mem (Fl rnd)) : Formula rnd → IntVec → Prop
  | .const v, _ => 0 ≤ v.val
  | .field f, c => 0 ≤ (valueAt m f c).val
  | .single f, _ => 0 ≤ (m (f.values.getD 0) 0).val
  | .add a b, c | .mul a b, c => Positive m a c ∧ Positive m b c
  | .sub _ _, _ | .neg _, _ => False
  | .overConst a v, c => Positive m a c ∧ 0 ≤ v.val
  | .overField a f, c => Positive m a c ∧ 0 ≤ (valueAt m f c).val
  | .stencil pts a, c => ∀ q ∈ pts.toList, 0 ≤ q.2.val ∧ Positive m a (c + q.1)
  | .sumStencil pts a, c => ∀ q ∈ pts.toList, Positive m a (c + q)
  | .cond t a b, c => if t.value m c then Positive m a c else Positive m b c

end
end Order
end SpatialOps
