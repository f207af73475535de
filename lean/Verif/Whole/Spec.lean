import Verif.Round.Spec

/-!
# Specification: exact results in floating point
-/

namespace SpatialOps
namespace Whole

open Nebo Round Stencil

section
variable {K : Type} [Field K] [LinearOrder K] {rnd : K → K}

/-- Whole numbers from `-N` to `N`. -/
def Upto (N : Nat) (x : K) : Prop := ∃ k : Int, x = k ∧ |k| ≤ N

/-- The result of every operation of the formula in exact arithmetic is a number of the format; for stencils so are the products and the sums of the first few
of them. -/
def Kept (m : Mem (Fl rnd)) : Formula rnd → IntVec → Prop
  | .const _, _ | .field _, _ | .single _, _ => True
  | .add a b, c => Kept m a c ∧ Kept m b c ∧ rnd (a.exact m c + b.exact m c) = a.exact m c + b.exact m c
  | .sub a b, c => Kept m a c ∧ Kept m b c ∧ rnd (a.exact m c - b.exact m c) = a.exact m c - b.exact m c
  | .mul a b, c => Kept m a c ∧ Kept m b c ∧ rnd (a.exact m c * b.exact m c) = a.exact m c * b.exact m c
  | .neg a, c => Kept m a c
  | .overConst a v, c => Kept m a c ∧ rnd (a.exact m c / v.val) = a.exact m c / v.val
  | .overField a f, c => Kept m a c ∧ rnd (a.exact m c / (valueAt m f c).val) = a.exact m c / (valueAt m f c).val
  | .stencil pts a, c => (∀ q ∈ pts.toList, Kept m a (c + q.1) ∧ rnd (a.exact m (c + q.1) * q.2.val) = a.exact m (c + q.1) * q.2.val) ∧
      ∀ l, l <+: (pts.toList.map fun q => a.exact m (c + q.1) * q.2.val) → rnd l.sum = l.sum
  | .sumStencil pts a, c => (∀ q ∈ pts.toList, Kept m a (c + q)) ∧ ∀ l, l <+: (pts.toList.map fun q => a.exact m (c + q)) → rnd l.sum = l.sum
  | .cond t a b, c => if t.value m c then Kept m a c else Kept m b c

/-- The constants and coefficients of the formula and the fields it reads are whole numbers, there are no divisions, and no result of an operation in exact
arithmetic exceeds `N` in absolute value; for stencils, not even the sum of the absolute values of the terms does. -/
def Small (N : Nat) (m : Mem (Fl rnd)) : Formula rnd → IntVec → Prop
  | .const v, _ => Upto N v.val
  | .field f, c => Upto N (valueAt m f c).val
  | .single f, _ => Upto N (m (f.values.getD 0) 0).val
  | .add a b, c => Small N m a c ∧ Small N m b c ∧ |a.exact m c + b.exact m c| ≤ N
  | .sub a b, c => Small N m a c ∧ Small N m b c ∧ |a.exact m c - b.exact m c| ≤ N
  | .mul a b, c => Small N m a c ∧ Small N m b c ∧ |a.exact m c * b.exact m c| ≤ N
  | .neg a, c => Small N m a c
  | .overConst _ _, _ | .overField _ _, _ => False
  | .stencil pts a, c => (∀ q ∈ pts.toList, Small N m a (c + q.1) ∧ Upto N q.2.val) ∧
      (pts.toList.map fun q => |a.exact m (c + q.1) * q.2.val|).sum ≤ N
  | .sumStencil pts a, c => (∀ q ∈ pts.toList, Small N m a (c + q)) ∧ (pts.toList.map fun q => |a.exact m (c + q)|).sum ≤ N
  | .cond t a b, c => if t.value m c then Small N m a c else Small N m b c

end
end Whole
end SpatialOps
