import Verif.Range.Model
import Verif.Round.Spec

/-!
# Specification: overflow and underflow
-/

namespace SpatialOps
namespace Range

open Nebo Round Stencil

section
variable {K : Type} [Field K] [LinearOrder K]

/-- What is assumed of the format: as long as a number is at most `top` in absolute value, rounding changes it by at most the fraction `u` of it and `tiny`
(`2^-53` and `2^-1075` for `double`). Nothing is assumed of larger numbers. -/
structure Limited (u tiny top : K) (rnd : K → K) : Prop where
  unit_nonneg : 0 ≤ u
  tiny_nonneg : 0 ≤ tiny
  close : ∀ x, |x| ≤ top → |rnd x - x| ≤ u * |x| + tiny

variable {rnd : K → K}

/-- How much of the result of a formula can be lost by underflow. -/
def lost (u tiny : K) (m : Mem (Fl rnd)) : Formula rnd → IntVec → K
  | .const _, _ | .field _, _ | .single _, _ => 0
  | .add a b, c | .sub a b, c => (1 + u) * (lost u tiny m a c + lost u tiny m b c) + tiny
  | .mul a b, c => (1 + u) * ((1 + u) ^ a.depth * a.size m c * lost u tiny m b c + (1 + u) ^ b.depth * b.size m c * lost u tiny m a c +
      lost u tiny m a c * lost u tiny m b c) + tiny
  | .neg a, c => lost u tiny m a c
  | .overConst a v, c => (1 + u) * (lost u tiny m a c / |v.val|) + tiny
  | .overField a f, c => (1 + u) * (lost u tiny m a c / |(valueAt m f c).val|) + tiny
  | .stencil pts a, c => (1 + u) ^ pts.toList.length * (pts.toList.map fun q => lost u tiny m a (c + q.1) * |q.2.val| + 2 * tiny).sum
  | .sumStencil pts a, c => (1 + u) ^ pts.toList.length * (pts.toList.map fun q => lost u tiny m a (c + q) + tiny).sum
  | .cond t a b, c => if t.value m c then lost u tiny m a c else lost u tiny m b c

/-- The largest number that can come up in the last operation of a formula. -/
def peak (u tiny : K) (m : Mem (Fl rnd)) (f : Formula rnd) (c : IntVec) : K := (1 + u) ^ f.depth * f.size m c + lost u tiny m f c

/-- No operation of the formula can overflow: at each of them, the largest number that can come up is at most `top`. -/
def Fits (u tiny top : K) (m : Mem (Fl rnd)) : Formula rnd → IntVec → Prop
  | .const _, _ | .field _, _ | .single _, _ => True
  | .add a b, c => Fits u tiny top m a c ∧ Fits u tiny top m b c ∧ peak u tiny m (.add a b) c ≤ top
  | .sub a b, c => Fits u tiny top m a c ∧ Fits u tiny top m b c ∧ peak u tiny m (.sub a b) c ≤ top
  | .mul a b, c => Fits u tiny top m a c ∧ Fits u tiny top m b c ∧ peak u tiny m (.mul a b) c ≤ top
  | .neg a, c => Fits u tiny top m a c
  | .overConst a v, c => Fits u tiny top m a c ∧ peak u tiny m (.overConst a v) c ≤ top
  | .overField a f, c => Fits u tiny top m a c ∧ peak u tiny m (.overField a f) c ≤ top
  | .stencil pts a, c => (∀ q ∈ pts.toList, Fits u tiny top m a (c + q.1)) ∧ peak u tiny m (.stencil pts a) c ≤ top
  | .sumStencil pts a, c => (∀ q ∈ pts.toList, Fits u tiny top m a (c + q)) ∧ peak u tiny m (.sumStencil pts a) c ≤ top
  | .cond t a b, c => if t.value m c then Fits u tiny top m a c else Fits u tiny top m b c

/-- A stencil with the given weights. -/
def weighted (rnd : K → K) : Pts (IntVec × K) → Pts (IntVec × Fl rnd)
  | .one q => .one (q.1, ⟨q.2⟩)
  | .more e q => .more (weighted rnd e) (q.1, ⟨q.2⟩)

/-- The same formula for two formats: the same numbers, fields and operations. The tests of `cond` give the same answers for the same numbers, and
at the same cells, as comparisons of fields and numbers do. -/
inductive Same {rnd rnd' : K → K} : Formula rnd → Formula rnd' → Prop
  | const (v : K) : Same (.const ⟨v⟩) (.const ⟨v⟩)
  | field (f : FieldObj) : Same (.field f) (.field f)
  | single (f : FieldObj) : Same (.single f) (.single f)
  | add {a b a' b'} : Same a a' → Same b b' → Same (.add a b) (.add a' b')
  | sub {a b a' b'} : Same a a' → Same b b' → Same (.sub a b) (.sub a' b')
  | mul {a b a' b'} : Same a a' → Same b b' → Same (.mul a b) (.mul a' b')
  | neg {a a'} : Same a a' → Same (.neg a) (.neg a')
  | overConst {a a'} (v : K) : Same a a' → Same (.overConst a ⟨v⟩) (.overConst a' ⟨v⟩)
  | overField {a a'} (f : FieldObj) : Same a a' → Same (.overField a f) (.overField a' f)
  | stencil {a a'} (pts : Pts (IntVec × K)) : Same a a' →
      Same (.stencil (weighted rnd pts) a) (.stencil (weighted rnd' pts) a')
  | sumStencil {a a'} (pts : Pts IntVec) : Same a a' → Same (.sumStencil pts a) (.sumStencil pts a')
  | cond {t t' a b a' b'} : (∀ (m : Mem (Fl rnd)) (m' : Mem (Fl rnd')), (∀ b x, (m b x).val = (m' b x).val) → ∀ c, (t.value m c : Bool) = t'.value m' c) →
      (∀ n c, t.DefinedAt n c ↔ t'.DefinedAt n c) → Same a a' → Same b b' → Same (.cond t a b) (.cond t' a' b')

/-- The sums that come up when terms are added one after the other meet `P`. -/
def SumsMeet (P : K → Prop) {A : Type} (t : A → Fl rnd) : Pts A → Prop
  | .one _ => True
  | .more e a => SumsMeet P t e ∧ P ((e.sum t).val + (t a).val)

/-- The exact result of every operation of the formula, on the numbers computed so far, meets `P`. -/
def Meets (P : K → Prop) (m : Mem (Fl rnd)) : Formula rnd → IntVec → Prop
  | .const _, _ | .field _, _ | .single _, _ => True
  | .add a b, c => Meets P m a c ∧ Meets P m b c ∧ P ((a.expr.value m c : Fl rnd).val + (b.expr.value m c : Fl rnd).val)
  | .sub a b, c => Meets P m a c ∧ Meets P m b c ∧ P ((a.expr.value m c : Fl rnd).val - (b.expr.value m c : Fl rnd).val)
  | .mul a b, c => Meets P m a c ∧ Meets P m b c ∧ P ((a.expr.value m c : Fl rnd).val * (b.expr.value m c : Fl rnd).val)
  | .neg a, c => Meets P m a c
  | .overConst a v, c => Meets P m a c ∧ P ((a.expr.value m c : Fl rnd).val / v.val)
  | .overField a f, c => Meets P m a c ∧ P ((a.expr.value m c : Fl rnd).val / (valueAt m f c).val)
  | .stencil pts a, c => (∀ q ∈ pts.toList, Meets P m a (c + q.1) ∧ P ((a.expr.value m (c + q.1) : Fl rnd).val * q.2.val)) ∧
      SumsMeet P (fun q => (a.expr.value m (c + q.1) : Fl rnd) * q.2) pts
  | .sumStencil pts a, c => (∀ q ∈ pts.toList, Meets P m a (c + q)) ∧ SumsMeet P (fun q => (a.expr.value m (c + q) : Fl rnd)) pts
  | .cond t a b, c => if t.value m c then Meets P m a c else Meets P m b c

/-- Zero, or a number in the range in which `double` has 53 digits. -/
def Normal (x : K) : Prop := x = 0 ∨ ((2 : K) ^ (-1022 : Int) ≤ |x| ∧ |x| ≤ (2 ^ 53 - 1) * 2 ^ (971 : Int))

end
end Range
end SpatialOps
