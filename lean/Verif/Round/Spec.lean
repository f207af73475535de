import Verif.Round.Model
import Verif.Conserve.Spec
import Mathlib.Algebra.Order.Ring.Abs

/-!
# Specification of rounding errors
-/

namespace SpatialOps
namespace Round

open Nebo Stencil

section
variable {K : Type} [Field K] [LinearOrder K]

/-- What is assumed of the format: rounding changes a number by at most the fraction `u` of it (`2^-53` for `double`), and
one half is a number of the format. -/
structure Format (u : K) (rnd : K → K) : Prop where
  nonneg : 0 ≤ u
  close : ∀ x, |rnd x - x| ≤ u * |x|
  half : rnd (1 / 2) = 1 / 2

/-- `v` is a number with `p` binary digits, with any exponent. -/
def HasDigits (p : Nat) (v : K) : Prop := ∃ m e : Int, |m| < 2 ^ p ∧ v = (m : K) * 2 ^ e

/-- The largest relative error of `k` roundings in a row. -/
def grow (u : K) (k : Nat) : K := (1 + u) ^ k - 1

/-- Arithmetic formulas over fields, as the user writes them: constants, fields, single-value fields, `+`, `-`, `*`, negation, division by
a constant or a field, stencils with and without coefficients, and `cond` with any test. -/
inductive Formula (rnd : K → K) where
  | const (v : Fl rnd)
  | field (f : FieldObj)
  | single (f : FieldObj)
  | add (a b : Formula rnd)
  | sub (a b : Formula rnd)
  | mul (a b : Formula rnd)
  | neg (a : Formula rnd)
  | overConst (a : Formula rnd) (v : Fl rnd)
  | overField (a : Formula rnd) (f : FieldObj)
  | stencil (pts : Pts (IntVec × Fl rnd)) (a : Formula rnd)
  | sumStencil (pts : Pts IntVec) (a : Formula rnd)
  | cond (test : Expr (Fl rnd) .bool) (a b : Formula rnd)

namespace Formula
variable {rnd : K → K}

/-- The Nebo expression. -/
def expr : Formula rnd → Expr (Fl rnd) .num
  | .const v => .scalar (t := .num) v
  | .field f => .field f
  | .single f => .single f
  | .add a b => .bin (s := .num) (t := .num) (fun x y : Fl rnd => x + y) a.expr b.expr
  | .sub a b => .bin (s := .num) (t := .num) (fun x y : Fl rnd => x - y) a.expr b.expr
  | .mul a b => .bin (s := .num) (t := .num) (fun x y : Fl rnd => x * y) a.expr b.expr
  | .neg a => .un (s := .num) (t := .num) (fun x : Fl rnd => -x) a.expr
  | .overConst a v => .bin (s := .num) (t := .num) (fun x y : Fl rnd => x / y) a.expr (.scalar (t := .num) v)
  | .overField a f => .bin (s := .num) (t := .num) (fun x y : Fl rnd => x / y) a.expr (.field f)
  | .stencil pts a => .stencil pts a.expr
  | .sumStencil pts a => .sumStencil pts a.expr
  | .cond t a b => .cond t a.expr b.expr

/-- What the formula means in exact arithmetic at cell `c`, for the numbers in memory. -/
def exact (m : Mem (Fl rnd)) : Formula rnd → IntVec → K
  | .const v, _ => v.val
  | .field f, c => (valueAt m f c).val
  | .single f, _ => (m (f.values.getD 0) 0).val
  | .add a b, c => a.exact m c + b.exact m c
  | .sub a b, c => a.exact m c - b.exact m c
  | .mul a b, c => a.exact m c * b.exact m c
  | .neg a, c => -a.exact m c
  | .overConst a v, c => a.exact m c / v.val
  | .overField a f, c => a.exact m c / (valueAt m f c).val
  | .stencil pts a, c => (pts.toList.map fun q => a.exact m (c + q.1) * q.2.val).sum
  | .sumStencil pts a, c => (pts.toList.map fun q => a.exact m (c + q)).sum
  | .cond t a b, c => if t.value m c then a.exact m c else b.exact m c

/-- The same with all numbers replaced by their absolute values and differences by sums: the size against which errors are
measured. -/
def size (m : Mem (Fl rnd)) : Formula rnd → IntVec → K
  | .const v, _ => |v.val|
  | .field f, c => |(valueAt m f c).val|
  | .single f, _ => |(m (f.values.getD 0) 0).val|
  | .add a b, c => a.size m c + b.size m c
  | .sub a b, c => a.size m c + b.size m c
  | .mul a b, c => a.size m c * b.size m c
  | .neg a, c => a.size m c
  | .overConst a v, c => a.size m c / |v.val|
  | .overField a f, c => a.size m c / |(valueAt m f c).val|
  | .stencil pts a, c => (pts.toList.map fun q => a.size m (c + q.1) * |q.2.val|).sum
  | .sumStencil pts a, c => (pts.toList.map fun q => a.size m (c + q)).sum
  | .cond t a b, c => if t.value m c then a.size m c else b.size m c

/-- The number of roundings that a result depends on one after the other. -/
def depth : Formula rnd → Nat
  | .const _ | .field _ | .single _ => 0
  | .add a b | .sub a b => max a.depth b.depth + 1
  | .mul a b => a.depth + b.depth + 1
  | .neg a => a.depth
  | .overConst a _ | .overField a _ => a.depth + 1
  | .stencil pts a => a.depth + pts.toList.length
  | .sumStencil pts a => a.depth + (pts.toList.length - 1)
  | .cond _ a b => max a.depth b.depth

end Formula

/-- The sum of the absolute values of an operator's coefficients. -/
def amplification (h : Dir → K) (r : Reg) : K :=
  match r.coef with
  | .per d => 2 / |h d|
  | .halfPer d => 1 / |h d|
  | _ => 1

end
end Round
end SpatialOps
