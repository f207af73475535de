import Verif.Matlab.Model
import Verif.Loops.Spec

/-!
# Specification of the files `write_matlab` writes

What a decimal number means and what the file is to contain. Nothing here refers to how numbers are printed.
-/

namespace SpatialOps
namespace Matlab

/-- The value of a decimal digit. -/
def digitValue (c : Char) : Option Nat := "0123456789".toList.idxOf? c

/-- A non-empty sequence of decimal digits and the number it stands for. -/
inductive Decimal : List Char → Nat → Prop
  | one {c d} : digitValue c = some d → Decimal [c] d
  | more {s n c d} : Decimal s n → digitValue c = some d → Decimal (s ++ [c]) (10 * n + d)

/-- A sign that may be missing, and the factor it stands for. -/
inductive Sign : List Char → Int → Prop
  | none : Sign [] 1
  | plus : Sign ['+'] 1
  | minus : Sign ['-'] (-1)

/-- `s` is a decimal number with a point and an exponent, such as `-1.25e-03`, and stands for `x`: the digits before and after the
point stand for an integer, which is divided by ten for each digit after the point and multiplied by ten to the exponent. -/
def Numeral {K : Type} [Field K] (s : List Char) (x : K) : Prop :=
  ∃ (sgn a b esgn c : List Char) (σ τ : Int) (n k : Nat),
    s = sgn ++ a ++ ['.'] ++ b ++ ['e'] ++ esgn ++ c ∧
    Sign sgn σ ∧ Sign esgn τ ∧ a ≠ [] ∧ Decimal (a ++ b) n ∧ Decimal c k ∧
    x = (σ : K) * (n : K) / 10 ^ b.length * 10 ^ (τ * (k : Int))

/-- The file for function `load_pre` with these numerals: the head of the function and an array with one numeral per line. -/
def contents (pre : List Char) (nums : List (List Char)) : List Char :=
  "function x = load_".toList ++ pre ++ "()\n".toList ++
  "x = [ ".toList ++ List.intercalate "\n, ".toList nums ++ " ];\n".toList

/-- `vs` are the values of the cells of window `w` in block `b`, in Fortran order. -/
def CellsOf {V : Type} (m : Mem V) (b : Nat) (w : Window) (vs : List V) : Prop :=
  (vs.length : Int) = w.localNpts ∧
  ∀ (k : Nat) (loc : IntVec) (v : V), vs[k]? = some v → IsNthCell w.extent k loc → v = m b (Loops.element w loc)

/-- A field whose values are in CPU memory, in block `b`. -/
def InCpu (f : FieldObj) (b : Nat) : Prop := f.values = some b

/-- `x` has at most `k` significant decimal digits. -/
def HasDigits {K : Type} [Field K] (k : Nat) (x : K) : Prop := ∃ (M : Int) (j : Int), |M| < 10 ^ k ∧ x = M * 10 ^ j

end Matlab
end SpatialOps
