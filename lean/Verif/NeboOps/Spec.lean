import Verif.NeboOps.Table
import Verif.Nebo.Spec

/-!
# Specification: what each operator and function of Nebo means
-/

namespace SpatialOps
namespace NeboOps

open Nebo (Ty Expr MaskObj)

/-- A value: a number or a truth value. -/
inductive Val (V : Type) where
  | num (v : V)
  | bool (b : Bool)

/-- The meaning of an operator or function: the C++ operation of the same name on the
values of its arguments, in the order in which they are written. `max(x,y)` is
`x > y ? x : y` and `min(x,y)` is `x < y ? x : y`. -/
def Fun.Means {V : Type} (S : Scalars V) : Fun → List (Val V) → Val V → Prop
  | .plus, [.num x, .num y], r => r = .num (S.add x y)
  | .minus, [.num x, .num y], r => r = .num (S.sub x y)
  | .times, [.num x, .num y], r => r = .num (S.mul x y)
  | .over, [.num x, .num y], r => r = .num (S.div x y)
  | .pow, [.num x, .num y], r => r = .num (S.pow x y)
  | .max, [.num x, .num y], r => r = .num (if S.gt x y then x else y)
  | .min, [.num x, .num y], r => r = .num (if S.lt x y then x else y)
  | .eqTo, [.num x, .num y], r => r = .bool (S.eq x y)
  | .neTo, [.num x, .num y], r => r = .bool (S.ne x y)
  | .lessThan, [.num x, .num y], r => r = .bool (S.lt x y)
  | .lessEq, [.num x, .num y], r => r = .bool (S.le x y)
  | .greaterThan, [.num x, .num y], r => r = .bool (S.gt x y)
  | .greaterEq, [.num x, .num y], r => r = .bool (S.ge x y)
  | .land, [.bool x, .bool y], r => r = .bool (x && y)
  | .lor, [.bool x, .bool y], r => r = .bool (x || y)
  | .lnot, [.bool x], r => r = .bool (!x)
  | .negate, [.num x], r => r = .num (S.neg x)
  | .sin, [.num x], r => r = .num (S.sin x)
  | .cos, [.num x], r => r = .num (S.cos x)
  | .tan, [.num x], r => r = .num (S.tan x)
  | .exp, [.num x], r => r = .num (S.exp x)
  | .tanh, [.num x], r => r = .num (S.tanh x)
  | .abs, [.num x], r => r = .num (S.abs x)
  | .sqrt, [.num x], r => r = .num (S.sqrt x)
  | .log, [.num x], r => r = .num (S.log x)
  | .log10, [.num x], r => r = .num (S.log10 x)
  | .erf, [.num x], r => r = .num (S.erf x)
  | .erfc, [.num x], r => r = .num (S.erfc x)
  | _, _, _ => False

/-- The value of an expression at cell `c`. -/
def valAt {V : Type} [Add V] [Mul V] (m : Mem V) (c : IntVec) : {t : Ty} → Expr V t → Val V
  | .num, e => .num (e.value m c)
  | .bool, e => .bool (e.value m c)

/-- An argument seen as an expression: a value is a constant, a field or mask is itself. -/
def Arg.asExpr {V : Type} : Arg V → AnyExpr V
  | .scalar v => ⟨.num, .scalar v⟩
  | .field f => ⟨.num, .field f⟩
  | .single f => ⟨.num, .single f⟩
  | .expr e | .singleExpr e => ⟨.num, e⟩
  | .bool b => ⟨.bool, .scalar (t := .bool) b⟩
  | .mask k => ⟨.bool, .mask k⟩
  | .boolExpr e => ⟨.bool, e⟩

/-- The value of an argument at cell `c`. -/
def Arg.valAt {V : Type} [Add V] [Mul V] (m : Mem V) (c : IntVec) (a : Arg V) : Val V :=
  NeboOps.valAt m c a.asExpr.2

/-- The argument has a value at cell `c` of a mesh with `n` cells (constants and
single-value fields: the mesh and `GHOST_MAX` cells around it). -/
def Arg.definedAt {V : Type} (n c : IntVec) (a : Arg V) : Prop := a.asExpr.2.DefinedAt n c

/-- All fields and masks of the argument lie on the mesh with `n` cells and have memory. -/
def Arg.wf {V : Type} (n : IntVec) (a : Arg V) : Prop := a.asExpr.2.Wf n

/-- The argument does not read the memory of `l`, except at the cell being assigned. -/
def Arg.independent {V : Type} (l : FieldObj) (a : Arg V) : Prop := a.asExpr.2.Independent l 0

/-- The functions of two numbers. -/
def Fun.twoNumbers : List Fun :=
  [.plus, .minus, .times, .over, .pow, .max, .min, .eqTo, .neTo, .lessThan, .lessEq, .greaterThan, .greaterEq]

/-- The functions of one number. -/
def Fun.oneNumber : List Fun :=
  [.negate, .sin, .cos, .tan, .exp, .tanh, .abs, .sqrt, .log, .log10, .erf, .erfc]

/-- Those that compare. -/
def Fun.comparisons : List Fun := [.eqTo, .neTo, .lessThan, .lessEq, .greaterThan, .greaterEq]

/-- The kinds of numeric arguments. -/
def numericKinds : List Kind := [.scalar, .field, .expr, .single, .singleExpr]

/-- The kinds of truth-valued arguments. -/
def booleanKinds : List Kind := [.bool, .boolExpr, .mask]

/-- The argument varies over the mesh. -/
def Kind.varies : Kind → Bool
  | .field | .expr | .mask | .boolExpr => true
  | _ => false

/-- What the user may write: a function of two numbers on any two numeric arguments unless
both are plain values, a function of one number on anything but a plain value, and the
logical operators on truth values unless all are plain. -/
def Offered (f : Fun) (ks : List Kind) : Prop :=
  (f ∈ Fun.twoNumbers ∧ ∃ a ∈ numericKinds, ∃ b ∈ numericKinds, ks = [a, b] ∧ ¬ (a = .scalar ∧ b = .scalar)) ∨
  (f ∈ Fun.oneNumber ∧ ∃ a ∈ numericKinds, ks = [a] ∧ a ≠ .scalar) ∨
  ((f = .land ∨ f = .lor) ∧ ∃ a ∈ booleanKinds, ∃ b ∈ booleanKinds, ks = [a, b] ∧ ¬ (a = .bool ∧ b = .bool)) ∨
  (f = .lnot ∧ ∃ a ∈ booleanKinds, ks = [a] ∧ a ≠ .bool)

/-- The class of the result: truth-valued for comparisons and logic, and varying over the
mesh if any argument does. -/
def expectedResult (f : Fun) (ks : List Kind) : Result :=
  if f ∈ Fun.comparisons ∨ f = .land ∨ f = .lor ∨ f = .lnot then
    if ks.any Kind.varies then .boolExpr else .boolSingleExpr
  else
    if ks.any Kind.varies then .expr else .singleExpr

end NeboOps
end SpatialOps
