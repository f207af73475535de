import Verif.Nebo.Model

/-!
# Model of the operators of Nebo expressions

spatialops/NeboOperators.h: 28 operator structs (each in the modes `Initial`,
`Resize`, `SeqWalk`, `GPUWalk`, `Reduction`) and 378 overloads of operators and
functions that build them. `Table.lean` holds what each struct and overload says;
here is what those entries mean. The C++ operations on the value type
(`+`, `std::sin`, `<`, ...) are parameters: `Scalars`. Which of the overloads a
call selects is decided by the kinds of its arguments; the requirement that both
fields have the same type is checked by the compiler and not modelled.
-/

namespace SpatialOps
namespace NeboOps

open Nebo (Ty Expr MaskObj)

/-- Built-in unary operators and `<cmath>` functions called by `eval()`, NeboOperators.h:3150-9500. -/
inductive Un where
  | neg | not | sin | cos | tan | exp | tanh | abs | sqrt | log | log10 | erf | erfc
  deriving DecidableEq, Repr

/-- Built-in binary operators and `std::pow` called by `eval()`, NeboOperators.h:151-168 and others. -/
inductive Bin where
  | add | sub | mul | div | pow | eq | ne | lt | le | gt | ge | and | or
  deriving DecidableEq, Repr

/-- The expression returned by an `eval()`: `slot k` is `operandk_.eval()`, `ite`
is `c ? a : b`. NeboOperators.h:161-163 and every other `eval`. -/
inductive Sx where
  | slot (k : Nat)
  | un (f : Un) (a : Sx)
  | bin (f : Bin) (a b : Sx)
  | ite (c a b : Sx)
  deriving DecidableEq, Repr

/-- The structs of NeboOperators.h:29-14300. -/
inductive Node where
  | sumOp | diffOp | prodOp | divOp | sinFcn | cosFcn | tanFcn | expFcn | tanhFcn | absFcn | negFcn
  | powFcn | sqrtFcn | logFcn | log10Fcn | erfFcn | erfcFcn | equalCmp | inequalCmp | lessThanCmp
  | lessThanEqualCmp | greaterThanCmp | greaterThanEqualCmp | andOp | orOp | notOp | maxFcn | minFcn
  deriving DecidableEq, Repr

/-- What a struct says in its five modes. A list `[i, j]` says which operand (or
constructor argument) goes to the first and to the second place: `toSeq` is the
argument order of `init`, `toResize` of `resize`, `resizeToSeq` of the `Resize`
mode's `init`, `toGpu` of `gpu_init`, `toRed` of `reduce_init`, and `ctor*` is
the initialiser list of each mode's constructor. `boolean`: `eval` returns `bool`.
NeboOperators.h:29-228 for SumOp, the same in all others. -/
structure Members where
  arity : Nat
  toSeq : List Nat
  toResize : List Nat
  resizeToSeq : List Nat
  toGpu : List Nat
  toRed : List Nat
  ctorInitial : List Nat
  ctorResize : List Nat
  ctorSeq : List Nat
  ctorGpu : List Nat
  ctorRed : List Nat
  evalSeq : Sx
  evalGpu : Sx
  evalRed : Sx
  boolean : Bool
  deriving DecidableEq, Repr

/-- The four ways in which an expression comes to be evaluated: sequential
assignment, thread-parallel assignment, assignment on a GPU, reduction.
NeboLhs.h:150-330, NeboReductions.h:30-120. -/
inductive Route where
  | seq | threads | gpu | reduction
  deriving DecidableEq, Repr

/-- Kinds of arguments named in the comments of NeboOperators.h:232-800. `scalar`: a
value. `field`: a SpatialField. `expr`: NeboExpression. `single`: a single-value
field. `singleExpr`: NeboSingleValueExpression. `bool`, `mask`, `boolExpr`: a bool,
a SpatialMask, NeboBooleanExpression. -/
inductive Kind where
  | scalar | field | expr | single | singleExpr | bool | mask | boolExpr
  deriving DecidableEq, Repr

/-- How an overload turns an argument into an operand: `NeboScalar<Initial,T>(arg)`,
`NeboScalar<Initial,bool>(arg)`, `NeboConstField(arg)`, `NeboConstSingleValueField(arg)`,
`NeboMask(arg)`, `arg.expr()`. NeboOperators.h:251-253, 273-275 and others. -/
inductive Wrap where
  | scalar | boolScalar | constField | constSingle | mask | inner
  deriving DecidableEq, Repr

/-- Class of the returned object, NeboBasic.h:193-275. -/
inductive Result where
  | expr | singleExpr | boolExpr | boolSingleExpr
  deriving DecidableEq, Repr

/-- The operators and functions a user writes. NeboOperators.h:232-14419. -/
inductive Fun where
  | plus | minus | times | over | sin | cos | tan | exp | tanh | abs | negate | pow | sqrt | log | log10
  | erf | erfc | eqTo | neTo | lessThan | lessEq | greaterThan | greaterEq | land | lor | lnot | max | min
  deriving DecidableEq, Repr

/-- One overload: parameter kinds, the struct built, for each of its places the
wrapper and the number of the argument, and the class returned.
NeboOperators.h:232-255 for `value + field`, the same in all others. -/
structure Overload where
  fn : Fun
  params : List Kind
  node : Node
  slots : List (Wrap × Nat)
  result : Result
  line : Nat
  deriving DecidableEq, Repr

/-- The C++ operations on the value type. Those called in NeboOperators.h:29-14300. -/
structure Scalars (V : Type) where
  neg : V → V
  sin : V → V
  cos : V → V
  tan : V → V
  exp : V → V
  tanh : V → V
  abs : V → V
  sqrt : V → V
  log : V → V
  log10 : V → V
  erf : V → V
  erfc : V → V
  add : V → V → V
  sub : V → V → V
  mul : V → V → V
  div : V → V → V
  pow : V → V → V
  eq : V → V → Bool
  ne : V → V → Bool
  lt : V → V → Bool
  le : V → V → Bool
  gt : V → V → Bool
  ge : V → V → Bool

/-- An expression of some type. Objects of NeboBasic.h:193-275. -/
abbrev AnyExpr (V : Type) := (t : Ty) × Expr V t

/-- An argument of an operator. Parameter types of the overloads, NeboOperators.h:232-800. -/
inductive Arg (V : Type) where
  | scalar (v : V)
  | field (f : FieldObj)
  | expr (e : Expr V .num)
  | single (f : FieldObj)
  | singleExpr (e : Expr V .num)
  | bool (b : Bool)
  | mask (m : MaskObj)
  | boolExpr (e : Expr V .bool)

/-- The kind of an argument. NeboOperators.h:232-800 (comments). -/
def Arg.kind {V : Type} : Arg V → Kind
  | .scalar _ => .scalar
  | .field _ => .field
  | .expr _ => .expr
  | .single _ => .single
  | .singleExpr _ => .singleExpr
  | .bool _ => .bool
  | .mask _ => .mask
  | .boolExpr _ => .boolExpr

/-- Wrap an argument; `none` if it does not compile. The constructors of
NeboRhs.h:50, 202, 399, NeboMask.h:50 and `expr()`, NeboBasic.h:204. -/
def Wrap.apply {V : Type} : Wrap → Arg V → Option (AnyExpr V)
  | .scalar, .scalar v => some ⟨.num, .scalar v⟩
  | .boolScalar, .bool b => some ⟨.bool, .scalar (t := .bool) b⟩
  | .constField, .field f => some ⟨.num, .field f⟩
  | .constSingle, .single f => some ⟨.num, .single f⟩
  | .mask, .mask m => some ⟨.bool, .mask m⟩
  | .inner, .expr e => some ⟨.num, e⟩
  | .inner, .singleExpr e => some ⟨.num, e⟩
  | .inner, .boolExpr e => some ⟨.bool, e⟩
  | _, _ => none

/-- A unary operation on values; `none` if it does not compile. NeboOperators.h:3100-9500. -/
def Un.op {V : Type} (S : Scalars V) : Un → (s : Ty) → Option ((t : Ty) × (s.den V → t.den V))
  | .not, .bool => some ⟨.bool, fun b => !b⟩
  | .neg, .num => some ⟨.num, S.neg⟩
  | .sin, .num => some ⟨.num, S.sin⟩
  | .cos, .num => some ⟨.num, S.cos⟩
  | .tan, .num => some ⟨.num, S.tan⟩
  | .exp, .num => some ⟨.num, S.exp⟩
  | .tanh, .num => some ⟨.num, S.tanh⟩
  | .abs, .num => some ⟨.num, S.abs⟩
  | .sqrt, .num => some ⟨.num, S.sqrt⟩
  | .log, .num => some ⟨.num, S.log⟩
  | .log10, .num => some ⟨.num, S.log10⟩
  | .erf, .num => some ⟨.num, S.erf⟩
  | .erfc, .num => some ⟨.num, S.erfc⟩
  | _, _ => none

/-- A binary operation on values; `none` if not used on such values.
NeboOperators.h:29-14300 (`&&` and `||` are built by `nodeExpr` below). -/
def Bin.op {V : Type} (S : Scalars V) : Bin → (s : Ty) → Option ((t : Ty) × (s.den V → s.den V → t.den V))
  | .add, .num => some ⟨.num, S.add⟩
  | .sub, .num => some ⟨.num, S.sub⟩
  | .mul, .num => some ⟨.num, S.mul⟩
  | .div, .num => some ⟨.num, S.div⟩
  | .pow, .num => some ⟨.num, S.pow⟩
  | .eq, .num => some ⟨.bool, S.eq⟩
  | .ne, .num => some ⟨.bool, S.ne⟩
  | .lt, .num => some ⟨.bool, S.lt⟩
  | .le, .num => some ⟨.bool, S.le⟩
  | .gt, .num => some ⟨.bool, S.gt⟩
  | .ge, .num => some ⟨.bool, S.ge⟩
  | _, _ => none

/-- The body of an `eval()` as a function of the operand values (all of type `s`);
`none` if it does not compile. NeboOperators.h:161-163 and every other `eval`. -/
def Sx.compile {V : Type} (S : Scalars V) (s : Ty) : Sx → Option ((t : Ty) × ((Nat → s.den V) → t.den V))
  | .slot k => some ⟨s, fun r => r k⟩
  | .un f a => do
    let x ← a.compile S s
    let g ← f.op S x.1
    return ⟨g.1, fun r => g.2 (x.2 r)⟩
  | .bin f a b => do
    let x ← a.compile S s
    let y ← b.compile S s
    if h : y.1 = x.1 then do
      let g ← f.op S x.1
      return ⟨g.1, fun r => g.2 (x.2 r) (h ▸ y.2 r)⟩
    else none
  | .ite c a b => do
    let z ← c.compile S s
    let x ← a.compile S s
    let y ← b.compile S s
    if hz : z.1 = .bool then
      if h : y.1 = x.1 then
        return ⟨x.1, fun r => if (hz ▸ z.2 r : Ty.den V .bool) = true then x.2 r else h ▸ y.2 r⟩
      else none
    else none

/-- Rearrange: place `k` of the result is element number `o[k]` (counted from 1).
Argument and initialiser lists, NeboOperators.h:56-58, 64-69 and others. -/
def pick {α : Type} (o : List Nat) (xs : List α) : Option (List α) :=
  o.mapM fun i => if i = 0 then none else xs[i - 1]?

/-- The operands as they stand in the struct that evaluates them, for an object
constructed from `xs`. NeboOperators.h:56-69, 72-76, 89-101, 112-117, 132-141, 155-157,
176-178, 208-210 and the same in all others. -/
def Members.arrive {α : Type} (m : Members) (r : Route) (xs : List α) : Option (List α) := do
  let ini ← pick m.ctorInitial xs
  match r with
  | .seq => do
    let a ← pick m.toSeq ini
    pick m.ctorSeq a
  | .threads => do
    let a ← pick m.toResize ini
    let b ← pick m.ctorResize a
    let c ← pick m.resizeToSeq b
    pick m.ctorSeq c
  | .gpu => do
    let a ← pick m.toGpu ini
    pick m.ctorGpu a
  | .reduction => do
    let a ← pick m.toRed ini
    pick m.ctorRed a

/-- The `eval()` met on a route (threads walk in mode `SeqWalk`).
NeboOperators.h:161-163, 192-194, 222-224. -/
def Members.evalOn (m : Members) : Route → Sx
  | .seq | .threads => m.evalSeq
  | .gpu => m.evalGpu
  | .reduction => m.evalRed

/-- The tree for one struct whose operands have arrived: its `eval()` applied to the
operands' values. A bare `&&`/`||` does not evaluate its right operand if the left one
decides. `none` if it does not compile. NeboOperators.h:161-163 and others, AndOp
12017, OrOp 12397. -/
def nodeExpr {V : Type} (S : Scalars V) : Sx → List (AnyExpr V) → Option (AnyExpr V)
  | .bin .and (.slot i) (.slot j), ops =>
    match pick [i, j] ops with
    | some [⟨.bool, a⟩, ⟨.bool, b⟩] => some ⟨.bool, .and a b⟩
    | _ => none
  | .bin .or (.slot i) (.slot j), ops =>
    match pick [i, j] ops with
    | some [⟨.bool, a⟩, ⟨.bool, b⟩] => some ⟨.bool, .or a b⟩
    | _ => none
  | sx, [⟨s, a⟩] =>
    match sx.compile S s with
    | some ⟨t, g⟩ => some ⟨t, .un (fun x => g fun _ => x) a⟩
    | none => none
  | sx, [⟨s, a⟩, ⟨s', b⟩] =>
    if h : s' = s then
      match sx.compile S s with
      | some ⟨t, g⟩ => some ⟨t, .bin (fun x y => g fun k => if k = 1 then x else y) a (h ▸ b)⟩
      | none => none
    else none
  | _, _ => none

/-- The class of an expression of type `t` returned as `r`. NeboBasic.h:193-275. -/
def Result.ty : Result → Ty
  | .expr | .singleExpr => .num
  | .boolExpr | .boolSingleExpr => .bool

/-- The expression an overload builds from its arguments, as it will be evaluated on a
route; `none` if it does not compile. NeboOperators.h:232-255 and every other overload. -/
def build {V : Type} (S : Scalars V) (mem : Node → Members) (r : Route) (o : Overload) (args : List (Arg V)) :
    Option (AnyExpr V) := do
  if args.map Arg.kind = o.params then do
    let ops ← o.slots.mapM fun w => (if w.2 = 0 then none else args[w.2 - 1]?) >>= w.1.apply
    if ops.length = (mem o.node).arity then do
      let placed ← (mem o.node).arrive r ops
      let e ← nodeExpr S ((mem o.node).evalOn r) placed
      if e.1 = o.result.ty then return e else none
    else none
  else none

end NeboOps
end SpatialOps
