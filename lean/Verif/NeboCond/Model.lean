import Verif.Nebo.Model

/-!
# Model of the `cond` builder

spatialops/NeboCond.h:489-1769. `cond(c1, v1)(c2, v2)...(final)` collects its clauses in
a nested list, the most recent one outermost, and reverses the list when the final value
arrives. Two kinds of builder exist: one whose clauses are all plain `(bool, double)` and
which has no field type, and one whose clauses are expressions. A field or mask argument
is wrapped in its expression leaf at once (`NeboConstField`, `NeboMask`) and is not
distinguished from an expression here.
-/

namespace SpatialOps
namespace Nebo

/-- The condition of a clause: a `bool`, or a mask or boolean expression
(overloads of NeboCond.h:735-947). -/
inductive TestArg (V : Type) where
  | plain (b : Bool)
  | expr (t : Expr V .bool)

/-- The value of a clause or the final value: a `double`, or a field or expression
(overloads of NeboCond.h:695-947). -/
inductive ValArg (V : Type) where
  | plain (d : V)
  | expr (e : Expr V .num)

/-- The boolean leaf or tree made of a condition: `Boolean(b)`, `nb.expr()`, `Mask(mask)`,
NeboCond.h:755, 826, 898. -/
def TestArg.toExpr {V : Type} : TestArg V → Expr V .bool
  | .plain b => .scalar (t := .bool) b
  | .expr t => t

/-- The leaf or tree made of a value: `Scalar(d)`, `Field(f)`, `e.expr()`,
NeboCond.h:755, 778, 799. -/
def ValArg.toExpr {V : Type} : ValArg V → Expr V .num
  | .plain d => .scalar (t := .num) d
  | .expr e => e

/-- A builder and its `clauses_`, last added clause first: `CondBuilder<NeboSimpleCond<…> >`,
NeboCond.h:949-1462, or `CondBuilder<NeboCond<…> >`, NeboCond.h:620-948. -/
inductive CondBuilder (V : Type) where
  | simple (clauses : List (Bool × V))
  | general (clauses : List (Expr V .bool × Expr V .num))

/-- `NeboSimpleCond::convert`, NeboCond.h:489-516, 545-568, 587-610. -/
def convertClauses {V : Type} : List (Bool × V) → List (Expr V .bool × Expr V .num)
  | [] => []
  | (b, d) :: rest => (.scalar (t := .bool) b, .scalar (t := .num) d) :: convertClauses rest

/-- `cond(test, value)`, NeboCond.h:1503-1769. -/
def condStart {V : Type} : TestArg V → ValArg V → CondBuilder V
  | .plain b, .plain d => .simple [(b, d)]
  | t, v => .general [(t.toExpr, v.toExpr)]

/-- `builder(test, value)`, NeboCond.h:735-947 and 1078-1462. -/
def CondBuilder.clause {V : Type} : CondBuilder V → TestArg V → ValArg V → CondBuilder V
  | .simple cs, .plain b, .plain d => .simple ((b, d) :: cs)
  | .simple cs, t, v => .general ((t.toExpr, v.toExpr) :: convertClauses cs)
  | .general cs, t, v => .general ((t.toExpr, v.toExpr) :: cs)

/-- `ReverseClausesRecursive::reverse` of a general builder, NeboCond.h:628-664. -/
def reverseClauses {V : Type} : List (Expr V .bool × Expr V .num) → Expr V .num → Expr V .num
  | [], r => r
  | (t, v) :: following, r => reverseClauses following (.cond t v r)

/-- `ReverseClausesRecursive::reverse` of a simple builder and `eval()` of the result,
NeboCond.h:957-983, 519-541. -/
def reverseSimple {V : Type} : List (Bool × V) → V → V
  | [], r => r
  | (b, d) :: following, r => reverseSimple following (if b then d else r)

/-- What `builder(final)` returns: a `double` (NeboCond.h:1013-1015) or an expression
(NeboCond.h:695-733, 1017-1076). -/
inductive CondResult (V : Type) where
  | value (d : V)
  | expr (e : Expr V .num)

/-- `builder(final)`, NeboCond.h:695-733, 1013-1076. -/
def CondBuilder.final {V : Type} : CondBuilder V → ValArg V → CondResult V
  | .simple cs, .plain d => .value (reverseSimple cs d)
  | .simple cs, .expr e => .expr (reverseClauses (convertClauses cs) e)
  | .general cs, v => .expr (reverseClauses cs v.toExpr)

/-- `lhs <<= rhs` takes a `double` as a scalar and an expression as itself,
NeboAssignment.h:28-178. -/
def CondResult.toExpr {V : Type} : CondResult V → Expr V .num
  | .value d => .scalar (t := .num) d
  | .expr e => e

/-- The whole call `cond(t1, v1)(t2, v2)...(final)`, NeboCond.h:489-1769. -/
def condCall {V : Type} (first : TestArg V × ValArg V) (more : List (TestArg V × ValArg V)) (last : ValArg V) :
    CondResult V :=
  (more.foldl (fun b c => b.clause c.1 c.2) (condStart first.1 first.2)).final last

end Nebo
end SpatialOps
