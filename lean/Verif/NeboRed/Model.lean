import Verif.Nebo.Model

/-!
# Model of the field reductions

spatialops/NeboReductions.h:53-484 and `at_end` of the expression nodes in mode
`Reduction`. A `while` loop need not end, so a reduction is a function of the number of
trips it is allowed: `none` means the loop is still running.
-/

namespace SpatialOps
namespace Nebo

/-- `at_end()` in mode `Reduction`: NeboRhs.h:171, 360, 549; NeboMask.h:236;
NeboOperators.h:214-216 (and all other binary operators; unary operators forward);
NeboCond.h:248-250, 471-473. -/
def Walk.atEnd {V : Type} : {t : Ty} → Walk V t → Bool
  | _, .const _ => false
  | _, .field _ _ i e => match e with
    | some e => i.eqOp e
    | none => false
  | _, .mask _ i e => match e with
    | some e => i.eqOp e
    | none => false
  | _, .un _ a => a.atEnd
  | _, .bin _ a b => a.atEnd || b.atEnd
  | _, .and a b => a.atEnd || b.atEnd
  | _, .or a b => a.atEnd || b.atEnd
  | _, .cond c a b => (c.atEnd || a.atEnd) || b.atEnd

/-- `while(!(expr.at_end())) { result = proc(result, expr.eval()); expr.next(); }`,
NeboReductions.h:69-73, run for at most `trips` trips. -/
def foldLoop {V R : Type} (proc : R → V → R) (m : Mem V) : Nat → Walk V .num → R → Option (Outcome R)
  | trips, w, r =>
    if w.atEnd then some (.ok r)
    else match trips with
      | 0 => none
      | k + 1 => match w.eval m with
        | .ok v => foldLoop proc m k w.next (proc r v)
        | .abort => some .abort
        | .throws => some .throws
        | .ub => some .ub

/-- Continue with a loop once the set-up has succeeded (NeboReductions.h:60-75). -/
def andThen {α R : Type} (x : Outcome α) (k : α → Option (Outcome R)) : Option (Outcome R) :=
  match x with
  | .ok a => k a
  | .abort => some .abort
  | .throws => some .throws
  | .ub => some .ub

/-- `nebo_fold(proc, initialValue, fexpr)`, NeboReductions.h:53-77. -/
def neboFold {V R : Type} [Add V] [Mul V] (proc : R → V → R) (initial : R) (e : Expr V .num) (m : Mem V)
    (trips : Nat) : Option (Outcome R) :=
  andThen e.possibleGhosts fun g => andThen (e.init true m g.minus g.plus 0) fun w =>
    foldLoop proc m trips w initial

/-- `nebo_fold_interior(proc, initialValue, fexpr)`, NeboReductions.h:92-119. -/
def neboFoldInterior {V R : Type} [Add V] [Mul V] (proc : R → V → R) (initial : R) (e : Expr V .num) (m : Mem V)
    (trips : Nat) : Option (Outcome R) :=
  andThen (GhostData.makeUniform 0) fun g => andThen (e.init true m g.minus g.plus 0) fun w =>
    foldLoop proc m trips w initial

/-- `result = expr.eval(); expr.next();` and the loop, NeboReductions.h:161-171. -/
def reduceLoop {V : Type} (proc : V → V → V) (m : Mem V) (w : Walk V .num) (trips : Nat) : Option (Outcome V) :=
  andThen (w.eval m) fun r => foldLoop proc m trips w.next r

/-- `nebo_reduce(proc, fexpr)`, NeboReductions.h:137-172 and, with `proc` returning by
value, 252-286. -/
def neboReduce {V : Type} [Add V] [Mul V] (proc : V → V → V) (e : Expr V .num) (m : Mem V) (trips : Nat) :
    Option (Outcome V) :=
  andThen e.possibleGhosts fun g => andThen (e.init true m g.minus g.plus 0) fun w => reduceLoop proc m w trips

/-- `nebo_reduce_interior(proc, fexpr)`, NeboReductions.h:193-229, 306-342. -/
def neboReduceInterior {V : Type} [Add V] [Mul V] (proc : V → V → V) (e : Expr V .num) (m : Mem V) (trips : Nat) :
    Option (Outcome V) :=
  andThen (GhostData.makeUniform 0) fun g => andThen (e.init true m g.minus g.plus 0) fun w =>
    reduceLoop proc m w trips

/-- `std::max(a, b)`: the first argument unless it is less than the second
(used at NeboReductions.h:369, 383). -/
def stdMax {V : Type} [LT V] [DecidableLT V] (a b : V) : V := if a < b then b else a

/-- `std::min(a, b)`: the first argument unless the second is less
(used at NeboReductions.h:398, 412). -/
def stdMin {V : Type} [LT V] [DecidableLT V] (a b : V) : V := if b < a then b else a

/-- `nebo_max`, NeboReductions.h:365-377. -/
def neboMax {V : Type} [Add V] [Mul V] [LT V] [DecidableLT V] (e : Expr V .num) (m : Mem V) (trips : Nat) :
    Option (Outcome V) := neboReduce stdMax e m trips

/-- `nebo_max_interior`, NeboReductions.h:379-392. -/
def neboMaxInterior {V : Type} [Add V] [Mul V] [LT V] [DecidableLT V] (e : Expr V .num) (m : Mem V) (trips : Nat) :
    Option (Outcome V) := neboReduceInterior stdMax e m trips

/-- `nebo_min`, NeboReductions.h:394-406. -/
def neboMin {V : Type} [Add V] [Mul V] [LT V] [DecidableLT V] (e : Expr V .num) (m : Mem V) (trips : Nat) :
    Option (Outcome V) := neboReduce stdMin e m trips

/-- `nebo_min_interior`, NeboReductions.h:408-421. -/
def neboMinInterior {V : Type} [Add V] [Mul V] [LT V] [DecidableLT V] (e : Expr V .num) (m : Mem V) (trips : Nat) :
    Option (Outcome V) := neboReduceInterior stdMin e m trips

/-- `nebo_sum`, NeboReductions.h:423-440. -/
def neboSum {V : Type} [Add V] [Mul V] (e : Expr V .num) (m : Mem V) (trips : Nat) :
    Option (Outcome V) := neboReduce (fun a b => a + b) e m trips

/-- `nebo_sum_interior`, NeboReductions.h:442-455. -/
def neboSumInterior {V : Type} [Add V] [Mul V] (e : Expr V .num) (m : Mem V) (trips : Nat) :
    Option (Outcome V) := neboReduceInterior (fun a b => a + b) e m trips

/-- `nebo_norm`, NeboReductions.h:457-469: `std::sqrt(nebo_sum(pow(fexpr, 2)))`; `sqrt`, `pow` and
the number 2 are parameters. -/
def neboNorm {V : Type} [Add V] [Mul V] (sqrt : V → V) (pow : V → V → V) (two : V) (e : Expr V .num) (m : Mem V) (trips : Nat) :
    Option (Outcome V) :=
  match neboSum (.bin (s := .num) (t := .num) pow e (.scalar (t := .num) two)) m trips with
  | some (.ok v) => some (.ok (sqrt v))
  | r => r

/-- `nebo_norm_interior`, NeboReductions.h:471-484. -/
def neboNormInterior {V : Type} [Add V] [Mul V] (sqrt : V → V) (pow : V → V → V) (two : V) (e : Expr V .num) (m : Mem V) (trips : Nat) :
    Option (Outcome V) :=
  match neboSumInterior (.bin (s := .num) (t := .num) pow e (.scalar (t := .num) two)) m trips with
  | some (.ok v) => some (.ok (sqrt v))
  | r => r

end Nebo
end SpatialOps
