import Verif.NeboPar.Model
import Verif.NeboRed.Model

/-!
# Model of programs whose course is decided by reductions

Statements `t <<= e` and `interior_assign(t, e)` (NeboAssignment.h:28-88, 180-225), any of which may be divided into tasks
on the thread pool (NeboLhs.h:123-226), and `if` and `while` statements whose condition is computed from a reduction of an
expression (NeboReductions.h:137-484), as in an iterative solver that runs until a norm is small. Reductions are made by the
calling thread.
-/

namespace SpatialOps
namespace Nebo

/-- A condition `pass(nebo_reduce(proc, e))` or, with `interior`, `pass(nebo_reduce_interior(proc, e))`: NeboReductions.h:137-229.
`nebo_max`, `nebo_min` and `nebo_sum` are `proc = std::max`, `std::min` and `+` (365-455), `nebo_norm` is the sum of
`pow(e, 2)` with the root taken by `pass` (457-484). -/
structure Test (V : Type) where
  interior : Bool
  proc : V → V → V
  e : Expr V .num
  pass : V → Bool

/-- The reduction of a condition, NeboReductions.h:137-172, 193-229. -/
def Test.reduce {V : Type} [Add V] [Mul V] (t : Test V) (m : Mem V) : Nat → Option (Outcome V) :=
  if t.interior then neboReduceInterior t.proc t.e m else neboReduce t.proc t.e m

/-- A program: an assignment (NeboAssignment.h:28-88, 180-225; `ghost` for `<<=`), one program after another, `if` and
`while` statements of the language, with a reduction as condition. -/
inductive Code (V : Type) where
  | stmt (ghost : Bool) (t : FieldObj) (e : Expr V .num)
  | seq (a b : Code V)
  | ite (c : Test V) (a b : Code V)
  | loop (c : Test V) (body : Code V)

/-- A program at work: the calling thread is between statements, with the programs still to be executed, or in a call of
`thread_parallel_assign` (NeboLhs.h:172-226). `log` lists the values of the reductions so far. -/
inductive SolveState (V : Type) where
  | idle (todo : List (Code V)) (m : Mem V) (log : List V)
  | busy (s : ParState V) (todo : List (Code V)) (log : List V)

/-- The steps of a program. Each time a statement is reached it is done by the calling thread (NeboLhs.h:136-162) or divided
into any positive number of tasks (172-218), as the pool's capacity and the field's partition count at that time say
(SpatialOpsTools.h:52-54, SpatialField.h:409-415); then the tasks work (NeboLhs.h:220, 402-412) and the call returns (222-226).
A condition is decided by a reduction that returns, i.e. for which some number of trips is enough (NeboReductions.h:161-171).
Anything that fails has no step. -/
inductive SolveStep {V : Type} [Add V] [Mul V] : SolveState V → SolveState V → Prop where
  | alone {ghost t e todo m m' log} : sequentialAssign ghost t e m = .ok m' →
      SolveStep (.idle (.stmt ghost t e :: todo) m log) (.idle todo m' log)
  | fork {ghost t e todo m log s} (k : Int) : 1 ≤ k → parallelAssign ghost t k e m = .ok s →
      SolveStep (.idle (.stmt ghost t e :: todo) m log) (.busy s todo log)
  | work {s s' : ParState V} {todo log} : ParStep s s' → SolveStep (.busy s todo log) (.busy s' todo log)
  | join {s : ParState V} {todo log} : s.waits = 0 → SolveStep (.busy s todo log) (.idle todo s.mem log)
  | seq {a b todo m log} : SolveStep (.idle (.seq a b :: todo) m log) (.idle (a :: b :: todo) m log)
  | ite {c a b todo m log v} (trips : Nat) : c.reduce m trips = some (.ok v) →
      SolveStep (.idle (.ite c a b :: todo) m log) (.idle ((if c.pass v then a else b) :: todo) m (log ++ [v]))
  | more {c body todo m log v} (trips : Nat) : c.reduce m trips = some (.ok v) → c.pass v = true →
      SolveStep (.idle (.loop c body :: todo) m log) (.idle (body :: .loop c body :: todo) m (log ++ [v]))
  | leave {c body todo m log v} (trips : Nat) : c.reduce m trips = some (.ok v) → c.pass v = false →
      SolveStep (.idle (.loop c body :: todo) m log) (.idle todo m (log ++ [v]))

end Nebo
end SpatialOps
