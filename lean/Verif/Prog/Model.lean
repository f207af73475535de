import Verif.NeboPar.Model

/-!
# Model of programs of Nebo assignments that run on the thread pool

NeboLhs.h:50-226, NeboAssignment.h:28-225, SpatialOpsTools.h:52-54: statements `t <<= e` and
`interior_assign(t, e)` one after the other, each of them done by the calling thread or divided into tasks, as the pool's
capacity and the field's partition count at that time say.
-/

namespace SpatialOps
namespace Nebo

/-- A statement `t <<= e` (`ghost`) or `interior_assign(t, e)`, NeboAssignment.h:28-88, 180-225, with the choice made by
`cpu_assign`, NeboLhs.h:123-134: `none` if `is_thread_parallel()` is false (SpatialOpsTools.h:52-54) or the build has no
threads, `some k` if it is true and `t.get_partition_count()` is `k` (NeboLhs.h:182, SpatialField.h:409-415). -/
structure PStmt (V : Type) where
  ghost : Bool
  t : FieldObj
  e : Expr V .num
  parts : Option Int

/-- A program at work: between statements, or in a call of `thread_parallel_assign` (NeboLhs.h:172-226) with the
statements that follow. -/
inductive ProgState (V : Type) where
  | idle (rest : List (PStmt V)) (m : Mem V)
  | busy (s : ParState V) (rest : List (PStmt V))

/-- The steps of a program: a statement done by the calling thread (NeboLhs.h:136-162); the call that schedules the
tasks (172-218); a step of a task or of the wait for them (220, 402-412); the return from the call (222-226). A statement
that fails has no step. -/
inductive ProgStep {V : Type} [Add V] [Mul V] : ProgState V → ProgState V → Prop where
  | seq {st : PStmt V} {rest m m'} : st.parts = none → sequentialAssign st.ghost st.t st.e m = .ok m' →
      ProgStep (.idle (st :: rest) m) (.idle rest m')
  | fork {st : PStmt V} {rest m k s} : st.parts = some k → parallelAssign st.ghost st.t k st.e m = .ok s →
      ProgStep (.idle (st :: rest) m) (.busy s rest)
  | work {s s' : ParState V} {rest} : ParStep s s' → ProgStep (.busy s rest) (.busy s' rest)
  | join {s : ParState V} {rest} : s.waits = 0 → ProgStep (.busy s rest) (.idle rest s.mem)

end Nebo
end SpatialOps
