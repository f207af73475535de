import Verif.Prog.Model
import Verif.NeboPar.Props

/-!
# Specification of programs on the thread pool
-/

namespace SpatialOps
namespace Nebo

/-- The program run by a single thread: the statements one after the other. -/
def seqRun {V : Type} [Add V] [Mul V] : List (PStmt V) → Mem V → Outcome (Mem V)
  | [], m => .ok m
  | st :: rest, m => sequentialAssign st.ghost st.t st.e m >>= seqRun rest

/-- `k` steps, in any order the scheduler chooses. -/
inductive ProgRun {V : Type} [Add V] [Mul V] (s0 : ProgState V) : Nat → ProgState V → Prop where
  | start : ProgRun s0 0 s0
  | step {k : Nat} {s s' : ProgState V} : ProgRun s0 k s → ProgStep s s' → ProgRun s0 (k + 1) s'

/-- A statement that can be executed on a mesh of `n` cells: the field has memory for its ghost cells, the expression has
a value at every interior cell and reads the field assigned to only at the cell assigned; if it is divided, then into at least
one part. -/
structure PStmt.Ready {V : Type} (n : IntVec) (st : PStmt V) : Prop where
  target : ∃ b, Target n st.t b
  wf : st.e.Wf n
  defined : ∀ c, Interior n st.t c → st.e.DefinedAt n c
  independent : st.e.Independent st.t 0
  parts : ∀ k, st.parts = some k → 1 ≤ k

/-- The statement without the choice of how to run it. -/
def PStmt.forget {V : Type} (st : PStmt V) : PStmt V := { st with parts := none }

/-- Two tasks of the statement at work are about to access the same element, one of them to write. -/
def ProgState.Race {V : Type} : ProgState V → Prop
  | .idle _ _ => False
  | .busy s _ => SpatialOps.Race s

end Nebo
end SpatialOps
