import Verif.RelPar.Model
import Verif.Release.Spec
import Verif.NeboPar.Props

/-!
# Specification: programs of the release build on the thread pool
-/

namespace SpatialOps
namespace Rel
open Nebo

/-- `k` steps, in any order the scheduler chooses. -/
inductive RRun {V : Type} [Add V] [Mul V] (trips : Nat) (s0 : RState V) : Nat → RState V → Prop where
  | start : RRun trips s0 0 s0
  | step {k : Nat} {s s' : RState V} : RRun trips s0 k s → RStep trips s s' → RRun trips s0 (k + 1) s'

/-- Two tasks of the statement at work are about to access the same element, one of them to write. -/
def RState.Race {V : Type} : RState V → Prop
  | .idle _ _ => False
  | .busy s _ => SpatialOps.Race s

/-- The program has ended, with this memory. -/
def RState.Ended {V : Type} (s : RState V) (m : Mem V) : Prop := s = .idle [] m

end Rel
end SpatialOps
