import Verif.Solve.Model
import Verif.NeboPar.Props
import Verif.NeboRed.Props

/-!
# Specification of programs whose course is decided by reductions
-/

namespace SpatialOps
namespace Nebo

/-- The value of the reduction of a condition: the fold, in fortran order, over the cells of the mesh (`interior`) or over all
cells where the expression is defined. -/
def Test.Value {V : Type} [Add V] [Mul V] (n : IntVec) (t : Test V) (m : Mem V) (v : V) : Prop :=
  ∃ first rest, Lists (first :: rest) (if t.interior then InBlock n else t.e.DefinedAt n) ∧
    v = rest.foldl (fun r c => t.proc r (t.e.value m c)) (t.e.value m first)

/-- The program executed by a single thread on a mesh of `n` cells: it starts with memory `m`, ends with memory `m'`, and
the reductions it makes have the values `log` in this order. -/
inductive Exec {V : Type} [Add V] [Mul V] (n : IntVec) : Code V → Mem V → Mem V → List V → Prop where
  | stmt {ghost t e m m'} : sequentialAssign ghost t e m = .ok m' → Exec n (.stmt ghost t e) m m' []
  | seq {a b m m1 m2 l1 l2} : Exec n a m m1 l1 → Exec n b m1 m2 l2 → Exec n (.seq a b) m m2 (l1 ++ l2)
  | yes {c a b m m' v l} : c.Value n m v → c.pass v = true → Exec n a m m' l → Exec n (.ite c a b) m m' (v :: l)
  | no {c a b m m' v l} : c.Value n m v → c.pass v = false → Exec n b m m' l → Exec n (.ite c a b) m m' (v :: l)
  | more {c body m m1 m2 v l1 l2} : c.Value n m v → c.pass v = true → Exec n body m m1 l1 →
      Exec n (.loop c body) m1 m2 l2 → Exec n (.loop c body) m m2 (v :: l1 ++ l2)
  | leave {c body m v} : c.Value n m v → c.pass v = false → Exec n (.loop c body) m m [v]

/-- A run: steps in any order the scheduler chooses. -/
inductive SolveRun {V : Type} [Add V] [Mul V] (s0 : SolveState V) : SolveState V → Prop where
  | start : SolveRun s0 s0
  | step {s s' : SolveState V} : SolveRun s0 s → SolveStep s s' → SolveRun s0 s'

/-- A condition that can be computed on a mesh of `n` cells: the expression has an operand and no stencil and is defined at
every cell of the mesh. -/
structure Test.Ready {V : Type} (n : IntVec) (t : Test V) : Prop where
  wf : t.e.Wf n
  stencilFree : t.e.StencilFree
  operand : t.e.HasOperand
  defined : ∀ c, InBlock n c → t.e.DefinedAt n c

/-- A program all whose statements and conditions can be executed on a mesh of `n` cells: the field assigned has memory for
its ghost cells, the expression has a value at every interior cell and reads the field assigned to only at the cell assigned. -/
def Code.Ready {V : Type} (n : IntVec) : Code V → Prop
  | .stmt _ t e => (∃ b, Target n t b) ∧ e.Wf n ∧ (∀ c, Interior n t c → e.DefinedAt n c) ∧ e.Independent t 0
  | .seq a b => a.Ready n ∧ b.Ready n
  | .ite c a b => c.Ready n ∧ a.Ready n ∧ b.Ready n
  | .loop c body => c.Ready n ∧ body.Ready n

/-- Two tasks of the statement at work are about to access the same element, one of them to write. -/
def SolveState.Race {V : Type} : SolveState V → Prop
  | .idle _ _ _ => False
  | .busy s _ _ => SpatialOps.Race s

end Nebo
end SpatialOps
