import Verif.HeatPar.Model
import Verif.Flat.Spec
import Verif.NeboPar.Props

/-!
# Specification of programs with threads on meshes of any dimension
-/

namespace SpatialOps
namespace Heat

open Nebo

section
variable {V : Type} [Add V] [Mul V]

/-- An action done by a single thread. -/
def Cmd.seq : Cmd V → Mem V → Outcome (Mem V)
  | .host f, m => f m
  | .asg st, m => sequentialAssign st.ghost st.t st.e m

/-- The actions done one after the other by a single thread. -/
def seqCmds : List (Cmd V) → Mem V → Outcome (Mem V)
  | [], m => .ok m
  | c :: rest, m => c.seq m >>= seqCmds rest

/-- `k` steps, in any order the scheduler chooses. -/
inductive CmdRun (s0 : CmdState V) : Nat → CmdState V → Prop where
  | start : CmdRun s0 0 s0
  | step {k : Nat} {s s' : CmdState V} : CmdRun s0 k s → CmdStep s s' → CmdRun s0 (k + 1) s'

omit [Add V] [Mul V] in
/-- Two tasks of the assignment at work are about to access the same element, one of them to write. -/
def CmdState.Race : CmdState V → Prop
  | .idle _ _ => False
  | .busy s _ => SpatialOps.Race s

omit [Add V] [Mul V] in
/-- An action that can be executed on a mesh of `n` cells, one-, two- or three-dimensional, whose fields have ghost cells `g`:
code of the main thread that ends; or `t <<= e` where the field has memory for its ghost cells, the expression has a value at
every interior cell and reads the field assigned to only at the cell assigned. -/
inductive Cmd.Ready (n : IntVec) (g : GhostData) : Cmd V → Prop where
  | host {f : Mem V → Outcome (Mem V)} : (∀ m, ∃ m', f m = .ok m') → Cmd.Ready n g (.host f)
  | asg {t : FieldObj} {e : Expr V .num} {b : Nat} {parts : Option Int} : FlatTarget n g t b → e.FlatWf n g →
      (∀ c, FlatInterior n t c → e.FlatDefined n c) → e.Independent t 0 → (∀ k, parts = some k → 1 ≤ k) →
      Cmd.Ready n g (.asg ⟨true, t, e, parts⟩)

end
end Heat
end SpatialOps
