import Verif.Streams.Model
import Verif.NeboGpu.Spec

/-!
# Specification: programs that use GPU streams

`inOrder` is the program executed one statement after the other, each assignment as a loop on the CPU over the
device's data. `Step`s are what can happen; `Runs` says that whatever happens, the program ends with a given memory.
-/

namespace SpatialOps
namespace Str
open Nebo

/-- `k` steps. -/
inductive Run {V : Type} (blocking : Nat → Bool) (s0 : St V) : Nat → St V → Prop where
  | start : Run blocking s0 0 s0
  | step {k : Nat} {s s' : St V} : Run blocking s0 k s → Step blocking s s' → Run blocking s0 (k + 1) s'

/-- The host has passed all steps and all jobs are over. -/
def Finished {V : Type} (s : St V) : Prop := s.pc = s.items.length ∧ ∀ it ∈ s.items, it.over = true

/-- Two steps that run at the same time are about to access the same element, one of them to write it. -/
def RaceBetween {V : Type} (blocking : Nat → Bool) (s : St V) : Prop :=
  ∃ (i j : Nat) (x y : Item V) (b : Nat) (a : Int) (v : V) (k A : Act V), i ≠ j ∧ Active blocking s i ∧ Active blocking s j ∧
    s.items[i]? = some x ∧ s.items[j]? = some y ∧ some (.write b a v k) ∈ x.tasks ∧ some A ∈ y.tasks ∧
    ((∃ r, A = .read b a r) ∨ ∃ w r, A = .write b a w r)

/-- Whatever host and device do, the program ends after a bounded number of steps, never gets stuck, nothing races,
and it ends with memory `m`. -/
def Runs {V : Type} (blocking : Nat → Bool) (s0 : St V) (m : Mem V) : Prop :=
  (∃ bound, ∀ k s, Run blocking s0 k s → k ≤ bound) ∧
  ∀ k s, Run blocking s0 k s →
    ¬ RaceBetween blocking s ∧ (¬ Finished s → ∃ s', Step blocking s s') ∧ (Finished s → s.mem = m)

/-- The effect of accesses made by one thread. -/
def effect {V : Type} : Act V → Mem V → Option (Mem V)
  | .done, m => some m
  | .fail, _ => none
  | .read b a k, m => effect (k (m b a)) m
  | .write b a v k, m => effect k (m.write b a v)

/-- The effect of a statement when it is executed alone. -/
def Op.Effect {V : Type} [Add V] [Mul V] : Op V → Mem V → Mem V → Prop
  | .assign useGhost l _ e, m, m' => sequentialAssign useGhost (cpuTwin l) (e.onDevice l.dev) m = .ok m'
  | .copy dst src n _, m, m' => m' = fun (b : Nat) (a : Int) => if b = dst ∧ 0 ≤ a ∧ a < (n : Int) then m src a else m b a
  | .host A, m, m' => effect A m = some m'
  | .sync _, m, m' => m' = m

/-- The program executed one statement after the other. -/
inductive InOrder {V : Type} [Add V] [Mul V] : List (Op V) → Mem V → Mem V → Prop where
  | nil {m : Mem V} : InOrder [] m m
  | cons {o : Op V} {p : List (Op V)} {m m1 m2 : Mem V} : o.Effect m m1 → InOrder p m1 m2 → InOrder (o :: p) m m2

/-- The statement is one the library accepts and executes as intended (assignments: the conditions of C24). -/
def Op.Good {V : Type} [Add V] [Mul V] (n : IntVec) : Op V → Prop
  | .assign useGhost l _ e =>
    l.memType = .gpu ∧ (∃ b, Target n (cpuTwin l) b) ∧ (e.onDevice l.dev).Wf n ∧
    (∀ c, Interior n l c → (e.onDevice l.dev).DefinedAt n c) ∧ (e.onDevice l.dev).Independent (cpuTwin l) 0 ∧
    (e.onDevice l.dev).SinglesApart (cpuTwin l) ∧
    (useGhost = true →
      IntVec.Le l.geo.ghosts.minus l.geo.validGhosts.minus ∧ IntVec.Le l.geo.ghosts.plus l.geo.validGhosts.plus)
  | .copy dst src _ _ => dst ≠ src
  | .host A => ∀ m, effect A m ≠ none
  | .sync _ => True

/-- Memory block `b` belongs to a field of the expression. -/
def Uses {V : Type} : {t : Ty} → Expr V t → Nat → Prop
  | _, .scalar _, _ | _, .mask _, _ => False
  | _, .field f, b | _, .single f, b => f.values = some b
  | _, .maskShift _ a, b => Uses a b
  | _, .un _ a, b => Uses a b
  | _, .bin _ x y, b | _, .and x y, b | _, .or x y, b => Uses x b ∨ Uses y b
  | _, .cond t x y, b => Uses t b ∨ Uses x b ∨ Uses y b
  | _, .stencil _ a, b => Uses a b
  | _, .sumStencil _ a, b => Uses a b

/-- All accesses are to blocks of `U`, all writes to blocks of `W`. -/
def Within {V : Type} (U W : Nat → Prop) : Act V → Prop
  | .done | .fail => True
  | .read b _ k => U b ∧ ∀ v, Within U W (k v)
  | .write b _ _ k => U b ∧ W b ∧ Within U W k

/-- The memory blocks a statement writes. -/
def Op.Writes {V : Type} : Op V → Nat → Prop
  | .assign _ l _ _, b => l.ext = some b
  | .copy dst _ _ _, b => b = dst
  | .host A, b => ¬ Within (fun _ => True) (fun c => c ≠ b) A
  | .sync _, _ => False

/-- The memory blocks a statement reads or writes. -/
def Op.Touches {V : Type} : Op V → Nat → Prop
  | .assign _ l _ e, b => l.ext = some b ∨ Uses (e.onDevice l.dev) b
  | .copy dst src _ _, b => b = dst ∨ b = src
  | .host A, b => ¬ Within (fun c => c ≠ b) (fun _ => True) A
  | .sync _, _ => False

/-- One of the statements writes memory the other one uses. -/
def Conflict {V : Type} (o o' : Op V) : Prop :=
  (∃ b, o.Writes b ∧ o'.Touches b) ∨ ∃ b, o'.Writes b ∧ o.Touches b

/-- The stream in which a statement puts a job. -/
def Op.stream {V : Type} : Op V → Option Nat
  | .assign _ _ s _ => some s
  | .copy _ _ _ _ => some 0
  | .host _ | .sync _ => none

/-- The stream the host waits for after a statement. -/
def Op.awaits {V : Type} (debug : Bool) : Op V → Option Nat
  | .assign _ _ s _ => if debug then some s else none
  | .copy _ _ _ waits => if waits then some 0 else none
  | .host _ => none
  | .sync s => some s

/-- The rules of the CUDA runtime: the jobs of one stream run in order; the default stream 0 is ordered with all streams
that are `blocking`. -/
def InTurn (blocking : Nat → Bool) (s t : Nat) : Prop :=
  s = t ∨ (s = 0 ∧ blocking t = true) ∨ (t = 0 ∧ blocking s = true)

/-- Statement `i` of the program is over before statement `j` begins: it is executed by the host itself; or the jobs
are in streams that are ordered; or the host waits for the stream of `i` at or after `i` and before `j`; or by way of
a third statement. -/
inductive Before {V : Type} (debug : Bool) (blocking : Nat → Bool) (p : List (Op V)) : Nat → Nat → Prop where
  | host {i j : Nat} {o : Op V} : i < j → p[i]? = some o → o.stream = none → Before debug blocking p i j
  | streams {i j : Nat} {o o' : Op V} {s t : Nat} : i < j → p[i]? = some o → p[j]? = some o' → o.stream = some s →
      o'.stream = some t → InTurn blocking s t → Before debug blocking p i j
  | wait {i k j : Nat} {o o' : Op V} {s : Nat} : i ≤ k → k < j → p[i]? = some o → p[k]? = some o' → o.stream = some s →
      o'.awaits debug = some s → Before debug blocking p i j
  | trans {i k j : Nat} : Before debug blocking p i k → Before debug blocking p k j → Before debug blocking p i j

/-- Statements that conflict are ordered. -/
def Ordered {V : Type} (debug : Bool) (blocking : Nat → Bool) (p : List (Op V)) : Prop :=
  ∀ i j o o', i < j → p[i]? = some o → p[j]? = some o' → Conflict o o' → Before debug blocking p i j

end Str
end SpatialOps
