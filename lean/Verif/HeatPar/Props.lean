import Verif.HeatPar.Lemmas
import Verif.HeatErr.Props

/-!
# C89: the heat equation program with threads
-/

namespace SpatialOps
namespace Heat

open Nebo Stencil

/-- C89 (any program). A program of actions on a mesh of any dimension, any of whose assignments may be divided into tasks on the
pool: however the tasks are scheduled, no two ever race, the program never gets stuck before its end and comes to its end after a
bounded number of steps; between actions memory is what a single thread doing the actions so far leaves, and so at the end. -/
theorem _root_.SpatialOps.C89_commands {V : Type} [Add V] [Mul V] (n : IntVec) (hn : IntVec.Lt 0 n) (g : GhostData) (hg : Moderate g)
    (prog : List (Cmd V)) (hp : ∀ c ∈ prog, c.Ready n g) (m : Mem V) :
    ∃ m', seqCmds prog m = .ok m' ∧ (∃ bound, ∀ k s, CmdRun (.idle prog m) k s → k ≤ bound) ∧
      ∀ k s, CmdRun (.idle prog m) k s → ¬ s.Race ∧ ((∀ x, s ≠ .idle [] x) → ∃ s', CmdStep s s') ∧
        (∀ rest x, s = .idle rest x → ∃ done, prog = done ++ rest ∧ seqCmds done m = .ok x) ∧
        (∀ x, s = .idle [] x → x = m') :=
  run_program hn hg prog hp m

/-- C89 (one assignment). A divided assignment on a mesh with any number of directions of a single cell: no race, an end, and the
memory of the undivided assignment. -/
theorem _root_.SpatialOps.C89_assign {V : Type} [Add V] [Mul V] (n : IntVec) (hn : IntVec.Lt 0 n) (g : GhostData) (hg : Moderate g)
    (l : FieldObj) (b : Nat) (ht : FlatTarget n g l b) (e : Expr V .num) (he : e.FlatWf n g)
    (hd : ∀ c, FlatInterior n l c → e.FlatDefined n c) (hi : e.Independent l 0) (count : Int) (hc : 1 ≤ count) (m : Mem V) :
    ∃ s0 m', parallelAssign true l count e m = .ok s0 ∧ assign l e m = .ok m' ∧
      (∃ bound, ∀ k s, ParRun s0 k s → k ≤ bound) ∧
      ∀ k s, ParRun s0 k s → ¬ Race s ∧ (s.waits ≠ 0 → ∃ s', ParStep s s') ∧
        (s.waits = 0 → s.mem = m' ∧ ∀ t ∈ s.tasks, t = none) :=
  flat_parallel hn hg ht e he hd hi count hc m

/-- C89 (the program). For every number of cells and time steps and every choice, assignment by assignment, of whether to divide it
and into how many tasks, at least one: however these are scheduled, no two ever race, the program never gets stuck and comes to its
end after a bounded number of steps, and it ends with the memory of the program run by a single thread. -/
theorem _root_.SpatialOps.C89_program {K : Type} [Field K] [CharZero K] (sin cos : K → K) (n : IntVec) (hn : IntVec.Lt 0 n) (L : Dir → K)
    (ntime : Nat) (blk : Nat → Nat) (hs : Separate blk) (work work' : Nat → Dir → Nat)
    (hw : ∀ k, Fresh blk (work k)) (hw' : ∀ k, Fresh blk (work' k)) :
    ∃ F cs, program sin cos n L ntime blk work work' = .ok (F, cs) ∧
      ∀ p : Nat → Option Int, (∀ i k, p i = some k → 1 ≤ k) → ∀ m : Mem K,
        ∃ m', main sin cos n L ntime blk work work' m = .ok (F, m') ∧
          (∃ bound, ∀ k s, CmdRun (.idle (divide p cs) m) k s → k ≤ bound) ∧
          ∀ k s, CmdRun (.idle (divide p cs) m) k s → ¬ s.Race ∧ ((∀ x, s ≠ .idle [] x) → ∃ s', CmdStep s s') ∧
            ∀ x, s = .idle [] x → x = m' := by
  obtain ⟨F, cs, h1, hr⟩ := program_ready hn sin cos L ntime hs hw hw'
  refine ⟨F, cs, h1, fun p hp m => ?_⟩
  obtain ⟨m', a1, a2, a3⟩ := run_program hn G_moderate (divide p cs) (ready_divide p hp cs hr) m
  rw [seqCmds_divide] at a1
  refine ⟨m', ?_, a2, fun k s h => ⟨(a3 k s h).1, (a3 k s h).2.1, (a3 k s h).2.2.2⟩⟩
  rw [program_seq h1, a1]
  rfl

/-- A program that does not get stuck and ends in bounded time has a run to its end. -/
theorem run_ends {V : Type} [Add V] [Mul V] {s0 : CmdState V} (hb : ∃ bound, ∀ k s, CmdRun s0 k s → k ≤ bound)
    (hp : ∀ k s, CmdRun s0 k s → (∀ x, s ≠ .idle [] x) → ∃ s', CmdStep s s') : ∃ k x, CmdRun s0 k (.idle [] x) := by
  obtain ⟨B, hB⟩ := hb
  by_contra hno
  have key : ∀ j, ∃ s, CmdRun s0 j s := by
    intro j
    induction j with
    | zero => exact ⟨s0, .start⟩
    | succ j ih =>
      obtain ⟨s, hs⟩ := ih
      obtain ⟨s', h'⟩ := hp j s hs fun x e => hno ⟨j, x, e ▸ hs⟩
      exact ⟨s', .step hs h'⟩
  obtain ⟨s, hs⟩ := key (B + 1)
  have := hB _ _ hs
  omega

/-- C89 (values). With any division into tasks the program has a run to its end, and at the end of every run the right-hand side holds at
each cell the finite-volume form of `∇·(k ∇T)` for `T = sin(x) + cos(y) + sin(z)` and `k = x + y + z` at the cell centres. -/
theorem _root_.SpatialOps.C89_values {K : Type} [Field K] [CharZero K] (sin cos : K → K) (n : IntVec) (hn : IntVec.Lt 0 n) (L : Dir → K)
    (hL : ∀ d, L d ≠ 0) (ntime : Nat) (ht : 0 < ntime) (blk : Nat → Nat) (hs : Separate blk) (work work' : Nat → Dir → Nat)
    (hw : ∀ k, Fresh blk (work k)) (hw' : ∀ k, Fresh blk (work' k)) :
    ∃ F cs, program sin cos n L ntime blk work work' = .ok (F, cs) ∧
      ∀ p : Nat → Option Int, (∀ i k, p i = some k → 1 ≤ k) → ∀ m : Mem K,
        (∃ k x, CmdRun (.idle (divide p cs) m) k (.idle [] x)) ∧
        ∀ k m', CmdRun (.idle (divide p cs) m) k (.idle [] m') → ∀ c, InMesh n c →
          val n m' F.rhs c = heatRhs n (meshSpacing n L) (initialT sin cos n L) (initialK n L) (fun _ => 1) c := by
  obtain ⟨F, cs, h1, h2⟩ := C89_program sin cos n hn L ntime blk hs work work' hw hw'
  refine ⟨F, cs, h1, fun p hp m => ?_⟩
  obtain ⟨m', a1, a2, a3⟩ := h2 p hp m
  refine ⟨run_ends a2 fun k s h => (a3 k s h).2.1, fun k x hx => ?_⟩
  obtain ⟨F', m'', b1, b2⟩ := C73_program sin cos n hn L hL ntime ht blk hs work work' hw hw' m
  rw [a1] at b1
  injection b1 with b1
  injection b1 with e1 e2
  subst e1 e2
  rw [(a3 k _ hx).2.2 x rfl]
  exact b2

/-- C89 (accuracy). With any division into tasks the program has a run to its end, and at the end of every run the result at each cell is
`∇·(k ∇T)` for `T = sin(x) + cos(y) + sin(z)` and `k = x + y + z` at the cell's centre, taken over the directions with more than one
cell, up to an error of `h² ((Lx + Ly + Lz)/12 + 1/6)` per such direction. -/
theorem _root_.SpatialOps.C89_accuracy (n : IntVec) (hn : IntVec.Lt 0 n) (L : Dir → ℝ) (hL : ∀ d, 0 < L d)
    (ntime : Nat) (ht : 0 < ntime) (blk : Nat → Nat) (hs : Separate blk) (work work' : Nat → Dir → Nat)
    (hw : ∀ k, Fresh blk (work k)) (hw' : ∀ k, Fresh blk (work' k)) :
    ∃ F cs, program Real.sin Real.cos n L ntime blk work work' = .ok (F, cs) ∧
      ∀ p : Nat → Option Int, (∀ i k, p i = some k → 1 ≤ k) → ∀ m : Mem ℝ,
        (∃ k x, CmdRun (.idle (divide p cs) m) k (.idle [] x)) ∧
        ∀ k m', CmdRun (.idle (divide p cs) m) k (.idle [] m') → ∀ c, InMesh n c → ∀ x y z : ℝ,
          x = L .x / n.x * (c.x + 1 / 2) → y = L .y / n.y * (c.y + 1 / 2) → z = L .z / n.z * (c.z + 1 / 2) →
          |val n m' F.rhs c - active n (fun
            | .x => Real.cos x - (x + y + z) * Real.sin x
            | .y => -Real.sin y - (x + y + z) * Real.cos y
            | .z => Real.cos z - (x + y + z) * Real.sin z)| ≤
            active n (fun d => (L d / (comp n d : ℝ)) ^ 2 * ((L .x + L .y + L .z) / 12 + 1 / 6)) := by
  obtain ⟨F, cs, h1, h2⟩ := C89_program Real.sin Real.cos n hn L ntime blk hs work work' hw hw'
  refine ⟨F, cs, h1, fun p hp m => ?_⟩
  obtain ⟨m', a1, a2, a3⟩ := h2 p hp m
  refine ⟨run_ends a2 fun k s h => (a3 k s h).2.1, fun k x hx => ?_⟩
  obtain ⟨F', m'', b1, b2⟩ := C84_program n hn L hL ntime ht blk hs work work' hw hw' m
  rw [a1] at b1
  injection b1 with b1
  injection b1 with e1 e2
  subst e1 e2
  rw [(a3 k _ hx).2.2 x rfl]
  exact b2

/-- C89 (threads do not matter). Two runs of the program to its end, with different divisions into tasks and different schedules, leave
the same memory. -/
theorem _root_.SpatialOps.C89_same_result {K : Type} [Field K] [CharZero K] (sin cos : K → K) (n : IntVec) (hn : IntVec.Lt 0 n)
    (L : Dir → K) (ntime : Nat) (blk : Nat → Nat) (hs : Separate blk) (work work' : Nat → Dir → Nat)
    (hw : ∀ k, Fresh blk (work k)) (hw' : ∀ k, Fresh blk (work' k)) :
    ∃ F cs, program sin cos n L ntime blk work work' = .ok (F, cs) ∧
      ∀ p q : Nat → Option Int, (∀ i k, p i = some k → 1 ≤ k) → (∀ i k, q i = some k → 1 ≤ k) → ∀ (m x y : Mem K) (i j : Nat),
        CmdRun (.idle (divide p cs) m) i (.idle [] x) → CmdRun (.idle (divide q cs) m) j (.idle [] y) → x = y := by
  obtain ⟨F, cs, h1, h2⟩ := C89_program sin cos n hn L ntime blk hs work work' hw hw'
  refine ⟨F, cs, h1, fun p q hp hq m x y i j hx hy => ?_⟩
  obtain ⟨m1, a1, -, a3⟩ := h2 p hp m
  obtain ⟨m2, b1, -, b3⟩ := h2 q hq m
  rw [a1] at b1
  injection b1 with b1
  injection b1 with _ e
  rw [(a3 i _ hx).2.2 x rfl, (b3 j _ hy).2.2 y rfl, e]

/-- On three cells in a line with `sin` and `cos` replaced by the identity, every second assignment divided into four
tasks: the program has a run to its end, and every one ends with a right-hand side of 1 at every cell. -/
example (ntime : Nat) (ht : 0 < ntime) (m : Mem ℚ) : ∃ F cs,
    program (fun x => x) (fun x => x) ⟨3, 1, 1⟩ (fun _ => (1 : ℚ)) ntime (fun i => i) (fun _ _ => 10) (fun _ _ => 10) = .ok (F, cs) ∧
      (∃ k x, CmdRun (.idle (divide (fun i => if i % 2 = 0 then some 4 else none) cs) m) k (.idle [] x)) ∧
      ∀ k m', CmdRun (.idle (divide (fun i => if i % 2 = 0 then some 4 else none) cs) m) k (.idle [] m') →
        ∀ c, InMesh ⟨3, 1, 1⟩ c → val ⟨3, 1, 1⟩ m' F.rhs c = 1 := by
  have sp : Separate fun i => i := fun _ _ _ _ h => h
  have fr : ∀ k : Nat, Fresh (fun i => i) ((fun _ _ => 10 : Nat → Dir → Nat) k) := fun _ i hi _ => by dsimp only; omega
  obtain ⟨F, cs, h1, h2⟩ := C89_values (fun x : ℚ => x) (fun x => x) ⟨3, 1, 1⟩ (by decide) (fun _ => 1) (fun _ => one_ne_zero) ntime ht
    (fun i => i) sp (fun _ _ => 10) (fun _ _ => 10) fr fr
  obtain ⟨a1, a2⟩ := h2 (fun i => if i % 2 = 0 then some 4 else none) (fun i k hk => by
    split at hk
    · injection hk with hk; omega
    · cases hk) m
  refine ⟨F, cs, h1, a1, fun k x hx c hc => ?_⟩
  rw [a2 k x hx c hc]
  unfold heatRhs outflow heatFlux initialT initialK meshSpacing
  simp [comp, unit]
  ring

end Heat
end SpatialOps
