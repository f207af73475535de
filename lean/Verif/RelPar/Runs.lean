import Verif.RelPar.Spec
import Verif.RelPar.Lemmas
import Verif.Release.Props

/-!
# RelPar: the runs of a program
-/

namespace SpatialOps
namespace Rel
open Nebo

variable {V : Type} [Add V] [Mul V]

/-- What is to be shown of a state: no race, it goes on, and when it is the end the memory is `mr`. -/
def Now (trips : Nat) (mr : Mem V) (s : RState V) : Prop :=
  ¬ s.Race ∧ ((∀ x, ¬ s.Ended x) → ∃ s', RStep trips s s') ∧ ∀ x, s.Ended x → x = mr

/-- And of all that follow, of which there are at most `B` in a row. -/
def Fine (trips : Nat) (mr : Mem V) : Nat → RState V → Prop
  | 0, s => Now trips mr s ∧ ∀ s', ¬ RStep trips s s'
  | B + 1, s => Now trips mr s ∧ ∀ s', RStep trips s s' → Fine trips mr B s'

variable {trips : Nat} {mr : Mem V}

theorem fine_now {B : Nat} {s : RState V} (h : Fine trips mr B s) : Now trips mr s := by
  cases B <;> exact h.1

theorem fine_step {B : Nat} {s s' : RState V} (h : Fine trips mr B s) (hs : RStep trips s s') : 0 < B ∧ Fine trips mr (B - 1) s' := by
  cases B with
  | zero => exact absurd hs (h.2 s')
  | succ B => exact ⟨by omega, h.2 s' hs⟩

theorem fine_run {B : Nat} {s0 : RState V} (h : Fine trips mr B s0) {k : Nat} {s : RState V} (hr : RRun trips s0 k s) :
    k ≤ B ∧ Fine trips mr (B - k) s := by
  induction hr with
  | start => exact ⟨by omega, h⟩
  | step _ hs ih =>
    obtain ⟨i1, i2⟩ := ih
    obtain ⟨j1, j2⟩ := fine_step i2 hs
    exact ⟨by omega, by rw [Nat.sub_sub] at j2; exact j2⟩

/-- A statement done by the threads, then the rest. -/
theorem fine_busy {s0 : ParState V} {m1 : Mem V} (h : RunsTo s0 fun m => m = m1) {rest : List (Stmt V × Option Int)} {B : Nat}
    (hrest : Fine trips mr B (.idle rest m1)) : ∃ C, Fine trips mr C (.busy s0 rest) := by
  obtain ⟨⟨T, hT⟩, hp⟩ := h
  have key : ∀ f k s, ParRun s0 k s → T - k ≤ f → Fine trips mr (f + 1 + B) (.busy s rest) := by
    intro f
    induction f with
    | zero =>
      intro k s hr hf
      obtain ⟨h1, h2, h3⟩ := hp k s hr
      have hno : ∀ s', ¬ ParStep s s' := fun s' hs => by
        have := hT _ _ (.step hr hs)
        have := hT _ _ hr
        omega
      have hw : s.waits = 0 := by
        by_contra hw
        obtain ⟨s', hs⟩ := h2 hw
        exact hno s' hs
      rw [show 0 + 1 + B = B + 1 by omega]
      refine ⟨⟨h1, fun _ => ⟨_, .join hw⟩, fun x hx => by cases hx⟩, fun s' hs => ?_⟩
      cases hs with
      | work hs => exact absurd hs (hno _)
      | join hw => rw [(h3 hw).1]; exact hrest
    | succ f ih =>
      intro k s hr hf
      obtain ⟨h1, h2, h3⟩ := hp k s hr
      rw [show f + 1 + 1 + B = (f + 1 + B) + 1 by omega]
      refine ⟨⟨h1, fun _ => ?_, fun x hx => by cases hx⟩, fun s' hs => ?_⟩
      · by_cases hw : s.waits = 0
        · exact ⟨_, .join hw⟩
        · obtain ⟨s', hs⟩ := h2 hw
          exact ⟨_, .work hs⟩
      · cases hs with
        | work hs => exact ih (k + 1) _ (.step hr hs) (by omega)
        | join hw =>
          rw [(h3 hw).1]
          have mono : ∀ (B C : Nat) (s : RState V), B ≤ C → Fine trips mr B s → Fine trips mr C s := by
            intro B
            induction B with
            | zero =>
              intro C s _ hs
              cases C with
              | zero => exact hs
              | succ C => exact ⟨hs.1, fun s' h => absurd h (hs.2 s')⟩
            | succ B ih =>
              intro C s hC hs
              cases C with
              | zero => omega
              | succ C => exact ⟨hs.1, fun s' h => ih C s' (by omega) (hs.2 s' h)⟩
          exact mono B _ _ (by omega) hrest
  exact ⟨_, key T 0 s0 .start (by omega)⟩

/-- The threads of the release build leave what a single thread of the debug build leaves. -/
theorem threads {n : IntVec} (hn : IntVec.Lt 0 n) {l : FieldObj} {b : Nat} (ht : Target n l b) {e : Expr V .num} (he : e.Wf n)
    (hd : ∀ c, Interior n l c → e.DefinedAt n c) (hi : e.Independent l 0) (u : Bool) {count : Int} (hc : 1 ≤ count) (m : Mem V) :
    ∃ m', Nebo.sequentialAssign u l e m = .ok m' ∧ ∃ k, ∀ trips, k ≤ trips →
      ∃ s0, parallelAssign u l count e m trips = .ok s0 ∧ RunsTo s0 fun r => r = m' := by
  obtain ⟨d, m', h1, h2, h3, h4⟩ := C23_parallel_equals_sequential n hn l b ht e he hd hi u count hc m
  obtain ⟨k, hk⟩ := parallel_same h1
  refine ⟨m', h2, k, fun t htr => ?_⟩
  obtain ⟨r, r1, r2⟩ := hk t htr
  exact ⟨r, r1, runsTo_same ⟨h3, h4⟩ r2⟩

/-- One statement, then the rest. -/
theorem fine_stmt {n : IntVec} (hn : IntVec.Lt 0 n) (u : Bool) {l : FieldObj} {b : Nat} (ht : Target n l b) {e : Expr V .num} (he : e.Wf n)
    (hd : ∀ c, Interior n l c → e.DefinedAt n c) (hi : e.Independent l 0) {c : Option Int} (hc : ∀ k, c = some k → 1 ≤ k)
    {m m1 : Mem V} (h1 : Nebo.sequentialAssign u l e m = .ok m1) {rest : List (Stmt V × Option Int)} {K : Nat}
    (hrest : ∀ trips, K ≤ trips → ∃ B, Fine trips mr B (.idle rest m1)) :
    ∃ K, ∀ trips, K ≤ trips → ∃ B, Fine trips mr B (.idle ((if u then .assign l e else .interior l e, c) :: rest) m) := by
  cases c with
  | none =>
    obtain ⟨k, hk⟩ := sequentialAssign_same u l e m m1 h1
    refine ⟨max k K, fun t htr => ?_⟩
    obtain ⟨B, hB⟩ := hrest t (by omega)
    have hs := hk t (by omega)
    refine ⟨B + 1, ⟨fun h => h, fun _ => ?_, fun x hx => by cases hx⟩, fun s' h => ?_⟩
    · cases u with
      | true => exact ⟨_, .assign hs⟩
      | false => exact ⟨_, .interior hs⟩
    · cases u with
      | true =>
        cases h with
        | assign h =>
          have h : sequentialAssign true l e m t = _ := h
          rw [hs] at h
          injection h with h
          injection h with h
          exact h ▸ hB
      | false =>
        cases h with
        | interior h =>
          have h : sequentialAssign false l e m t = _ := h
          rw [hs] at h
          injection h with h
          injection h with h
          exact h ▸ hB
  | some count =>
    obtain ⟨m', q1, k, hk⟩ := threads hn ht he hd hi u (hc count rfl) m
    rw [h1] at q1
    injection q1 with q1
    subst q1
    refine ⟨max k K, fun t htr => ?_⟩
    obtain ⟨B, hB⟩ := hrest t (by omega)
    obtain ⟨s0, hs, hr⟩ := hk t (by omega)
    obtain ⟨C, hC⟩ := fine_busy hr hB
    refine ⟨C + 1, ⟨fun h => h, fun _ => ?_, fun x hx => by cases hx⟩, fun s' h => ?_⟩
    · cases u with
      | true => exact ⟨_, .assignPar hs⟩
      | false => exact ⟨_, .interiorPar hs⟩
    · cases u with
      | true =>
        cases h with
        | assignPar h => rw [hs] at h; injection h with h; exact h ▸ hC
      | false =>
        cases h with
        | interiorPar h => rw [hs] at h; injection h with h; exact h ▸ hC

end Rel
end SpatialOps
