import Verif.Shutdown.Inv
import Mathlib.Data.Prod.Lex

/-!
# A shutdown makes progress
-/

namespace SpatialOps.Shutdown
open Threads Threads.Pool
variable {T : Type}

/-- Phases left. -/
def Phase.rank : Phase → Nat
  | .idle => 4
  | .cleared => 3
  | .waiting _ => 2
  | .ending _ => 1
  | .done => 0

/-- Is this client woken? -/
def isWoken : CState → Bool
  | .woken _ => true
  | _ => false

/-- What decreases in every step: phases left, steps the workers can take, clients woken. -/
def measure (s : Sys T) : Nat ×ₗ Nat ×ₗ Nat :=
  toLex (s.phase.rank, toLex (fuel s.pool, s.pool.clients.countP isWoken))

theorem countP_set_lt {cs : List CState} {j : Nat} {c c' : CState} (h : cs[j]? = some c) (hc : isWoken c = true)
    (hc' : isWoken c' = false) : (cs.set j c').countP isWoken < cs.countP isWoken := by
  induction cs generalizing j with
  | nil => simp at h
  | cons d cs ih =>
    cases j with
    | zero =>
      simp only [List.getElem?_cons_zero, Option.some.injEq] at h
      subst h
      simp [hc, hc']
    | succ j =>
      simp only [List.getElem?_cons_succ] at h
      have := ih h
      simp only [List.set_cons_succ, List.countP_cons]
      omega

theorem measure_step {push : Push T} {pol : Policy} {s s' : Sys T} {a : SAct T} (ho : OwnStep a)
    (h : s.step push pol a = some s') : measure s' < measure s := by
  cases a with
  | call => exact absurd ho id
  | proceed =>
    refine Prod.Lex.toLex_lt_toLex.2 (Or.inl ?_)
    rcases step_proceed h with ⟨hph, _, p, _, rfl⟩ | ⟨hph, _, p, _, rfl⟩ | ⟨j, hph, _, p, p', _, _, rfl⟩ | ⟨j, hph, _, rfl⟩ <;>
      rw [hph] <;> simp [Phase.rank]
  | pool a =>
    obtain ⟨_, p, h1, rfl⟩ := step_pool h
    refine Prod.Lex.toLex_lt_toLex.2 (Or.inr ⟨rfl, Prod.Lex.toLex_lt_toLex.2 ?_⟩)
    by_cases hw : WorkerAct a
    · exact Or.inl (fuel_step hw h1)
    · cases a with
      | clientResume j =>
        simp only [step] at h1
        split at h1
        · rename_i k heq
          injection h1 with h1
          subst h1
          refine Or.inr ⟨rfl, countP_set_lt heq rfl ?_⟩
          cases s.pool.cond k <;> rfl
        · cases h1
      | _ => exact absurd ho hw

/-- With a history that never shrinks the pool, the pool has not been shrunk until the
termination begins. -/
theorem noShrink_reach {push : Push T} {pol : Policy} {n made : Nat} {s : Sys T}
    (h : SReach push pol (fun s a => NoShrink s.pool a) (Sys.create n made) s) :
    s.phase = .idle ∨ s.phase = .cleared ∨ (∃ j, s.phase = .waiting j) →
    Reach push NoShrink (create n made) s.pool := by
  induction h with
  | init => exact fun _ => .init
  | pool _ h2 h3 ih =>
    obtain ⟨_, p, h4, rfl⟩ := step_pool h3
    exact fun hph => (ih hph).step h2 h4
  | call _ h3 ih =>
    intro _
    obtain ⟨hph, p, ⟨_, h4, rfl⟩ | ⟨_, h4, rfl⟩⟩ := step_call h3
    · exact (ih (Or.inl hph)).step (a := .wait (.tasks 0)) trivial h4
    · exact (ih (Or.inl hph)).step (a := .clear) trivial h4
  | proceed _ h3 ih =>
    rcases step_proceed h3 with ⟨hph, _, p, h4, rfl⟩ | ⟨hph, _, p, h4, rfl⟩ | ⟨j, hph, _, p, p', h4, h5, rfl⟩ | ⟨j, hph, _, rfl⟩
    · rintro (h | h | ⟨_, h⟩) <;> cases h
    · exact fun _ => (ih (Or.inr (Or.inl hph))).step (a := .wait (.tasks 0)) trivial h4
    · rintro (h | h | ⟨_, h⟩) <;> cases h
    · rintro (h | h | ⟨_, h⟩) <;> cases h

/-- No worker can move once nothing of the pool moves by itself. -/
theorem quiet_of_stuck {push : Push T} {pol : Policy} {s : Sys T}
    (h : ∀ a, OwnStep a → s.step push pol a = none) : Quiet push s.pool := by
  intro a ha
  have ho : OwnStep (.pool a) := by cases a <;> first | exact ha | exact trivial
  have := h _ ho
  unfold Sys.step at this
  have hp : isPrivate a = false := by cases a <;> first | rfl | exact absurd ha id
  simp only [hp, Bool.false_eq_true, if_false] at this
  cases hs : s.pool.step push a with
  | none => rfl
  | some p => rw [hs] at this; cases this

theorem no_woken {push : Push T} {pol : Policy} {s : Sys T}
    (h : ∀ a, OwnStep a → s.step push pol a = none) (j : Nat) (k : CKind) :
    s.pool.clients[j]? ≠ some (.woken k) := by
  intro hk
  have := h (.pool (.clientResume j)) trivial
  simp [Sys.step, isPrivate, step, hk] at this

theorem stuck_done {push : Push T} (hp : Keeps push) {pol : Policy} {n made : Nat} (hn : 1 ≤ n) (hm : 1 ≤ made) {s : Sys T}
    (h : SReach push pol (fun s a => NoShrink s.pool a) (Sys.create n made) s) (hc : s.phase ≠ .idle)
    (hst : ∀ a, OwnStep a → s.step push pol a = none) : s.phase = .done := by
  have hq := quiet_of_stuck hst
  have hr := pool_reach h
  have hi := inv_reach hp h
  have hpr := hst .proceed trivial
  unfold SInv at hi
  cases hph : s.phase with
  | idle => exact absurd hph hc
  | done => rfl
  | cleared =>
    simp only [Sys.step, hph] at hpr
    split at hpr
    · cases hpr
    · cases hpr
  | waiting j =>
    rw [hph] at hi
    obtain ⟨_, _, p, _, _, ⟨c, h5, h6⟩, _⟩ := hi
    have hw := C36_waiters_released hn hm (noShrink_reach h (Or.inr (Or.inr ⟨j, hph⟩))) hq 0
    cases c with
    | waiting k => cases h6; exact absurd (List.mem_of_getElem? h5) hw.1
    | woken k => exact absurd h5 (no_woken hst j k)
    | returned k =>
      simp only [Sys.step, hph, hasReturned, h5, if_true] at hpr
      cases hpr
  | ending j =>
    rw [hph] at hi
    obtain ⟨h1, _, p, _, _, _, ⟨c, h5, h6⟩, _⟩ := hi
    have hs := shrink_reach (shrink_create n made) hr
    have hcn := counts_reach (counts_create n made) hr
    obtain ⟨q1, q2⟩ := quiet_busy hq
    have q3 := tot_alive s.pool.workers
    have hz : tot aliveW s.pool.workers = 0 := by
      by_contra hne
      have := hs.awake (by rw [hcn.wc, hs.term h1]; omega)
      omega
    have hg := gone_reach (by
      intro hm
      have e : (create n made : Pool T).clients = [] := by
        unfold create resizeActive Pool.resize grow empty
        simp
      rw [e] at hm
      simp at hm) hr
    cases c with
    | waiting k =>
      cases h6
      have := hg (List.mem_of_getElem? h5)
      have := hcn.wc
      omega
    | woken k => exact absurd h5 (no_woken hst j k)
    | returned k =>
      simp only [Sys.step, hph, hasReturned, h5, if_true] at hpr
      cases hpr

end SpatialOps.Shutdown
