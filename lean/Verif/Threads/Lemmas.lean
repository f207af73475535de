import Verif.Threads.Spec
import Mathlib.Data.List.Perm.Basic

/-!
# Invariants of the thread pool
-/

namespace SpatialOps.Threads
open Pool
variable {T : Type}

/-- Sum of a weight over the workers. -/
def tot (f : WState T → Nat) (ws : List (WState T)) : Nat := (ws.map f).sum

theorem tot_set {f : WState T → Nat} {ws : List (WState T)} {i : Nat} {old : WState T}
    (h : ws[i]? = some old) (s : WState T) : tot f (ws.set i s) + f old = tot f ws + f s := by
  induction ws generalizing i with
  | nil => simp at h
  | cons w ws ih =>
    cases i with
    | zero =>
      simp only [List.getElem?_cons_zero, Option.some.injEq] at h
      subst h
      simp only [tot, List.set_cons_zero, List.map_cons, List.sum_cons]
      omega
    | succ i =>
      simp only [List.getElem?_cons_succ] at h
      have := ih h
      simp only [tot, List.set_cons_succ, List.map_cons, List.sum_cons] at *
      omega

theorem tot_append {f : WState T → Nat} (ws : List (WState T)) (k : Nat) (s : WState T) :
    tot f (ws ++ List.replicate k s) = tot f ws + k * f s := by
  simp [tot]

theorem tot_wake {f : WState T → Nat} (hf : f .waiting = f .woken) (ws : List (WState T)) :
    tot f (ws.map wakeW) = tot f ws := by
  induction ws with
  | nil => rfl
  | cons w ws ih =>
    simp only [tot, List.map_cons, List.sum_cons] at *
    rw [ih]
    cases w <;> simp [wakeW, hf]

theorem tot_pos {f : WState T → Nat} {ws : List (WState T)} (h : 0 < tot f ws) :
    ∃ (i : Nat) (w : WState T), ws[i]? = some w ∧ 0 < f w := by
  induction ws with
  | nil => simp [tot] at h
  | cons w ws ih =>
    by_cases hw : 0 < f w
    · exact ⟨0, w, rfl, hw⟩
    · obtain ⟨i, v, h1, h2⟩ := ih (by simp only [tot, List.map_cons, List.sum_cons] at *; omega)
      exact ⟨i + 1, v, h1, h2⟩

theorem tot_le {f : WState T → Nat} {ws : List (WState T)} {i : Nat} {w : WState T}
    (h : ws[i]? = some w) : f w ≤ tot f ws := by
  induction ws generalizing i with
  | nil => simp at h
  | cons v ws ih =>
    cases i with
    | zero =>
      simp only [List.getElem?_cons_zero, Option.some.injEq] at h
      subst h
      simp [tot]
    | succ i =>
      have := ih (i := i) (by simpa using h)
      simp only [tot, List.map_cons, List.sum_cons] at *
      omega

def aliveW : WState T → Nat
  | .dead => 0
  | _ => 1
def activeW : WState T → Nat
  | .ready => 1
  | .running _ => 1
  | .leaving => 1
  | _ => 0

theorem liveWorkers_eq (ws : List (WState T)) : liveWorkers ws = tot aliveW ws := by
  induction ws with
  | nil => rfl
  | cons w ws ih =>
    simp only [liveWorkers, tot, List.map_cons, List.sum_cons, List.countP_cons] at *
    rw [ih]
    cases w <;> simp [aliveW] <;> omega

/-- The counters are what they claim to be. -/
structure Counts (s : Pool T) : Prop where
  wc : s.wc = tot aliveW s.workers
  act : s.act = tot activeW s.workers

/-- The three outcomes of the waiting loop. -/
theorem tryFetch_cases (s : Pool T) (i : Nat) :
    ((s.queue = [] ∨ s.tact < s.act) ∧ s.target < s.wc ∧
      s.tryFetch i = { s with workers := s.workers.set i .leaving }) ∨
    ((s.queue = [] ∨ s.tact < s.act) ∧ s.wc ≤ s.target ∧
      s.tryFetch i =
        { s with act := s.act - 1, clients := s.clients.map wakeC, workers := s.workers.set i .waiting }) ∨
    (∃ t q, s.queue = t :: q ∧ s.act ≤ s.tact ∧
      s.tryFetch i =
        { s with queue := q, started := s.started ++ [t], workers := s.workers.set i (.running t) }) := by
  unfold tryFetch
  cases hq : s.queue with
  | nil =>
    by_cases h : s.target < s.wc
    · left; simp [h]
    · right; left; simp [h]; omega
  | cons t q =>
    by_cases ha : s.tact < s.act
    · by_cases h : s.target < s.wc
      · left; simp [h, ha]
      · right; left; simp [h, ha]; omega
    · right; right; simp [ha]; omega

theorem counts_set {s : Pool T} (hc : Counts s) {i : Nat} {old new : WState T}
    (h : s.workers[i]? = some old) :
    (tot aliveW (s.workers.set i new) : Int) = s.wc - aliveW old + aliveW new ∧
    (tot activeW (s.workers.set i new) : Int) = s.act - activeW old + activeW new := by
  have h1 := tot_set (f := aliveW) h new
  have h2 := tot_set (f := activeW) h new
  rw [hc.wc, hc.act]
  omega

theorem counts_grow {s : Pool T} (hc : Counts s) (k : Nat) : Counts (s.grow k) := by
  constructor
  · simp only [grow, tot_append, hc.wc, aliveW]; omega
  · simp only [grow, tot_append, hc.act, activeW]; omega

theorem counts_resize {s : Pool T} (hc : Counts s) (n made : Nat) : Counts (s.resize n made) := by
  unfold resize
  split
  · exact hc
  · dsimp only
    split
    · exact counts_grow (s := { s with target := n }) ⟨hc.wc, hc.act⟩ _
    · exact ⟨by simp only [tot_wake (f := aliveW) rfl, hc.wc],
        by simp only [tot_wake (f := activeW) rfl, hc.act]⟩

theorem counts_create (n made : Nat) : Counts (create n made : Pool T) := by
  have h : Counts (empty : Pool T) := ⟨rfl, rfl⟩
  have := counts_resize h n made
  exact ⟨this.wc, this.act⟩

theorem counts_tryFetch {s : Pool T} {i : Nat} {old : WState T}
    (hw : s.wc = tot aliveW s.workers) (ha : s.act = tot activeW s.workers - activeW old + 1)
    (hal : aliveW old = 1)
    (h : s.workers[i]? = some old) : Counts (s.tryFetch i) := by
  have h1 : ∀ new : WState T, (tot aliveW (s.workers.set i new) : Int) = s.wc - 1 + aliveW new := by
    intro new
    have := tot_set (f := aliveW) h new
    rw [hw]; omega
  have h2 : ∀ new : WState T, (tot activeW (s.workers.set i new) : Int) = s.act - 1 + activeW new := by
    intro new
    have := tot_set (f := activeW) h new
    rw [ha]; omega
  rcases tryFetch_cases s i with ⟨_, _, e⟩ | ⟨_, _, e⟩ | ⟨t, q, _, _, e⟩ <;> rw [e] <;> constructor
  · simp only [h1, aliveW]; omega
  · simp only [h2, activeW]; omega
  · simp only [h1, aliveW]; omega
  · simp only [h2, activeW]; omega
  · simp only [h1, aliveW]; omega
  · simp only [h2, activeW]; omega

theorem counts_gone {s : Pool T} (hc : Counts s) {i : Nat} {old : WState T} (h : s.workers[i]? = some old)
    (h1 : aliveW old = 1) (h2 : activeW old = 1) : Counts (s.gone i) := by
  obtain ⟨e1, e2⟩ := counts_set hc (new := .dead) h
  rw [h1] at e1
  rw [h2] at e2
  have a1 : aliveW (.dead : WState T) = 0 := rfl
  have a2 : activeW (.dead : WState T) = 0 := rfl
  constructor
  · simp only [gone]; omega
  · simp only [gone]; omega

theorem counts_step {push : Push T} {s s' : Pool T} {a : Act T} (hc : Counts s)
    (h : s.step push a = some s') : Counts s' := by
  cases a with
  | schedule t who =>
    simp only [step] at h
    split at h
    · split at h
      · rename_i heq
        injection h with h; subst h
        obtain ⟨e1, e2⟩ := counts_set hc (new := .woken) heq
        constructor
        · simp only [e1, aliveW]; omega
        · simp only [e2, activeW]; omega
      · cases h
    · split at h
      · injection h with h; subst h; exact ⟨hc.wc, hc.act⟩
      · cases h
  | clear => injection h with h; subst h; exact ⟨hc.wc, hc.act⟩
  | resize n made => injection h with h; subst h; exact counts_resize hc n made
  | resizeActive n => injection h with h; subst h; exact ⟨hc.wc, hc.act⟩
  | terminateAll =>
    injection h with h; subst h
    exact ⟨by simp only [tot_wake (f := aliveW) rfl, hc.wc],
      by simp only [tot_wake (f := activeW) rfl, hc.act]⟩
  | wait k => injection h with h; subst h; exact ⟨hc.wc, hc.act⟩
  | clientSpurious j =>
    simp only [step] at h
    split at h
    · injection h with h; subst h; exact ⟨hc.wc, hc.act⟩
    · cases h
  | clientResume j =>
    simp only [step] at h
    split at h
    · injection h with h; subst h; exact ⟨hc.wc, hc.act⟩
    · cases h
  | fetch i =>
    simp only [step] at h
    split at h
    · rename_i heq
      split at h
      · injection h with h; subst h
        obtain ⟨e1, e2⟩ := counts_set hc (new := .leaving) heq
        constructor
        · simp only [e1, aliveW]; omega
        · simp only [e2, activeW]; omega
      · injection h with h; subst h
        exact counts_tryFetch (old := .ready) hc.wc (by simp only [hc.act, activeW]; omega) rfl heq
    · cases h
  | spurious i =>
    simp only [step] at h
    split at h
    · rename_i heq
      injection h with h; subst h
      obtain ⟨e1, e2⟩ := counts_set hc (new := .woken) heq
      constructor
      · simp only [e1, aliveW]; omega
      · simp only [e2, activeW]; omega
    · cases h
  | resume i =>
    simp only [step] at h
    split at h
    · rename_i heq
      injection h with h; subst h
      exact counts_tryFetch (s := { s with act := s.act + 1 }) (old := .woken) hc.wc
        (by simp only [hc.act, activeW]; omega) rfl heq
    · cases h
  | finish i =>
    simp only [step] at h
    split at h
    · rename_i heq
      injection h with h; subst h
      obtain ⟨e1, e2⟩ := counts_set hc (new := .ready) heq
      constructor
      · simp only [e1, aliveW]; omega
      · simp only [e2, activeW]; omega
    · cases h
  | fail i made =>
    simp only [step] at h
    split at h
    · rename_i heq
      injection h with h; subst h
      have hg := counts_gone hc heq rfl rfl
      split
      · exact ⟨hg.wc, hg.act⟩
      · exact counts_resize (s := { s.gone i with failed := s.failed ++ [_] }) ⟨hg.wc, hg.act⟩ _ _
    · cases h
  | exit i =>
    simp only [step] at h
    split at h
    · rename_i heq
      injection h with h; subst h
      exact counts_gone hc heq rfl rfl
    · cases h

theorem counts_reach {push : Push T} {P : Pool T → Act T → Prop} {s0 s : Pool T} (h0 : Counts s0)
    (h : Reach push P s0 s) : Counts s := by
  induction h with
  | init => exact h0
  | step _ _ h3 ih => exact counts_step ih h3

end SpatialOps.Threads
