import Verif.Fork.Seq
import Verif.Threads.Props

/-!
# What the moves do to the pool's records
-/

namespace SpatialOps.Fork
open Threads Threads.Pool

variable {T : Type}

/-- The actions of the pool that occur here. -/
def Calm {T : Type} (_ : Pool T) : Act T → Prop
  | .clear => False
  | .resize _ _ => False
  | .resizeActive _ => False
  | .terminateAll => False
  | .fail _ _ => False
  | _ => True

theorem calm_noShrink (s : Pool T) (a : Act T) (h : Calm s a) : NoShrink s a := by
  cases a <;> first | exact trivial | exact absurd h id

/-- Worker `i` executes task `t`. -/
def Runs (p : Pool T) (i : Nat) (t : T) : Prop := p.workers[i]? = some (.running t)

/-- Nothing happens to tasks. -/
structure Same (p p' : Pool T) : Prop where
  scheduled : p'.scheduled = p.scheduled
  started : p'.started = p.started
  finished : p'.finished = p.finished
  runs : ∀ i t, Runs p' i t ↔ Runs p i t

/-- Worker `i` starts task `t`. -/
structure Starts (p p' : Pool T) (i : Nat) (t : T) : Prop where
  queue : p.queue = t :: p'.queue
  scheduled : p'.scheduled = p.scheduled
  started : p'.started = p.started ++ [t]
  finished : p'.finished = p.finished
  runs : Runs p' i t
  other : ∀ i' t', i' ≠ i → (Runs p' i' t' ↔ Runs p i' t')

theorem runs_set {ws : List (WState T)} {i : Nat} {old new : WState T} (h : ws[i]? = some old)
    (i' : Nat) (t : T) : (ws.set i new)[i']? = some (.running t) ↔
      (i' = i ∧ new = .running t) ∨ (i' ≠ i ∧ ws[i']? = some (.running t)) := by
  have hlt : i < ws.length := by
    by_contra hge
    rw [List.getElem?_eq_none (by omega)] at h
    cases h
  by_cases e : i' = i
  · subst e
    rw [List.getElem?_set_self hlt]
    simp
  · rw [List.getElem?_set_ne (fun h => e h.symm)]
    simp [e]

theorem same_set {p p' : Pool T} {i : Nat} {old new : WState T} (h : p.workers[i]? = some old)
    (ho : ∀ t, old ≠ .running t) (hn : ∀ t, new ≠ .running t) (hw : p'.workers = p.workers.set i new)
    (h1 : p'.scheduled = p.scheduled) (h2 : p'.started = p.started) (h3 : p'.finished = p.finished) :
    Same p p' := by
  refine ⟨h1, h2, h3, fun i' t => ?_⟩
  unfold Runs
  rw [hw, runs_set h]
  constructor
  · rintro (⟨_, e⟩ | ⟨_, e⟩)
    · exact absurd e (hn t)
    · exact e
  · intro e
    right
    refine ⟨?_, e⟩
    rintro rfl
    rw [h] at e
    exact ho t (Option.some.inj e)

theorem schedule_effect {push : Push T} {p p' : Pool T} {t : T} {who : Option Nat}
    (h : p.step push (.schedule t who) = some p') :
    p'.scheduled = p.scheduled ++ [t] ∧ p'.started = p.started ∧ p'.finished = p.finished ∧
    p'.queue = push p.queue t ∧ p'.clients = p.clients ∧ ∀ i t, Runs p' i t ↔ Runs p i t := by
  simp only [step] at h
  split at h
  · split at h
    · rename_i heq
      injection h with h; subst h
      refine ⟨rfl, rfl, rfl, rfl, rfl, fun i' t' => ?_⟩
      exact (same_set (p' := { p with workers := p.workers.set _ .woken }) heq (by simp) (by simp) rfl
        rfl rfl rfl).runs i' t'
    · cases h
  · split at h
    · injection h with h; subst h
      exact ⟨rfl, rfl, rfl, rfl, rfl, fun _ _ => Iff.rfl⟩
    · cases h

theorem wait_effect {push : Push T} {p p' : Pool T} {k : CKind} (h : p.step push (.wait k) = some p') :
    Same p p' ∧ p'.queue = p.queue ∧ ∃ c, p'.clients = p.clients ++ [c] ∧ (c = .returned k ∨ c = .waiting k) := by
  injection h with h; subst h
  refine ⟨⟨rfl, rfl, rfl, fun _ _ => Iff.rfl⟩, rfl, _, rfl, ?_⟩
  split
  · exact Or.inl rfl
  · exact Or.inr rfl

/-- The entry of a client keeps what it waits for. -/
def kindOf : CState → CKind
  | .waiting k => k
  | .woken k => k
  | .returned k => k

theorem clientResume_effect {push : Push T} {p p' : Pool T} {j : Nat}
    (h : p.step push (.clientResume j) = some p') :
    Same p p' ∧ p'.queue = p.queue ∧ p'.clients.map kindOf = p.clients.map kindOf ∧
    fuel p' = fuel p ∧ (∃ k, p.clients[j]? = some (.woken k)) ∧ (∀ k, p'.clients[j]? ≠ some (.woken k)) := by
  simp only [step] at h
  split at h
  · rename_i k heq
    injection h with h; subst h
    have hlt : j < p.clients.length := by
      by_contra hge
      rw [List.getElem?_eq_none (by omega)] at heq
      cases heq
    refine ⟨⟨rfl, rfl, rfl, fun _ _ => Iff.rfl⟩, rfl, ?_, rfl, ⟨k, heq⟩, ?_⟩
    · dsimp only
      apply List.ext_getElem?
      intro i
      rw [List.getElem?_map, List.getElem?_map]
      by_cases e : i = j
      · subst e
        rw [List.getElem?_set_self hlt, heq]
        split <;> rfl
      · rw [List.getElem?_set_ne (fun h => e h.symm)]
    · intro k'
      dsimp only
      rw [List.getElem?_set_self hlt]
      split <;> simp
  · cases h

theorem clientSpurious_effect {push : Push T} {p p' : Pool T} {j : Nat}
    (h : p.step push (.clientSpurious j) = some p') :
    Same p p' ∧ p'.queue = p.queue ∧ p'.clients.map kindOf = p.clients.map kindOf ∧
    fuel p' = fuel p := by
  simp only [step] at h
  split at h
  · rename_i k heq
    injection h with h; subst h
    have hlt : j < p.clients.length := by
      by_contra hge
      rw [List.getElem?_eq_none (by omega)] at heq
      cases heq
    refine ⟨⟨rfl, rfl, rfl, fun _ _ => Iff.rfl⟩, rfl, ?_, rfl⟩
    dsimp only
    apply List.ext_getElem?
    intro i
    rw [List.getElem?_map, List.getElem?_map]
    by_cases e : i = j
    · subst e
      rw [List.getElem?_set_self hlt, heq]
      rfl
    · rw [List.getElem?_set_ne (fun h => e h.symm)]
  · cases h

theorem kind_wake (cs : List CState) : (cs.map wakeC).map kindOf = cs.map kindOf := by
  rw [List.map_map]
  apply List.map_congr_left
  intro c _
  cases c <;> rfl

theorem tryFetch_effect {p : Pool T} {i : Nat} {old : WState T} (h : p.workers[i]? = some old)
    (ho : ∀ t, old ≠ .running t) :
    (p.tryFetch i).clients.map kindOf = p.clients.map kindOf ∧
    ((Same p (p.tryFetch i) ∧ (p.tryFetch i).queue = p.queue ∧ ∀ t, ¬ Runs (p.tryFetch i) i t) ∨
    ∃ t, Starts p (p.tryFetch i) i t) := by
  have nr : ∀ (new : WState T), (∀ t, new ≠ .running t) → ∀ t, (p.workers.set i new)[i]? ≠ some (.running t) := by
    intro new hn t e
    rw [runs_set h] at e
    rcases e with ⟨_, e⟩ | ⟨e, _⟩
    · exact hn t e
    · exact e rfl
  rcases tryFetch_cases p i with ⟨_, _, e⟩ | ⟨_, _, e⟩ | ⟨t, q, hq, _, e⟩ <;> rw [e]
  · exact ⟨rfl, Or.inl ⟨same_set h ho (by simp) rfl rfl rfl rfl, rfl, nr _ (by simp)⟩⟩
  · exact ⟨kind_wake _, Or.inl ⟨same_set h ho (by simp) rfl rfl rfl rfl, rfl, nr _ (by simp)⟩⟩
  · refine ⟨rfl, Or.inr ⟨t, hq, rfl, rfl, rfl, ?_, ?_⟩⟩
    · unfold Runs
      rw [runs_set h]
      exact Or.inl ⟨rfl, rfl⟩
    · intro i' t' hne
      unfold Runs
      rw [runs_set h]
      simp [hne]

theorem fetch_effect {push : Push T} {p p' : Pool T} {i : Nat} (h : p.step push (.fetch i) = some p') :
    p'.clients.map kindOf = p.clients.map kindOf ∧
    ((Same p p' ∧ p'.queue = p.queue ∧ ∀ t, ¬ Runs p' i t) ∨ ∃ t, Starts p p' i t) := by
  simp only [step] at h
  split at h
  · rename_i heq
    split at h
    · injection h with h; subst h
      refine ⟨rfl, Or.inl ⟨same_set heq (by simp) (by simp) rfl rfl rfl rfl, rfl, fun t e => ?_⟩⟩
      unfold Runs at e
      rw [runs_set heq] at e
      simp at e
    · injection h with h; subst h
      exact tryFetch_effect heq (by simp)
  · cases h

theorem resume_effect {push : Push T} {p p' : Pool T} {i : Nat} (h : p.step push (.resume i) = some p') :
    p'.clients.map kindOf = p.clients.map kindOf ∧
    ((Same p p' ∧ p'.queue = p.queue ∧ ∀ t, ¬ Runs p' i t) ∨ ∃ t, Starts p p' i t) := by
  simp only [step] at h
  split at h
  · rename_i heq
    injection h with h; subst h
    obtain ⟨h1, h2⟩ := tryFetch_effect (p := { p with act := p.act + 1 }) heq (by simp)
    refine ⟨h1, ?_⟩
    rcases h2 with ⟨s, h3, h4⟩ | ⟨t, s⟩
    · exact Or.inl ⟨⟨s.scheduled, s.started, s.finished, s.runs⟩, h3, h4⟩
    · exact Or.inr ⟨t, s.queue, s.scheduled, s.started, s.finished, s.runs, s.other⟩
  · cases h

theorem spurious_effect {push : Push T} {p p' : Pool T} {i : Nat} (h : p.step push (.spurious i) = some p') :
    Same p p' ∧ p'.queue = p.queue ∧ p'.clients = p.clients ∧ fuel p' ≤ fuel p + 2 := by
  simp only [step] at h
  split at h
  · rename_i heq
    injection h with h; subst h
    refine ⟨same_set heq (by simp) (by simp) rfl rfl rfl rfl, rfl, rfl, ?_⟩
    have := tot_set (f := stepsW) heq .woken
    unfold fuel
    simp only [stepsW] at this ⊢
    omega
  · cases h

theorem exit_effect {push : Push T} {p p' : Pool T} {i : Nat} (h : p.step push (.exit i) = some p') :
    Same p p' ∧ p'.queue = p.queue ∧ p'.clients.map kindOf = p.clients.map kindOf := by
  simp only [step] at h
  split at h
  · rename_i heq
    injection h with h; subst h
    exact ⟨same_set heq (by simp) (by simp) rfl rfl rfl rfl, rfl, kind_wake _⟩
  · cases h

theorem finish_effect {push : Push T} {p p' : Pool T} {i : Nat} {t : T} (hr : Runs p i t)
    (h : p.step push (.finish i) = some p') :
    p'.scheduled = p.scheduled ∧ p'.started = p.started ∧ p'.finished = p.finished ++ [t] ∧
    p'.queue = p.queue ∧ p'.clients = p.clients ∧
    ∀ i' t', Runs p' i' t' ↔ (i' ≠ i ∧ Runs p i' t') := by
  unfold Runs at hr
  simp only [step, hr, Option.some.injEq] at h
  subst h
  refine ⟨rfl, rfl, rfl, rfl, rfl, fun i' t' => ?_⟩
  unfold Runs
  rw [runs_set hr]
  simp

theorem schedule_fuel {push : Push T} (hp : Keeps push) {p p' : Pool T} {t : T} {who : Option Nat}
    (h : p.step push (.schedule t who) = some p') : fuel p' ≤ fuel p + 6 := by
  have hl := (hp p.queue t).length_eq
  simp only [List.length_cons] at hl
  simp only [step] at h
  split at h
  · split at h
    · rename_i heq
      injection h with h; subst h
      have := tot_set (f := stepsW) heq .woken
      unfold fuel
      simp only [stepsW] at this ⊢
      omega
    · cases h
  · split at h
    · injection h with h; subst h
      unfold fuel
      dsimp only
      omega
    · cases h

/-- Nothing is discarded and nothing throws. -/
theorem calm_records {push : Push T} {p p' : Pool T} {a : Act T} (hc : Calm p a)
    (h : p.step push a = some p') : p'.cleared = p.cleared ∧ p'.failed = p.failed := by
  have htry : ∀ (s : Pool T) i, (s.tryFetch i).cleared = s.cleared ∧ (s.tryFetch i).failed = s.failed := by
    intro s i
    rcases tryFetch_cases s i with ⟨_, _, e⟩ | ⟨_, _, e⟩ | ⟨t, q, hq, _, e⟩ <;> rw [e] <;> exact ⟨rfl, rfl⟩
  cases a with
  | fetch i =>
    simp only [step] at h
    split at h
    · split at h
      · injection h with h; subst h; exact ⟨rfl, rfl⟩
      · injection h with h; subst h; exact htry _ _
    · cases h
  | resume i =>
    simp only [step] at h
    split at h
    · injection h with h; subst h; exact htry _ _
    · cases h
  | schedule t who =>
    simp only [step] at h
    split at h
    · split at h
      · injection h with h; subst h; exact ⟨rfl, rfl⟩
      · cases h
    · split at h
      · injection h with h; subst h; exact ⟨rfl, rfl⟩
      · cases h
  | wait k => injection h with h; subst h; exact ⟨rfl, rfl⟩
  | finish i | exit i | spurious i | clientResume i | clientSpurious i =>
    simp only [step] at h
    split at h
    · injection h with h; subst h; exact ⟨rfl, rfl⟩
    · cases h
  | _ => exact absurd hc id

theorem mem_running {ws : List (WState T)} {t : T} : t ∈ runningTasks ws ↔ ∃ i : Nat, ws[i]? = some (WState.running t) := by
  unfold runningTasks
  rw [List.mem_filterMap]
  constructor
  · rintro ⟨w, hw, e⟩
    obtain ⟨i, hi⟩ := List.mem_iff_getElem?.1 hw
    refine ⟨i, ?_⟩
    rw [hi]
    cases w <;> simp at e
    rw [e]
  · rintro ⟨i, hi⟩
    exact ⟨_, List.mem_iff_getElem?.2 ⟨i, hi⟩, rfl⟩

theorem running_unique {ws : List (WState T)} (h : (runningTasks ws).Nodup) {t : T} {i i' : Nat}
    (h1 : ws[i]? = some (.running t)) (h2 : ws[i']? = some (.running t)) : i = i' := by
  induction ws generalizing i i' with
  | nil => simp at h1
  | cons w ws ih =>
    have hd : (runningTasks ws).Nodup := by
      unfold runningTasks at h ⊢
      rw [List.filterMap_cons] at h
      split at h
      · exact h
      · exact (List.nodup_cons.1 h).2
    have hno : w = .running t → ∀ i : Nat, ws[i]? ≠ some (WState.running t) := by
      rintro rfl i hi
      have : t ∉ runningTasks ws := by
        unfold runningTasks at h ⊢
        rw [List.filterMap_cons] at h
        exact (List.nodup_cons.1 h).1
      exact this (mem_running.2 ⟨i, hi⟩)
    cases i with
    | zero =>
      cases i' with
      | zero => rfl
      | succ i' =>
        simp only [List.getElem?_cons_zero, Option.some.injEq] at h1
        simp only [List.getElem?_cons_succ] at h2
        exact absurd h2 (hno h1 i')
    | succ i =>
      cases i' with
      | zero =>
        simp only [List.getElem?_cons_zero, Option.some.injEq] at h2
        simp only [List.getElem?_cons_succ] at h1
        exact absurd h1 (hno h2 i)
      | succ i' =>
        simp only [List.getElem?_cons_succ] at h1 h2
        rw [ih hd h1 h2]

theorem create_empty (n made : Nat) : (create n made : Pool T).queue = [] ∧
    (create n made : Pool T).scheduled = [] ∧ (create n made : Pool T).started = [] ∧
    (create n made : Pool T).finished = [] ∧ (create n made : Pool T).failed = [] ∧
    (create n made : Pool T).cleared = [] ∧ (create n made : Pool T).clients = [] := by
  unfold create resizeActive Pool.resize grow empty
  simp

/-- What a state of the pool with distinct tasks tells. -/
structure Facts (p : Pool T) : Prop where
  sched : ∀ t, t ∈ p.scheduled ↔ t ∈ p.started ∨ t ∈ p.queue
  start : ∀ t, t ∈ p.started ↔ t ∈ p.finished ∨ ∃ i, Runs p i t
  fresh : ∀ t, t ∈ p.queue → t ∉ p.started
  over : ∀ t i, Runs p i t → t ∉ p.finished
  one : ∀ t i i', Runs p i t → Runs p i' t → i = i'
  head : ∀ t q, p.queue = t :: q → t ∉ q

theorem facts {push : Push T} (hp : Keeps push) {n made : Nat} {p : Pool T}
    (h : Reach push Calm (create n made) p) (hd : p.scheduled.Nodup) : Facts p := by
  have hz : p.cleared = [] ∧ p.failed = [] := by
    have he := create_empty (T := T) n made
    clear hd
    induction h with
    | init => exact ⟨he.2.2.2.2.2.1, he.2.2.2.2.1⟩
    | step _ h2 h3 ih =>
      obtain ⟨e1, e2⟩ := calm_records h2 h3
      rw [e1, e2]
      exact ih
  obtain ⟨p1, p2⟩ := C34_exactly_once hp h
  obtain ⟨d1, d2⟩ := C34_no_task_twice hp h hd
  rw [hz.1, List.append_nil] at p1 d1
  rw [hz.2, List.append_nil] at p2 d2
  refine ⟨fun t => ?_, fun t => ?_, fun t hq hs => ?_, fun t i hr hf => ?_, fun t i i' h1 h2 => ?_, ?_⟩
  · rw [p1.mem_iff, List.mem_append]
  · rw [p2.mem_iff, List.mem_append, mem_running]
    rfl
  · exact (List.nodup_append.1 d1).2.2 t hs t hq rfl
  · exact (List.nodup_append.1 d2).2.2 t hf t (mem_running.2 ⟨i, hr⟩) rfl
  · exact running_unique (List.nodup_append.1 d2).2.1 h1 h2
  · intro t q hq
    have := (List.nodup_append.1 d1).2.1
    rw [hq] at this
    exact (List.nodup_cons.1 this).1

end SpatialOps.Fork
