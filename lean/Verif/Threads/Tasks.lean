import Verif.Threads.Lemmas

/-!
# Task accounting: every scheduled task is run exactly once
-/

namespace SpatialOps.Threads
open Pool
variable {T : Type}

section
open Classical

/-- Weight: is the worker executing `x`? -/
noncomputable def runsW (x : T) : WState T → Nat
  | .running t => if t = x then 1 else 0
  | _ => 0

theorem tot_runs (x : T) (ws : List (WState T)) : tot (runsW x) ws = (runningTasks ws).count x := by
  induction ws with
  | nil => rfl
  | cons w ws ih =>
    have e : tot (runsW x) (w :: ws) = runsW x w + tot (runsW x) ws := rfl
    rw [e, ih]
    unfold runningTasks
    cases w with
    | running t =>
      rw [List.filterMap_cons]
      dsimp only
      rw [List.count_cons]
      unfold runsW
      by_cases h : t = x
      · simp [h]; omega
      · simp [h]
    | _ => simp [runsW]

structure TasksInv (s : Pool T) : Prop where
  sched : ∀ x, s.scheduled.count x = s.started.count x + s.queue.count x + s.cleared.count x
  run : ∀ x, s.started.count x = s.finished.count x + s.failed.count x + tot (runsW x) s.workers

theorem TasksInv.congr {s s' : Pool T} (h : TasksInv s) (h1 : s'.scheduled = s.scheduled)
    (h2 : s'.started = s.started) (h3 : s'.queue = s.queue) (h4 : s'.cleared = s.cleared)
    (h5 : s'.finished = s.finished) (h6 : s'.failed = s.failed)
    (h7 : ∀ x, tot (runsW x) s'.workers = tot (runsW x) s.workers) : TasksInv s' :=
  ⟨fun x => by rw [h1, h2, h3, h4]; exact h.sched x,
   fun x => by rw [h2, h5, h6, h7]; exact h.run x⟩

theorem runs_set {ws : List (WState T)} {i : Nat} {old new : WState T} (h : ws[i]? = some old) (x : T)
    (ho : runsW x old = 0) (hn : runsW x new = 0) : tot (runsW x) (ws.set i new) = tot (runsW x) ws := by
  have := tot_set (f := runsW x) h new
  omega

theorem tasks_resize {s : Pool T} (h : TasksInv s) (n made : Nat) : TasksInv (s.resize n made) := by
  unfold resize
  split
  · exact h
  · dsimp only
    split
    · refine h.congr rfl rfl rfl rfl rfl rfl (fun x => ?_)
      unfold grow
      dsimp only
      rw [tot_append]
      simp [runsW]
    · exact h.congr rfl rfl rfl rfl rfl rfl (fun x => tot_wake rfl _)

theorem tasks_tryFetch {s : Pool T} (h : TasksInv s) {i : Nat} {old : WState T}
    (hi : s.workers[i]? = some old) (ho : ∀ x, runsW x old = 0) : TasksInv (s.tryFetch i) := by
  rcases tryFetch_cases s i with ⟨_, _, e⟩ | ⟨_, _, e⟩ | ⟨t, q, hq, _, e⟩ <;> rw [e]
  · exact h.congr rfl rfl rfl rfl rfl rfl (fun x => runs_set hi x (ho x) rfl)
  · exact h.congr rfl rfl rfl rfl rfl rfl (fun x => runs_set hi x (ho x) rfl)
  · refine ⟨fun x => ?_, fun x => ?_⟩
    · have := h.sched x
      rw [hq, List.count_cons] at this
      simp only [List.count_append, List.count_cons, List.count_nil]
      omega
    · have h1 := h.run x
      have h2 := tot_set (f := runsW x) hi (.running t)
      have h3 := ho x
      simp only [List.count_append, List.count_cons, List.count_nil]
      have h4 : runsW x (.running t) = if t = x then 1 else 0 := rfl
      by_cases hx : t = x
      · simp only [hx, if_true, beq_self_eq_true] at *
        omega
      · have : (t == x) = false := by simpa using hx
        simp only [hx, if_false, this] at *
        simp only [Bool.false_eq_true, if_false]
        omega

theorem tasks_step {push : Push T} (hp : Keeps push) {s s' : Pool T} {a : Act T} (hc : TasksInv s)
    (h : s.step push a = some s') : TasksInv s' := by
  have hpush : ∀ q t x, (push q t).count x = q.count x + if t = x then 1 else 0 := by
    intro q t x
    rw [(hp q t).count_eq, List.count_cons]
    by_cases hx : t = x <;> simp [hx]
  cases a with
  | schedule t who =>
    have key : ∀ ws : List (WState T), (∀ x, tot (runsW x) ws = tot (runsW x) s.workers) →
        TasksInv { s with queue := push s.queue t, scheduled := s.scheduled ++ [t], workers := ws } := by
      intro ws hws
      refine ⟨fun x => ?_, fun x => ?_⟩
      · have := hc.sched x
        simp only [hpush, List.count_append, List.count_cons, List.count_nil]
        by_cases hx : t = x
        · simp [hx]; omega
        · have : (t == x) = false := by simpa using hx
          simp [hx]; omega
      · simp only [hws]; exact hc.run x
    simp only [step] at h
    split at h
    · split at h
      · rename_i heq
        injection h with h; subst h
        exact key _ (fun x => runs_set heq x rfl rfl)
      · cases h
    · split at h
      · injection h with h; subst h; exact key _ (fun _ => rfl)
      · cases h
  | clear =>
    injection h with h; subst h
    refine ⟨fun x => ?_, hc.run⟩
    have := hc.sched x
    simp only [List.count_append, List.count_nil]
    omega
  | resize n made => injection h with h; subst h; exact tasks_resize hc n made
  | resizeActive n => injection h with h; subst h; exact hc.congr rfl rfl rfl rfl rfl rfl (fun _ => rfl)
  | terminateAll =>
    injection h with h; subst h
    exact hc.congr rfl rfl rfl rfl rfl rfl (fun x => tot_wake rfl _)
  | wait k => injection h with h; subst h; exact hc.congr rfl rfl rfl rfl rfl rfl (fun _ => rfl)
  | clientSpurious j =>
    simp only [step] at h
    split at h
    · injection h with h; subst h; exact hc.congr rfl rfl rfl rfl rfl rfl (fun _ => rfl)
    · cases h
  | clientResume j =>
    simp only [step] at h
    split at h
    · injection h with h; subst h; exact hc.congr rfl rfl rfl rfl rfl rfl (fun _ => rfl)
    · cases h
  | fetch i =>
    simp only [step] at h
    split at h
    · rename_i heq
      split at h
      · injection h with h; subst h
        exact hc.congr rfl rfl rfl rfl rfl rfl (fun x => runs_set heq x rfl rfl)
      · injection h with h; subst h
        exact tasks_tryFetch hc heq (fun _ => rfl)
    · cases h
  | spurious i =>
    simp only [step] at h
    split at h
    · rename_i heq
      injection h with h; subst h
      exact hc.congr rfl rfl rfl rfl rfl rfl (fun x => runs_set heq x rfl rfl)
    · cases h
  | resume i =>
    simp only [step] at h
    split at h
    · rename_i heq
      injection h with h; subst h
      exact tasks_tryFetch (s := { s with act := s.act + 1 })
        (hc.congr rfl rfl rfl rfl rfl rfl (fun _ => rfl)) heq (fun _ => rfl)
    · cases h
  | finish i =>
    simp only [step] at h
    split at h
    · rename_i t heq
      injection h with h; subst h
      refine ⟨hc.sched, fun x => ?_⟩
      have h1 := hc.run x
      have h2 := tot_set (f := runsW x) heq .ready
      have h3 : runsW x (.running t) = if t = x then 1 else 0 := rfl
      have h4 : runsW x (.ready : WState T) = 0 := rfl
      simp only [List.count_append, List.count_cons, List.count_nil]
      by_cases hx : t = x
      · simp [hx] at *; omega
      · have h5 : (t == x) = false := by simpa using hx
        simp only [hx, if_false, h5, Bool.false_eq_true] at *
        omega
    · cases h
  | fail i made =>
    simp only [step] at h
    split at h
    · rename_i t heq
      injection h with h; subst h
      have hg : TasksInv { s.gone i with failed := s.failed ++ [t] } := by
        refine ⟨hc.sched, fun x => ?_⟩
        have h1 := hc.run x
        have h2 := tot_set (f := runsW x) heq .dead
        have h3 : runsW x (.running t) = if t = x then 1 else 0 := rfl
        have h4 : runsW x (.dead : WState T) = 0 := rfl
        simp only [List.count_append, List.count_cons, List.count_nil, gone]
        by_cases hx : t = x
        · simp [hx] at *; omega
        · have h5 : (t == x) = false := by simpa using hx
          simp only [hx, if_false, h5, Bool.false_eq_true] at *
          omega
      split
      · exact hg
      · exact tasks_resize hg _ _
    · cases h
  | exit i =>
    simp only [step] at h
    split at h
    · rename_i heq
      injection h with h; subst h
      exact hc.congr rfl rfl rfl rfl rfl rfl (fun x => runs_set heq x rfl rfl)
    · cases h

theorem tasks_create (n made : Nat) : TasksInv (create n made : Pool T) := by
  have h : TasksInv (empty : Pool T) := ⟨fun _ => rfl, fun _ => rfl⟩
  exact (tasks_resize h n made).congr rfl rfl rfl rfl rfl rfl (fun _ => rfl)

theorem tasks_reach {push : Push T} (hp : Keeps push) {P : Pool T → Act T → Prop} {s0 s : Pool T}
    (h0 : TasksInv s0) (h : Reach push P s0 s) : TasksInv s := by
  induction h with
  | init => exact h0
  | step _ _ h3 ih => exact tasks_step hp ih h3

theorem TasksInv.perm {s : Pool T} (h : TasksInv s) :
    s.scheduled.Perm (s.started ++ s.queue ++ s.cleared) ∧
    s.started.Perm (s.finished ++ s.failed ++ runningTasks s.workers) := by
  constructor
  · rw [List.perm_iff_count]
    intro x
    simp only [List.count_append]
    exact h.sched x
  · rw [List.perm_iff_count]
    intro x
    simp only [List.count_append, ← tot_runs]
    exact h.run x

end

/-- FIFO: what was started and what is pending, in that order, is what was
scheduled, less what was discarded. -/
theorem fifo_step {s s' : Pool T} {a : Act T} (h : s.step fifoPush a = some s')
    (hs : (s.started ++ s.queue).Sublist s.scheduled) : (s'.started ++ s'.queue).Sublist s'.scheduled ∧
      (a ≠ .clear → s.started ++ s.queue = s.scheduled → s'.started ++ s'.queue = s'.scheduled) := by
  have hres : ∀ (s : Pool T) n made, (s.resize n made).started = s.started ∧
      (s.resize n made).queue = s.queue ∧ (s.resize n made).scheduled = s.scheduled := by
    intro s n made
    unfold resize grow
    split
    · exact ⟨rfl, rfl, rfl⟩
    · dsimp only; split <;> exact ⟨rfl, rfl, rfl⟩
  have htry : ∀ (s : Pool T) i, (s.tryFetch i).started ++ (s.tryFetch i).queue = s.started ++ s.queue ∧
      (s.tryFetch i).scheduled = s.scheduled := by
    intro s i
    rcases tryFetch_cases s i with ⟨_, _, e⟩ | ⟨_, _, e⟩ | ⟨t, q, hq, _, e⟩ <;> rw [e]
    · exact ⟨rfl, rfl⟩
    · exact ⟨rfl, rfl⟩
    · simp [hq]
  have same : ∀ s' : Pool T, s'.started ++ s'.queue = s.started ++ s.queue → s'.scheduled = s.scheduled →
      (s'.started ++ s'.queue).Sublist s'.scheduled ∧
      (a ≠ .clear → s.started ++ s.queue = s.scheduled → s'.started ++ s'.queue = s'.scheduled) := by
    intro s' h1 h2
    rw [h1, h2]
    exact ⟨hs, fun _ h => h⟩
  cases a with
  | schedule t who =>
    have key : ∀ ws : List (WState T), s' = { s with queue := fifoPush s.queue t, scheduled := s.scheduled ++ [t], workers := ws } →
        (s'.started ++ s'.queue).Sublist s'.scheduled ∧
        (Act.schedule t who ≠ .clear → s.started ++ s.queue = s.scheduled → s'.started ++ s'.queue = s'.scheduled) := by
      intro ws e
      subst e
      simp only [fifoPush, ← List.append_assoc]
      exact ⟨List.Sublist.append hs (List.Sublist.refl _), fun _ h => by rw [h]⟩
    simp only [step] at h
    split at h
    · split at h
      · injection h with h; exact key _ h.symm
      · cases h
    · split at h
      · injection h with h; exact key s.workers h.symm
      · cases h
  | clear =>
    injection h with h; subst h
    refine ⟨?_, fun hn => absurd rfl hn⟩
    simp only [List.append_nil]
    exact (List.sublist_append_left _ _).trans hs
  | resize n made =>
    injection h with h; subst h
    obtain ⟨h1, h2, h3⟩ := hres s n made
    exact same _ (by rw [h1, h2]) h3
  | resizeActive n => injection h with h; subst h; exact same _ rfl rfl
  | terminateAll => injection h with h; subst h; exact same _ rfl rfl
  | wait k => injection h with h; subst h; exact same _ rfl rfl
  | clientSpurious j =>
    simp only [step] at h
    split at h
    · injection h with h; subst h; exact same _ rfl rfl
    · cases h
  | clientResume j =>
    simp only [step] at h
    split at h
    · injection h with h; subst h; exact same _ rfl rfl
    · cases h
  | fetch i =>
    simp only [step] at h
    split at h
    · split at h
      · injection h with h; subst h; exact same _ rfl rfl
      · injection h with h; subst h; exact same _ (htry s i).1 (htry s i).2
    · cases h
  | spurious i =>
    simp only [step] at h
    split at h
    · injection h with h; subst h; exact same _ rfl rfl
    · cases h
  | resume i =>
    simp only [step] at h
    split at h
    · injection h with h; subst h
      exact same _ (htry { s with act := s.act + 1 } i).1 (htry { s with act := s.act + 1 } i).2
    · cases h
  | finish i =>
    simp only [step] at h
    split at h
    · injection h with h; subst h; exact same _ rfl rfl
    · cases h
  | fail i made =>
    simp only [step] at h
    split at h
    · injection h with h; subst h
      split
      · exact same _ rfl rfl
      · obtain ⟨h1, h2, h3⟩ := hres { s.gone i with failed := s.failed ++ [_] } ((s.gone i).wc + 1).toNat made
        exact same _ (by rw [h1, h2]; rfl) h3
    · cases h
  | exit i =>
    simp only [step] at h
    split at h
    · injection h with h; subst h; exact same _ rfl rfl
    · cases h

end SpatialOps.Threads
