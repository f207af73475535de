import Verif.Threads.Wake

/-!
# Client threads waiting for the pool
-/

namespace SpatialOps.Threads
open Pool
variable {T : Type}

/-- A sleeping client still has something to wait for. -/
structure ClientInv (s : Pool T) : Prop where
  tasks : ∀ n, .waiting (.tasks n) ∈ s.clients → s.cond (.tasks n) = false ∨ 0 < s.act
  gone : .waiting .allGone ∈ s.clients → 0 < s.wc

theorem no_waiting_wakeC (cs : List CState) (k : CKind) : .waiting k ∉ cs.map wakeC := by
  intro h
  obtain ⟨c, _, hc⟩ := List.mem_map.1 h
  cases c <;> simp [wakeC] at hc

theorem clientInv_woken {s : Pool T} {cs : List CState} (h : s.clients = cs.map wakeC) : ClientInv s :=
  ⟨fun _ hn => absurd (h ▸ hn) (no_waiting_wakeC _ _), fun hn => absurd (h ▸ hn) (no_waiting_wakeC _ _)⟩

theorem client_resize {s : Pool T} (h : ClientInv s) (hact : 0 ≤ s.act) (n made : Nat) :
    ClientInv (s.resize n made) := by
  unfold resize
  split
  · exact h
  · dsimp only
    split
    · refine ⟨fun m hm => ?_, fun hm => ?_⟩ <;> simp only [grow] at *
      · rcases h.tasks m hm with h1 | h1
        · cases m with
          | zero =>
            simp only [Pool.cond, Bool.and_eq_false_iff, decide_eq_false_iff_not] at h1 ⊢
            rcases h1 with h1 | h1
            · right; omega
            · left; right; exact h1
          | succ m =>
            simp only [Pool.cond, Bool.not_eq_false', decide_eq_true_eq] at h1 ⊢
            left; omega
        · right; omega
      · have := h.gone hm; omega
    · exact ⟨h.tasks, h.gone⟩

theorem client_tryFetch {s : Pool T} (h : ClientInv s) {i : Nat} (ha : 0 < s.act) :
    ClientInv (s.tryFetch i) := by
  rcases tryFetch_cases s i with ⟨_, _, e⟩ | ⟨_, _, e⟩ | ⟨t, q, hq, _, e⟩ <;> rw [e]
  · exact ⟨h.tasks, h.gone⟩
  · exact clientInv_woken rfl
  · exact ⟨fun _ _ => Or.inr ha, h.gone⟩

theorem Pool.cond_congr {s s' : Pool T} (h1 : s'.act = s.act) (h2 : s'.queue.length = s.queue.length)
    (h3 : s'.wc = s.wc) (k : CKind) : s'.cond k = s.cond k := by
  have : s'.queue.isEmpty = s.queue.isEmpty := by
    rw [Bool.eq_iff_iff, List.isEmpty_iff_length_eq_zero, List.isEmpty_iff_length_eq_zero, h2]
  cases k with
  | tasks n => cases n <;> simp only [Pool.cond, h1, h2, this]
  | allGone => simp only [Pool.cond, h3]

theorem ClientInv.congr {s s' : Pool T} (h : ClientInv s) (h0 : s'.clients = s.clients) (h1 : s'.act = s.act)
    (h2 : s'.queue.length = s.queue.length) (h3 : s'.wc = s.wc) : ClientInv s' :=
  ⟨fun n hn => by rw [Pool.cond_congr h1 h2 h3, h1]; exact h.tasks n (h0 ▸ hn),
   fun hn => by rw [h3]; exact h.gone (h0 ▸ hn)⟩

/-- The steps that touch the list of clients only. -/
theorem client_list {s : Pool T} (h : ClientInv s) {cs : List CState}
    (hcs : ∀ k, .waiting k ∈ cs → .waiting k ∈ s.clients ∨ s.cond k = false) :
    ClientInv { s with clients := cs } := by
  refine ⟨fun n hn => ?_, fun hn => ?_⟩
  · rcases hcs _ hn with h1 | h1
    · exact h.tasks n h1
    · exact Or.inl h1
  · rcases hcs _ hn with h1 | h1
    · exact h.gone h1
    · simp only [Pool.cond, Bool.not_eq_false', decide_eq_true_eq] at h1
      exact h1

theorem mem_set_waiting {cs : List CState} {j : Nat} {c : CState} {k : CKind}
    (h : .waiting k ∈ cs.set j c) : .waiting k ∈ cs ∨ c = .waiting k := by
  rcases List.mem_or_eq_of_mem_set h with h | h
  · exact Or.inl h
  · exact Or.inr h.symm

theorem cond_waiting {s : Pool T} {k k' : CKind}
    (h : (if s.cond k then CState.returned k else CState.waiting k) = .waiting k') : s.cond k' = false := by
  cases hc : s.cond k
  · rw [hc] at h
    simp at h
    rw [← h]; exact hc
  · rw [hc] at h
    simp at h

theorem client_step {push : Push T} (hp : Keeps push) {s s' : Pool T} {a : Act T} (hn : Counts s)
    (hc : ClientInv s) (hP : NoClear s a) (h : s.step push a = some s') : ClientInv s' := by
  have hact : 0 ≤ s.act := by rw [hn.act]; omega
  have hin : ∀ {i : Nat} {w : WState T}, s.workers[i]? = some w → activeW w = 1 → 0 < s.act := by
    intro i w h1 h2
    have := tot_le (f := activeW) h1
    rw [hn.act]; omega
  cases a with
  | schedule t who =>
    have hl : (push s.queue t).length = s.queue.length + 1 := by
      rw [(hp s.queue t).length_eq]; rfl
    have key : ∀ ws : List (WState T),
        ClientInv { s with queue := push s.queue t, scheduled := s.scheduled ++ [t], workers := ws } := by
      intro ws
      refine ⟨fun n hm => ?_, hc.gone⟩
      rcases hc.tasks n hm with h1 | h1
      · left
        cases n with
        | zero =>
          simp only [Pool.cond, Bool.and_eq_false_iff]
          right
          cases hq : push s.queue t with
          | nil => rw [hq] at hl; simp at hl
          | cons => rfl
        | succ n =>
          simp only [Pool.cond, Bool.not_eq_false', decide_eq_true_eq, hl] at h1 ⊢
          omega
      · right; exact h1
    simp only [step] at h
    split at h
    · split at h
      · injection h with h; subst h; exact key _
      · cases h
    · split at h
      · injection h with h; subst h; exact key s.workers
      · cases h
  | clear => exact absurd hP id
  | resize n made => injection h with h; subst h; exact client_resize hc hact n made
  | resizeActive n => injection h with h; subst h; exact hc.congr rfl rfl rfl rfl
  | terminateAll => injection h with h; subst h; exact hc.congr rfl rfl rfl rfl
  | wait k =>
    injection h with h; subst h
    refine client_list hc (fun k' hk => ?_)
    rcases List.mem_append.1 hk with h1 | h1
    · exact Or.inl h1
    · exact Or.inr (cond_waiting (List.mem_singleton.1 h1).symm)
  | clientSpurious j =>
    simp only [step] at h
    split at h
    · injection h with h; subst h
      refine client_list hc (fun k' hk => ?_)
      rcases mem_set_waiting hk with h1 | h1
      · exact Or.inl h1
      · cases h1
    · cases h
  | clientResume j =>
    simp only [step] at h
    split at h
    · injection h with h; subst h
      refine client_list hc (fun k' hk => ?_)
      rcases mem_set_waiting hk with h1 | h1
      · exact Or.inl h1
      · exact Or.inr (cond_waiting h1)
    · cases h
  | fetch i =>
    simp only [step] at h
    split at h
    · rename_i heq
      split at h
      · injection h with h; subst h; exact hc.congr rfl rfl rfl rfl
      · injection h with h; subst h; exact client_tryFetch hc (hin heq rfl)
    · cases h
  | spurious i =>
    simp only [step] at h
    split at h
    · injection h with h; subst h; exact hc.congr rfl rfl rfl rfl
    · cases h
  | resume i =>
    simp only [step] at h
    split at h
    · injection h with h; subst h
      refine client_tryFetch (s := { s with act := s.act + 1 })
        ⟨fun _ _ => Or.inr (by dsimp only; omega), hc.gone⟩ (by dsimp only; omega)
    · cases h
  | finish i =>
    simp only [step] at h
    split at h
    · injection h with h; subst h; exact hc.congr rfl rfl rfl rfl
    · cases h
  | fail i made =>
    simp only [step] at h
    split at h
    · rename_i t heq
      injection h with h; subst h
      have hg : ClientInv { s.gone i with failed := s.failed ++ [t] } := clientInv_woken (cs := s.clients) rfl
      have := hin heq rfl
      split
      · exact hg
      · exact client_resize hg (by simp only [gone]; omega) _ _
    · cases h
  | exit i =>
    simp only [step] at h
    split at h
    · injection h with h; subst h
      exact clientInv_woken (cs := s.clients) rfl
    · cases h

theorem client_create (n made : Nat) : ClientInv (create n made : Pool T) := by
  have h : ClientInv (empty : Pool T) := ⟨fun _ h => by simp [empty] at h, fun h => by simp [empty] at h⟩
  exact (client_resize h (Int.le_refl _) n made).congr rfl rfl rfl rfl

theorem client_reach {push : Push T} (hp : Keeps push) {P : Pool T → Act T → Prop} {s0 s : Pool T}
    (h0 : ClientInv s0) (hn0 : Counts s0) (hP : ∀ s a, P s a → NoClear s a) (h : Reach push P s0 s) :
    ClientInv s := by
  induction h with
  | init => exact h0
  | step h1 h2 h3 ih => exact client_step hp (counts_reach hn0 h1) ih (hP _ _ h2) h3

/-- Clients waiting for the termination of the workers are never forgotten, even
if tasks are discarded. -/
theorem gone_reach {push : Push T} {P : Pool T → Act T → Prop} {s0 s : Pool T}
    (h0 : .waiting .allGone ∈ s0.clients → 0 < s0.wc) (h : Reach push P s0 s) :
    .waiting .allGone ∈ s.clients → 0 < s.wc := by
  induction h with
  | init => exact h0
  | @step s s' a h1 h2 h3 ih =>
    have wk : ∀ cs : List CState, .waiting .allGone ∈ cs.map wakeC → False := fun cs h => no_waiting_wakeC _ _ h
    have hres : ∀ (s : Pool T) n made, (s.resize n made).clients = s.clients ∧ s.wc ≤ (s.resize n made).wc := by
      intro s n made
      unfold resize grow
      split
      · exact ⟨rfl, Int.le_refl _⟩
      · dsimp only; split
        · exact ⟨rfl, by dsimp only; omega⟩
        · exact ⟨rfl, Int.le_refl _⟩
    have htry : ∀ (s : Pool T) i, (.waiting .allGone ∈ s.clients → 0 < s.wc) →
        .waiting .allGone ∈ (s.tryFetch i).clients → 0 < (s.tryFetch i).wc := by
      intro s i ih
      rcases tryFetch_cases s i with ⟨_, _, e⟩ | ⟨_, _, e⟩ | ⟨t, q, hq, _, e⟩ <;> rw [e]
      · exact ih
      · exact fun h => (wk _ h).elim
      · exact ih
    cases a with
    | schedule t who =>
      simp only [step] at h3
      split at h3
      · split at h3
        · injection h3 with h3; subst h3; exact ih
        · cases h3
      · split at h3
        · injection h3 with h3; subst h3; exact ih
        · cases h3
    | resize n made =>
      injection h3 with h3; subst h3
      rw [(hres s n made).1]
      intro h; have := ih h; have := (hres s n made).2; omega
    | wait k =>
      injection h3 with h3; subst h3
      intro hk
      rcases List.mem_append.1 hk with h1 | h1
      · exact ih h1
      · have := cond_waiting (List.mem_singleton.1 h1).symm
        simpa [Pool.cond] using this
    | clientSpurious j =>
      simp only [step] at h3
      split at h3
      · injection h3 with h3; subst h3
        intro hk
        rcases mem_set_waiting hk with h1 | h1
        · exact ih h1
        · cases h1
      · cases h3
    | clientResume j =>
      simp only [step] at h3
      split at h3
      · injection h3 with h3; subst h3
        intro hk
        rcases mem_set_waiting hk with h1 | h1
        · exact ih h1
        · simpa [Pool.cond] using cond_waiting h1
      · cases h3
    | fetch i =>
      simp only [step] at h3
      split at h3
      · split at h3
        · injection h3 with h3; subst h3; exact ih
        · injection h3 with h3; subst h3; exact htry s i ih
      · cases h3
    | resume i =>
      simp only [step] at h3
      split at h3
      · injection h3 with h3; subst h3; exact htry { s with act := s.act + 1 } i ih
      · cases h3
    | fail i made =>
      simp only [step] at h3
      split at h3
      · rename_i t heq
        injection h3 with h3; subst h3
        split
        · exact fun h => (wk _ h).elim
        · rw [(hres _ _ made).1]
          exact fun h => (wk _ h).elim
      · cases h3
    | exit i =>
      simp only [step] at h3
      split at h3
      · injection h3 with h3; subst h3
        exact fun h => (wk _ h).elim
      · cases h3
    | spurious i =>
      simp only [step] at h3
      split at h3
      · injection h3 with h3; subst h3; exact ih
      · cases h3
    | finish i =>
      simp only [step] at h3
      split at h3
      · injection h3 with h3; subst h3; exact ih
      · cases h3
    | clear => injection h3 with h3; subst h3; exact ih
    | resizeActive n => injection h3 with h3; subst h3; exact ih
    | terminateAll => injection h3 with h3; subst h3; exact ih

/-! ## Order of execution and the limit on active workers -/

/-- A step that starts a task takes the head of the queue, with the number of
active workers within the limit. -/
theorem start_step {push : Push T} {s s' : Pool T} {a : Act T}
    (h : s.step push a = some s') {t : T} (hs : s'.started = s.started ++ [t]) :
    s.queue = t :: s'.queue ∧ s'.act ≤ s'.tact ∧ s'.tact = s.tact := by
  have no : ∀ l : List T, l = l ++ [t] → False := fun l h => by simpa using congrArg List.length h
  have hres : ∀ (s : Pool T) n made, (s.resize n made).started = s.started := by
    intro s n made
    unfold resize grow
    split
    · rfl
    · dsimp only; split <;> rfl
  have htry : ∀ (s : Pool T) i, (s.tryFetch i).started = s.started ++ [t] →
      s.queue = t :: (s.tryFetch i).queue ∧ (s.tryFetch i).act ≤ (s.tryFetch i).tact ∧
      (s.tryFetch i).tact = s.tact := by
    intro s i hs
    rcases tryFetch_cases s i with ⟨_, _, e⟩ | ⟨_, _, e⟩ | ⟨t', q, hq, ha, e⟩ <;> rw [e] at hs ⊢
    · exact (no _ hs).elim
    · exact (no _ hs).elim
    · simp only [List.append_cancel_left_eq, List.cons.injEq, and_true] at hs
      subst hs
      exact ⟨hq, ha, rfl⟩
  cases a with
  | schedule t who =>
    simp only [step] at h
    split at h
    · split at h
      · injection h with h; subst h; exact (no _ hs).elim
      · cases h
    · split at h
      · injection h with h; subst h; exact (no _ hs).elim
      · cases h
  | fetch i =>
    simp only [step] at h
    split at h
    · split at h
      · injection h with h; subst h; exact (no _ hs).elim
      · injection h with h; subst h; exact htry s i hs
    · cases h
  | resume i =>
    simp only [step] at h
    split at h
    · injection h with h; subst h; exact htry { s with act := s.act + 1 } i hs
    · cases h
  | fail i made =>
    simp only [step] at h
    split at h
    · injection h with h; subst h
      split at hs
      · exact (no _ hs).elim
      · rw [hres] at hs; exact (no _ hs).elim
    · cases h
  | resize n made => injection h with h; subst h; rw [hres] at hs; exact (no _ hs).elim
  | clientSpurious j =>
    simp only [step] at h
    split at h
    · injection h with h; subst h; exact (no _ hs).elim
    · cases h
  | clientResume j =>
    simp only [step] at h
    split at h
    · injection h with h; subst h; exact (no _ hs).elim
    · cases h
  | spurious i =>
    simp only [step] at h
    split at h
    · injection h with h; subst h; exact (no _ hs).elim
    · cases h
  | finish i =>
    simp only [step] at h
    split at h
    · injection h with h; subst h; exact (no _ hs).elim
    · cases h
  | exit i =>
    simp only [step] at h
    split at h
    · injection h with h; subst h; exact (no _ hs).elim
    · cases h
  | _ => injection h with h; subst h; exact (no _ hs).elim

/-- How a step changes the queue: not at all, by a push, by taking the head, or by
discarding everything. -/
theorem queue_step {push : Push T} {s s' : Pool T} {a : Act T} (h : s.step push a = some s') :
    (s'.queue = s.queue ∧ s'.scheduled = s.scheduled) ∨
    (∃ t, s'.queue = push s.queue t ∧ s'.scheduled = s.scheduled ++ [t]) ∨
    (∃ t, s.queue = t :: s'.queue ∧ s'.scheduled = s.scheduled) ∨
    (s'.queue = [] ∧ s'.scheduled = s.scheduled) := by
  have hres : ∀ (s : Pool T) n made, (s.resize n made).queue = s.queue ∧
      (s.resize n made).scheduled = s.scheduled := by
    intro s n made
    unfold resize grow
    split
    · exact ⟨rfl, rfl⟩
    · dsimp only; split <;> exact ⟨rfl, rfl⟩
  have htry : ∀ (s : Pool T) i,
      ((s.tryFetch i).queue = s.queue ∧ (s.tryFetch i).scheduled = s.scheduled) ∨
      (∃ t, s.queue = t :: (s.tryFetch i).queue ∧ (s.tryFetch i).scheduled = s.scheduled) := by
    intro s i
    rcases tryFetch_cases s i with ⟨_, _, e⟩ | ⟨_, _, e⟩ | ⟨t', q, hq, ha, e⟩ <;> rw [e]
    · exact Or.inl ⟨rfl, rfl⟩
    · exact Or.inl ⟨rfl, rfl⟩
    · exact Or.inr ⟨t', hq, rfl⟩
  cases a with
  | schedule t who =>
    simp only [step] at h
    split at h
    · split at h
      · injection h with h; subst h; exact Or.inr (Or.inl ⟨t, rfl, rfl⟩)
      · cases h
    · split at h
      · injection h with h; subst h; exact Or.inr (Or.inl ⟨t, rfl, rfl⟩)
      · cases h
  | fetch i =>
    simp only [step] at h
    split at h
    · split at h
      · injection h with h; subst h; exact Or.inl ⟨rfl, rfl⟩
      · injection h with h; subst h
        rcases htry s i with h | h
        · exact Or.inl h
        · exact Or.inr (Or.inr (Or.inl h))
    · cases h
  | resume i =>
    simp only [step] at h
    split at h
    · injection h with h; subst h
      rcases htry { s with act := s.act + 1 } i with h | h
      · exact Or.inl h
      · exact Or.inr (Or.inr (Or.inl h))
    · cases h
  | fail i made =>
    simp only [step] at h
    split at h
    · injection h with h; subst h
      left
      split
      · exact ⟨rfl, rfl⟩
      · exact hres _ _ _
    · cases h
  | resize n made => injection h with h; subst h; exact Or.inl (hres _ _ _)
  | clientSpurious j =>
    simp only [step] at h
    split at h
    · injection h with h; subst h; exact Or.inl ⟨rfl, rfl⟩
    · cases h
  | clientResume j =>
    simp only [step] at h
    split at h
    · injection h with h; subst h; exact Or.inl ⟨rfl, rfl⟩
    · cases h
  | spurious i =>
    simp only [step] at h
    split at h
    · injection h with h; subst h; exact Or.inl ⟨rfl, rfl⟩
    · cases h
  | finish i =>
    simp only [step] at h
    split at h
    · injection h with h; subst h; exact Or.inl ⟨rfl, rfl⟩
    · cases h
  | exit i =>
    simp only [step] at h
    split at h
    · injection h with h; subst h; exact Or.inl ⟨rfl, rfl⟩
    · cases h
  | clear => injection h with h; subst h; exact Or.inr (Or.inr (Or.inr ⟨rfl, rfl⟩))
  | _ => injection h with h; subst h; exact Or.inl ⟨rfl, rfl⟩

theorem mem_prioInsert {prio : T → Nat} {t u : T} {q : List T} (h : u ∈ prioInsert prio t q) :
    u = t ∨ u ∈ q := by
  induction q with
  | nil => simpa [prioInsert] using h
  | cons v q ih =>
    unfold prioInsert at h
    split at h
    · rcases List.mem_cons.1 h with h | h
      · exact Or.inl h
      · exact Or.inr h
    · rcases List.mem_cons.1 h with h | h
      · exact Or.inr (by simp [h])
      · rcases ih h with h | h
        · exact Or.inl h
        · exact Or.inr (List.mem_cons_of_mem _ h)

theorem prioInsert_sorted {prio : T → Nat} {t : T} {q : List T}
    (h : q.Pairwise fun a b => prio b ≤ prio a) :
    (prioInsert prio t q).Pairwise fun a b => prio b ≤ prio a := by
  induction q with
  | nil => simp [prioInsert]
  | cons v q ih =>
    unfold prioInsert
    have h1 := List.pairwise_cons.1 h
    split
    · rename_i hlt
      refine List.pairwise_cons.2 ⟨fun u hu => ?_, h⟩
      rcases List.mem_cons.1 hu with e | hu
      · subst e; omega
      · have := h1.1 u hu; omega
    · refine List.pairwise_cons.2 ⟨fun u hu => ?_, ih h1.2⟩
      rcases mem_prioInsert hu with e | hu
      · subst e; omega
      · exact h1.1 u hu

theorem prioInsert_perm (prio : T → Nat) (t : T) (q : List T) : (prioInsert prio t q).Perm (t :: q) := by
  induction q with
  | nil => exact List.Perm.refl _
  | cons v q ih =>
    unfold prioInsert
    split
    · exact List.Perm.refl _
    · exact (List.Perm.cons v ih).trans (List.Perm.swap _ _ _)

theorem prio_reach {prio : T → Nat} {push : Push T} (hp : ByPriority prio push)
    {P : Pool T → Act T → Prop} {s0 s : Pool T}
    (h0 : s0.queue.Pairwise fun a b => prio b ≤ prio a) (h : Reach push P s0 s) :
    s.queue.Pairwise fun a b => prio b ≤ prio a := by
  induction h with
  | init => exact h0
  | step _ _ h3 ih =>
    rcases queue_step h3 with ⟨e, _⟩ | ⟨t, e, _⟩ | ⟨t, e, _⟩ | ⟨e, _⟩
    · rw [e]; exact ih
    · rw [e]; exact hp.2 _ _ ih
    · rw [e] at ih; exact (List.pairwise_cons.1 ih).2
    · rw [e]; exact List.Pairwise.nil

theorem lifo_reach {P : Pool T → Act T → Prop} {s0 s : Pool T}
    (h0 : s0.queue.reverse.Sublist s0.scheduled) (h : Reach lifoPush P s0 s) :
    s.queue.reverse.Sublist s.scheduled := by
  induction h with
  | init => exact h0
  | step _ _ h3 ih =>
    rcases queue_step h3 with ⟨e, e'⟩ | ⟨t, e, e'⟩ | ⟨t, e, e'⟩ | ⟨e, e'⟩
    · rw [e, e']; exact ih
    · rw [e, e']
      simp only [lifoPush, List.reverse_cons]
      exact List.Sublist.append ih (List.Sublist.refl _)
    · rw [e']
      rw [e, List.reverse_cons] at ih
      exact (List.sublist_append_left _ _).trans ih
    · rw [e]; simp

end SpatialOps.Threads
