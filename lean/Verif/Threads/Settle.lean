import Verif.Threads.Clients

/-!
# Clients, counts and targets along runs
-/

namespace SpatialOps.Threads
open Pool
variable {T : Type}

/-- Without shrinking, a sleeping client still has something to wait for, or a
worker is awake that will wake it. -/
def ClientInv2 (s : Pool T) : Prop :=
  ∀ n, .waiting (.tasks n) ∈ s.clients → s.cond (.tasks n) = false ∨ 0 < tot busyW s.workers

theorem client2_list {s : Pool T} (h : ClientInv2 s) {cs : List CState}
    (hcs : ∀ k, .waiting k ∈ cs → .waiting k ∈ s.clients ∨ s.cond k = false) :
    ClientInv2 { s with clients := cs } := by
  intro n hn
  rcases hcs _ hn with h1 | h1
  · exact h n h1
  · exact Or.inl h1

theorem client2_woken {s : Pool T} {cs : List CState} (h : s.clients = cs.map wakeC) : ClientInv2 s :=
  fun _ hn => absurd (h ▸ hn) (no_waiting_wakeC _ _)

theorem client2_resize {s : Pool T} (h : ClientInv2 s) (hact : 0 ≤ s.act) (htm : s.terminating = false)
    {n : Nat} (hn : s.wc ≤ n) (made : Nat) : ClientInv2 (s.resize n made) := by
  unfold resize
  rw [if_neg (by simp [htm])]
  dsimp only
  rw [if_pos hn]
  intro m hm
  simp only [grow] at *
  have hb := tot_append (f := busyW) s.workers (min made ((n : Int) - s.wc).toNat) .ready
  simp only [busyW, Nat.mul_one] at hb
  rcases h m hm with h1 | h1
  · cases m with
    | zero =>
      simp only [Pool.cond, Bool.and_eq_false_iff, decide_eq_false_iff_not] at h1 ⊢
      rcases h1 with h1 | h1
      · left; left; omega
      · left; right; exact h1
    | succ m =>
      simp only [Pool.cond, Bool.not_eq_false', decide_eq_true_eq] at h1 ⊢
      left; omega
  · right; omega

theorem client2_tryFetch {s : Pool T} {i : Nat} {old : WState T}
    (hw : s.wc ≤ s.target) (hi : s.workers[i]? = some old) :
    ClientInv2 (s.tryFetch i) := by
  rcases tryFetch_cases s i with ⟨_, _, e⟩ | ⟨_, _, e⟩ | ⟨t, q, hq, _, e⟩
  · omega
  · rw [e]; exact client2_woken rfl
  · rw [e]
    intro n _
    right
    have := tot_set (f := busyW) hi (.running t)
    have := tot_le (f := busyW) hi
    have e : busyW (.running t : WState T) = 1 := rfl
    dsimp only
    omega

theorem client2_step {push : Push T} {s s' : Pool T} {a : Act T} (hn : Counts s)
    (hw : WakeInv s) (hc : ClientInv2 s) (hP : NoShrink s a) (h : s.step push a = some s') :
    ClientInv2 s' := by
  have hact : 0 ≤ s.act := by rw [hn.act]; omega
  have hset : ∀ (s' : Pool T) (i : Nat) (old new : WState T), s.workers[i]? = some old → busyW new = 1 →
      s'.workers = s.workers.set i new → ClientInv2 s' := by
    intro s' i old new hi hb he n _
    right
    have := tot_set (f := busyW) hi new
    have := tot_le (f := busyW) hi
    rw [he]; omega
  cases a with
  | schedule t who =>
    simp only [step] at h
    split at h
    · split at h
      · rename_i heq
        injection h with h; subst h; exact hset _ _ _ .woken heq rfl rfl
      · cases h
    · split at h
      · rename_i hall
        injection h with h; subst h
        intro n _
        right
        have h1 := all_awake hall
        have h2 := tot_alive s.workers
        have h3 := hn.wc
        have h4 := hw.wc
        have h5 := hw.leave
        dsimp only
        omega
      · cases h
  | clear =>
    injection h with h; subst h
    intro n hn'
    by_cases hq : s.queue = []
    · rcases hc n hn' with h1 | h1
      · left
        rw [← h1]
        refine Pool.cond_congr (s := s) ?_ ?_ ?_ _ <;> simp [hq]
      · exact Or.inr h1
    · right; exact hw.busy hq
  | resize n made => injection h with h; subst h; exact client2_resize hc hact hw.term hP made
  | resizeActive n =>
    injection h with h; subst h
    intro n hn'
    rw [Pool.cond_congr (s := s) (s' := s.resizeActive _) rfl rfl rfl]
    exact hc n hn'
  | terminateAll => exact absurd hP id
  | wait k =>
    injection h with h; subst h
    refine client2_list hc (fun k' hk => ?_)
    rcases List.mem_append.1 hk with h1 | h1
    · exact Or.inl h1
    · exact Or.inr (cond_waiting (List.mem_singleton.1 h1).symm)
  | clientSpurious j =>
    simp only [step] at h
    split at h
    · injection h with h; subst h
      refine client2_list hc (fun k' hk => ?_)
      rcases mem_set_waiting hk with h1 | h1
      · exact Or.inl h1
      · cases h1
    · cases h
  | clientResume j =>
    simp only [step] at h
    split at h
    · injection h with h; subst h
      refine client2_list hc (fun k' hk => ?_)
      rcases mem_set_waiting hk with h1 | h1
      · exact Or.inl h1
      · exact Or.inr (cond_waiting h1)
    · cases h
  | fetch i =>
    simp only [step] at h
    split at h
    · rename_i heq
      split at h
      · have := hw.target; omega
      · injection h with h; subst h; exact client2_tryFetch hw.target heq
    · cases h
  | spurious i =>
    simp only [step] at h
    split at h
    · rename_i heq
      injection h with h; subst h; exact hset _ _ _ .woken heq rfl rfl
    · cases h
  | resume i =>
    simp only [step] at h
    split at h
    · rename_i heq
      injection h with h; subst h
      exact client2_tryFetch (s := { s with act := s.act + 1 }) hw.target heq
    · cases h
  | finish i =>
    simp only [step] at h
    split at h
    · rename_i heq
      injection h with h; subst h; exact hset _ _ _ .ready heq rfl rfl
    · cases h
  | fail i made =>
    simp only [step] at h
    split at h
    · rename_i t heq
      injection h with h; subst h
      have hg : ClientInv2 { s.gone i with failed := s.failed ++ [t] } := client2_woken (cs := s.clients) rfl
      have ht := hw.term
      have hwc := hw.wc
      have ha : 0 < s.act := by
        have := tot_le (f := activeW) heq
        have e : activeW (.running t : WState T) = 1 := rfl
        rw [hn.act]; omega
      split
      · exact hg
      · exact client2_resize hg (by simp only [gone]; omega) ht (by simp only [gone]; omega) _
    · cases h
  | exit i =>
    simp only [step] at h
    split at h
    · injection h with h; subst h
      exact client2_woken (cs := s.clients) rfl
    · cases h

theorem client2_reach {push : Push T} {n made : Nat} (hn : 1 ≤ n) (hm : 1 ≤ made)
    {s : Pool T} (h : Reach push NoShrink (create n made) s) : ClientInv2 s := by
  induction h with
  | init =>
    intro m hm'
    have e : (create n made : Pool T).clients = [] := by
      unfold create resizeActive resize grow empty
      simp
    rw [e] at hm'
    simp at hm'
  | step h1 h2 h3 ih =>
    exact client2_step (counts_reach (counts_create n made) h1)
      (wake_reach (wake_create hn hm) (counts_create n made) (fun _ _ h => h) h1) ih h2 h3

/-- A client that has just been seen to have returned did so with its condition
true. -/
theorem returned_step {push : Push T} {s s' : Pool T} {a : Act T} (h : s.step push a = some s') {j : Nat}
    {k : CKind} (hj : s'.clients[j]? = some (.returned k)) :
    s.clients[j]? = some (.returned k) ∨ s'.cond k = true := by
  have wk : (s.clients.map wakeC)[j]? = some (.returned k) → s.clients[j]? = some (.returned k) := by
    intro h
    rw [List.getElem?_map] at h
    cases hc : s.clients[j]? with
    | none => rw [hc] at h; simp at h
    | some c =>
      rw [hc] at h
      cases c <;> simp [wakeC] at h
      rw [h]
  have hres : ∀ (s : Pool T) n made, (s.resize n made).clients = s.clients := by
    intro s n made
    unfold resize grow
    split
    · rfl
    · dsimp only; split <;> rfl
  have htry : ∀ (s : Pool T) i, (s.tryFetch i).clients = s.clients ∨
      (s.tryFetch i).clients = s.clients.map wakeC := by
    intro s i
    rcases tryFetch_cases s i with ⟨_, _, e⟩ | ⟨_, _, e⟩ | ⟨t, q, hq, _, e⟩ <;> rw [e]
    · exact Or.inl rfl
    · exact Or.inr rfl
    · exact Or.inl rfl
  cases a with
  | schedule t who =>
    simp only [step] at h
    split at h
    · split at h
      · injection h with h; subst h; exact Or.inl hj
      · cases h
    · split at h
      · injection h with h; subst h; exact Or.inl hj
      · cases h
  | resize n made => injection h with h; subst h; rw [hres] at hj; exact Or.inl hj
  | wait k' =>
    injection h with h; subst h
    dsimp only at hj
    by_cases hlt : j < s.clients.length
    · rw [List.getElem?_append_left hlt] at hj; exact Or.inl hj
    · rw [List.getElem?_append_right (by omega)] at hj
      right
      cases hjj : j - s.clients.length with
      | zero =>
        rw [hjj] at hj
        simp only [List.getElem?_cons_zero, Option.some.injEq] at hj
        cases hc : s.cond k' with
        | false => rw [hc] at hj; simp at hj
        | true =>
          rw [hc] at hj
          simp only [if_true, CState.returned.injEq] at hj
          subst hj
          rw [← hc]
          exact Pool.cond_congr rfl rfl rfl _
      | succ m => rw [hjj] at hj; simp at hj
  | clientSpurious j' =>
    simp only [step] at h
    split at h
    · injection h with h; subst h
      dsimp only at hj
      rw [List.getElem?_set] at hj
      split at hj
      · split at hj <;> simp at hj
      · exact Or.inl hj
    · cases h
  | clientResume j' =>
    simp only [step] at h
    split at h
    · rename_i k' heq
      injection h with h; subst h
      dsimp only at hj
      rw [List.getElem?_set] at hj
      split at hj
      · split at hj
        · right
          simp only [Option.some.injEq] at hj
          cases hc : s.cond k' with
          | false => rw [hc] at hj; simp at hj
          | true =>
            rw [hc] at hj
            simp only [if_true, CState.returned.injEq] at hj
            subst hj
            rw [← hc]
            exact Pool.cond_congr rfl rfl rfl _
        · cases hj
      · exact Or.inl hj
    · cases h
  | fetch i =>
    simp only [step] at h
    split at h
    · split at h
      · injection h with h; subst h; exact Or.inl hj
      · injection h with h; subst h
        rcases htry s i with e | e <;> rw [e] at hj
        · exact Or.inl hj
        · exact Or.inl (wk hj)
    · cases h
  | resume i =>
    simp only [step] at h
    split at h
    · injection h with h; subst h
      rcases htry { s with act := s.act + 1 } i with e | e <;> rw [e] at hj
      · exact Or.inl hj
      · exact Or.inl (wk hj)
    · cases h
  | fail i made =>
    simp only [step] at h
    split at h
    · injection h with h; subst h
      left
      split at hj
      · exact wk hj
      · rw [hres] at hj; exact wk hj
    · cases h
  | exit i =>
    simp only [step] at h
    split at h
    · injection h with h; subst h; exact Or.inl (wk hj)
    · cases h
  | spurious i =>
    simp only [step] at h
    split at h
    · injection h with h; subst h; exact Or.inl hj
    · cases h
  | finish i =>
    simp only [step] at h
    split at h
    · injection h with h; subst h; exact Or.inl hj
    · cases h
  | _ => injection h with h; subst h; exact Or.inl hj

/-- Worker steps do not change what clients asked for. -/
theorem worker_step {push : Push T} {s s' : Pool T} {a : Act T} (hw : WorkerAct a)
    (h : s.step push a = some s') : s'.scheduled = s.scheduled ∧ s'.target = s.target ∧
      s'.terminating = s.terminating ∧ s'.cleared = s.cleared := by
  have htry : ∀ (s : Pool T) i, (s.tryFetch i).scheduled = s.scheduled ∧ (s.tryFetch i).target = s.target ∧
      (s.tryFetch i).terminating = s.terminating ∧ (s.tryFetch i).cleared = s.cleared := by
    intro s i
    rcases tryFetch_cases s i with ⟨_, _, e⟩ | ⟨_, _, e⟩ | ⟨t, q, hq, _, e⟩ <;> rw [e] <;>
      exact ⟨rfl, rfl, rfl, rfl⟩
  cases a with
  | fetch i =>
    simp only [step] at h
    split at h
    · split at h
      · injection h with h; subst h; exact ⟨rfl, rfl, rfl, rfl⟩
      · injection h with h; subst h; exact htry s i
    · cases h
  | resume i =>
    simp only [step] at h
    split at h
    · injection h with h; subst h; exact htry { s with act := s.act + 1 } i
    · cases h
  | finish i =>
    simp only [step] at h
    split at h
    · injection h with h; subst h; exact ⟨rfl, rfl, rfl, rfl⟩
    · cases h
  | exit i =>
    simp only [step] at h
    split at h
    · injection h with h; subst h; exact ⟨rfl, rfl, rfl, rfl⟩
    · cases h
  | _ => exact absurd hw id

theorem worker_run {push : Push T} {as : List (Act T)} {s s' : Pool T} (hw : ∀ a ∈ as, WorkerAct a)
    (h : s.run push as = some s') : s'.scheduled = s.scheduled ∧ s'.target = s.target ∧
      s'.terminating = s.terminating ∧ s'.cleared = s.cleared := by
  induction as generalizing s with
  | nil => simp only [run, Option.some.injEq] at h; subst h; exact ⟨rfl, rfl, rfl, rfl⟩
  | cons a as ih =>
    simp only [run] at h
    cases hs : s.step push a with
    | none => rw [hs] at h; cases h
    | some s1 =>
      rw [hs] at h
      obtain ⟨a1, a2, a3, a4⟩ := worker_step (hw a (by simp)) hs
      obtain ⟨b1, b2, b3, b4⟩ := ih (fun b hb => hw b (by simp [hb])) h
      exact ⟨b1.trans a1, b2.trans a2, b3.trans a3, b4.trans a4⟩

/-- With nobody leaving and no surplus, worker steps keep the number of workers. -/
theorem keep_step {push : Push T} {s s' : Pool T} {a : Act T} (hw : WorkerAct a)
    (h : s.step push a = some s') (h1 : s.wc ≤ s.target) (h2 : tot leaveW s.workers = 0) :
    s'.wc = s.wc ∧ tot leaveW s'.workers = 0 := by
  have htry : ∀ (s : Pool T) i old, s.workers[i]? = some old → s.wc ≤ s.target →
      tot leaveW s.workers = 0 → (s.tryFetch i).wc = s.wc ∧ tot leaveW (s.tryFetch i).workers = 0 := by
    intro s i old hi h1 h2
    rcases tryFetch_cases s i with ⟨_, _, e⟩ | ⟨_, _, e⟩ | ⟨t, q, hq, _, e⟩
    · omega
    · rw [e]
      have := tot_set (f := leaveW) hi .waiting
      have e : leaveW (.waiting : WState T) = 0 := rfl
      exact ⟨rfl, by dsimp only; omega⟩
    · rw [e]
      have := tot_set (f := leaveW) hi (.running t)
      have e : leaveW (.running t : WState T) = 0 := rfl
      exact ⟨rfl, by dsimp only; omega⟩
  cases a with
  | fetch i =>
    simp only [step] at h
    split at h
    · rename_i heq
      split at h
      · omega
      · injection h with h; subst h; exact htry s i _ heq h1 h2
    · cases h
  | resume i =>
    simp only [step] at h
    split at h
    · rename_i heq
      injection h with h; subst h; exact htry { s with act := s.act + 1 } i _ heq h1 h2
    · cases h
  | finish i =>
    simp only [step] at h
    split at h
    · rename_i heq
      injection h with h; subst h
      have := tot_set (f := leaveW) heq .ready
      have e : leaveW (.ready : WState T) = 0 := rfl
      exact ⟨rfl, by dsimp only; omega⟩
    · cases h
  | exit i =>
    simp only [step] at h
    split at h
    · rename_i heq
      have := tot_le (f := leaveW) heq
      have e : leaveW (.leaving : WState T) = 1 := rfl
      omega
    · cases h
  | _ => exact absurd hw id

theorem keep_run {push : Push T} {as : List (Act T)} {s s' : Pool T} (hw : ∀ a ∈ as, WorkerAct a)
    (h : s.run push as = some s') (h1 : s.wc ≤ s.target) (h2 : tot leaveW s.workers = 0) :
    s'.wc = s.wc := by
  induction as generalizing s with
  | nil => simp only [run, Option.some.injEq] at h; subst h; rfl
  | cons a as ih =>
    simp only [run] at h
    cases hs : s.step push a with
    | none => rw [hs] at h; cases h
    | some s1 =>
      rw [hs] at h
      obtain ⟨a1, a2⟩ := keep_step (hw a (by simp)) hs h1 h2
      have := (worker_step (hw a (by simp)) hs).2.1
      rw [ih (fun b hb => hw b (by simp [hb])) h (by omega) a2, a1]

/-- Observer's records only grow, and at most one task is started per step. -/
theorem records_step {push : Push T} {s s' : Pool T} {a : Act T} (h : s.step push a = some s') :
    (s'.started = s.started ∨ ∃ t, s'.started = s.started ++ [t]) ∧
    s.finished.length + s.failed.length ≤ s'.finished.length + s'.failed.length ∧
    (s'.tact = s.tact ∨ ∃ n, a = .resizeActive n ∧ s'.tact = if (n : Int) < s.wc then (n : Int) else s.wc) := by
  have hres : ∀ (s : Pool T) n made, (s.resize n made).started = s.started ∧
      (s.resize n made).finished = s.finished ∧ (s.resize n made).failed = s.failed ∧
      (s.resize n made).tact = s.tact := by
    intro s n made
    unfold resize grow
    split
    · exact ⟨rfl, rfl, rfl, rfl⟩
    · dsimp only; split <;> exact ⟨rfl, rfl, rfl, rfl⟩
  have htry : ∀ (s : Pool T) i, ((s.tryFetch i).started = s.started ∨
      ∃ t, (s.tryFetch i).started = s.started ++ [t]) ∧
      (s.tryFetch i).finished = s.finished ∧ (s.tryFetch i).failed = s.failed ∧
      (s.tryFetch i).tact = s.tact := by
    intro s i
    rcases tryFetch_cases s i with ⟨_, _, e⟩ | ⟨_, _, e⟩ | ⟨t, q, hq, _, e⟩ <;> rw [e]
    · exact ⟨Or.inl rfl, rfl, rfl, rfl⟩
    · exact ⟨Or.inl rfl, rfl, rfl, rfl⟩
    · exact ⟨Or.inr ⟨t, rfl⟩, rfl, rfl, rfl⟩
  have triv : ∀ s' : Pool T, s'.started = s.started → s'.finished = s.finished → s'.failed = s.failed →
      s'.tact = s.tact → (s'.started = s.started ∨ ∃ t, s'.started = s.started ++ [t]) ∧
      s.finished.length + s.failed.length ≤ s'.finished.length + s'.failed.length ∧
      (s'.tact = s.tact ∨ ∃ n, a = .resizeActive n ∧ s'.tact = if (n : Int) < s.wc then (n : Int) else s.wc) := by
    intro s' h1 h2 h3 h4
    exact ⟨Or.inl h1, by rw [h2, h3]; exact Nat.le_refl _, Or.inl h4⟩
  cases a with
  | schedule t who =>
    simp only [step] at h
    split at h
    · split at h
      · injection h with h; subst h; exact triv _ rfl rfl rfl rfl
      · cases h
    · split at h
      · injection h with h; subst h; exact triv _ rfl rfl rfl rfl
      · cases h
  | fetch i =>
    simp only [step] at h
    split at h
    · split at h
      · injection h with h; subst h; exact triv _ rfl rfl rfl rfl
      · injection h with h; subst h
        obtain ⟨h1, h2, h3, h4⟩ := htry s i
        exact ⟨h1, by rw [h2, h3]; exact Nat.le_refl _, Or.inl h4⟩
    · cases h
  | resume i =>
    simp only [step] at h
    split at h
    · injection h with h; subst h
      obtain ⟨h1, h2, h3, h4⟩ := htry { s with act := s.act + 1 } i
      exact ⟨h1, by rw [h2, h3]; exact Nat.le_refl _, Or.inl h4⟩
    · cases h
  | fail i made =>
    simp only [step] at h
    split at h
    · rename_i t heq
      injection h with h; subst h
      have e : ∀ s' : Pool T, s'.started = s.started → s'.finished = s.finished → s'.failed = s.failed ++ [t] →
          s'.tact = s.tact → (s'.started = s.started ∨ ∃ t, s'.started = s.started ++ [t]) ∧
          s.finished.length + s.failed.length ≤ s'.finished.length + s'.failed.length ∧
          (s'.tact = s.tact ∨ ∃ n, (Act.fail i made : Act T) = .resizeActive n ∧
            s'.tact = if (n : Int) < s.wc then (n : Int) else s.wc) := by
        intro s' h1 h2 h3 h4
        refine ⟨Or.inl h1, ?_, Or.inl h4⟩
        rw [h2, h3]; simp
      split
      · exact e _ rfl rfl rfl rfl
      · obtain ⟨h1, h2, h3, h4⟩ := hres { s.gone i with failed := s.failed ++ [t] } ((s.gone i).wc + 1).toNat made
        exact e _ h1 h2 h3 h4
    · cases h
  | resize n made =>
    injection h with h; subst h
    obtain ⟨h1, h2, h3, h4⟩ := hres s n made
    exact triv _ h1 h2 h3 h4
  | resizeActive n =>
    injection h with h; subst h
    exact ⟨Or.inl rfl, Nat.le_refl _, Or.inr ⟨n, rfl, rfl⟩⟩
  | finish i =>
    simp only [step] at h
    split at h
    · injection h with h; subst h
      refine ⟨Or.inl rfl, ?_, Or.inl rfl⟩
      simp only [List.length_append]; omega
    · cases h
  | clientSpurious j =>
    simp only [step] at h
    split at h
    · injection h with h; subst h; exact triv _ rfl rfl rfl rfl
    · cases h
  | clientResume j =>
    simp only [step] at h
    split at h
    · injection h with h; subst h; exact triv _ rfl rfl rfl rfl
    · cases h
  | spurious i =>
    simp only [step] at h
    split at h
    · injection h with h; subst h; exact triv _ rfl rfl rfl rfl
    · cases h
  | exit i =>
    simp only [step] at h
    split at h
    · injection h with h; subst h; exact triv _ rfl rfl rfl rfl
    · cases h
  | _ => injection h with h; subst h; exact triv _ rfl rfl rfl rfl

/-- All workers asleep or gone: nobody can move. -/
theorem quiet_of_all {push : Push T} {s : Pool T} (h : ∀ w ∈ s.workers, w = .waiting ∨ w = .dead) :
    Quiet push s := by
  intro a ha
  cases a with
  | fetch i =>
    simp only [step]
    split
    · rename_i heq
      rcases h _ (List.mem_of_getElem? heq) with e | e <;> cases e
    · rfl
  | resume i =>
    simp only [step]
    split
    · rename_i heq
      rcases h _ (List.mem_of_getElem? heq) with e | e <;> cases e
    · rfl
  | finish i =>
    simp only [step]
    split
    · rename_i heq
      rcases h _ (List.mem_of_getElem? heq) with e | e <;> cases e
    · rfl
  | exit i =>
    simp only [step]
    split
    · rename_i heq
      rcases h _ (List.mem_of_getElem? heq) with e | e <;> cases e
    · rfl
  | _ => exact absurd ha id

theorem Reach.ofRun {push : Push T} {s s' : Pool T} (as : List (Act T)) (hr : s.run push as = some s') :
    Reach push (fun _ _ => True) s s' := Reach.run .init (fun _ _ _ => trivial) hr

theorem noShrink_worker {a : Act T} (h : WorkerAct a) (s : Pool T) : NoShrink s a := by
  cases a <;> first | exact trivial | exact absurd h id

theorem Reach.mono {push : Push T} {P Q : Pool T → Act T → Prop} (hPQ : ∀ s a, P s a → Q s a)
    {s s' : Pool T} (h : Reach push P s s') : Reach push Q s s' := by
  induction h with
  | init => exact .init
  | step _ h2 h3 ih => exact .step ih (hPQ _ _ h2) h3

/-- A step that starts a task finishes none. -/
theorem start_only {push : Push T} {s s' : Pool T} {a : Act T} (h : s.step push a = some s') {t : T}
    (hs : s'.started = s.started ++ [t]) : s'.finished = s.finished ∧ s'.failed = s.failed := by
  have no : ∀ l : List T, l = l ++ [t] → False := fun l h => by simpa using congrArg List.length h
  have hres : ∀ (s : Pool T) n made, (s.resize n made).started = s.started ∧
      (s.resize n made).finished = s.finished ∧ (s.resize n made).failed = s.failed := by
    intro s n made
    unfold Pool.resize grow
    split
    · exact ⟨rfl, rfl, rfl⟩
    · dsimp only
      split <;> exact ⟨rfl, rfl, rfl⟩
  have htry : ∀ (s : Pool T) i, (s.tryFetch i).finished = s.finished ∧ (s.tryFetch i).failed = s.failed := by
    intro s i
    rcases tryFetch_cases s i with ⟨_, _, e⟩ | ⟨_, _, e⟩ | ⟨t, q, hq, _, e⟩ <;> rw [e] <;> exact ⟨rfl, rfl⟩
  cases a with
  | fetch i =>
    simp only [step] at h
    split at h
    · split at h
      · injection h with h; subst h; exact ⟨rfl, rfl⟩
      · injection h with h; subst h; exact htry _ _
    · cases h
  | resume i =>
    simp only [step] at h
    split at h
    · injection h with h; subst h; exact htry _ _
    · cases h
  | schedule t who =>
    simp only [step] at h
    split at h
    · split at h
      · injection h with h; subst h; exact ⟨rfl, rfl⟩
      · cases h
    · split at h
      · injection h with h; subst h; exact ⟨rfl, rfl⟩
      · cases h
  | clear => injection h with h; subst h; exact ⟨rfl, rfl⟩
  | resize n made => injection h with h; subst h; exact (hres _ _ _).2
  | resizeActive n => injection h with h; subst h; exact ⟨rfl, rfl⟩
  | terminateAll => injection h with h; subst h; exact ⟨rfl, rfl⟩
  | wait k => injection h with h; subst h; exact ⟨rfl, rfl⟩
  | finish i =>
    simp only [step] at h
    split at h
    · injection h with h; subst h; exact absurd hs (no _)
    · cases h
  | fail i made =>
    simp only [step] at h
    split at h
    · injection h with h; subst h
      exfalso
      split at hs
      · exact no _ hs
      · rw [(hres _ _ _).1] at hs
        exact no _ hs
    · cases h
  | exit i | spurious i | clientResume i | clientSpurious i =>
    simp only [step] at h
    split at h
    · injection h with h; subst h; exact ⟨rfl, rfl⟩
    · cases h

end SpatialOps.Threads
