import Verif.Threads.Tasks

/-!
# Wake-ups, termination of workers, progress
-/

namespace SpatialOps.Threads
open Pool
variable {T : Type}

/-- Weight: asleep. -/
def sleepW : WState T → Nat
  | .waiting => 1
  | _ => 0
/-- Weight: on its way out. -/
def leaveW : WState T → Nat
  | .leaving => 1
  | _ => 0
/-- Weight: going to look at the queue again. -/
def busyW : WState T → Nat
  | .ready => 1
  | .running _ => 1
  | .woken => 1
  | _ => 0
/-- Weight of a worker in the progress measure. -/
def stepsW : WState T → Nat
  | .running _ => 3
  | .ready => 2
  | .woken => 2
  | .leaving => 1
  | _ => 0

/-- A worker that is not dead is asleep, leaving or busy. -/
theorem tot_alive (ws : List (WState T)) :
    tot aliveW ws = tot sleepW ws + tot leaveW ws + tot busyW ws := by
  induction ws with
  | nil => rfl
  | cons w ws ih =>
    simp only [tot, List.map_cons, List.sum_cons] at *
    cases w <;> simp only [aliveW, sleepW, leaveW, busyW] <;> omega

theorem tot_active (ws : List (WState T)) :
    tot activeW ws ≤ tot leaveW ws + tot busyW ws := by
  induction ws with
  | nil => exact Nat.le_refl _
  | cons w ws ih =>
    simp only [tot, List.map_cons, List.sum_cons] at *
    cases w <;> simp only [activeW, leaveW, busyW] <;> omega

theorem tot_sleep_wake (ws : List (WState T)) : tot sleepW (ws.map wakeW) = 0 := by
  induction ws with
  | nil => rfl
  | cons w ws ih =>
    simp only [tot, List.map_cons, List.sum_cons] at *
    cases w <;> simp only [wakeW, sleepW] <;> omega

theorem all_awake {ws : List (WState T)}
    (h : ws.all (fun w => match w with | .waiting => false | _ => true) = true) : tot sleepW ws = 0 := by
  induction ws with
  | nil => rfl
  | cons w ws ih =>
    simp only [List.all_cons, Bool.and_eq_true] at h
    have := ih h.2
    simp only [tot, List.map_cons, List.sum_cons] at *
    cases w <;> simp_all [sleepW]

/-- Shrinking leaves nobody asleep, so every surplus worker will look at the target. -/
structure ShrinkInv (s : Pool T) : Prop where
  target : 0 ≤ s.target
  term : s.terminating = true → s.target = 0
  awake : s.target < s.wc → tot sleepW s.workers = 0

theorem shrink_resize {s : Pool T} (h : ShrinkInv s) (n made : Nat) : ShrinkInv (s.resize n made) := by
  unfold resize
  split
  · exact h
  · rename_i ht
    dsimp only
    split
    · rename_i hle
      refine ⟨by simp [grow], fun h' => absurd h' ht, fun hlt => ?_⟩
      dsimp only [grow] at *
      omega
    · exact ⟨by simp, fun h' => absurd h' ht, fun _ => tot_sleep_wake _⟩

theorem shrink_tryFetch {s : Pool T} (h : ShrinkInv s) {i : Nat} {old : WState T}
    (hi : s.workers[i]? = some old) : ShrinkInv (s.tryFetch i) := by
  have hz : ∀ new : WState T, sleepW new = 0 → s.target < s.wc → tot sleepW (s.workers.set i new) = 0 := by
    intro new hn hlt
    have := tot_set (f := sleepW) hi new
    have := h.awake hlt
    omega
  rcases tryFetch_cases s i with ⟨_, _, e⟩ | ⟨_, hle, e⟩ | ⟨t, q, hq, _, e⟩ <;> rw [e]
  · exact ⟨h.target, h.term, hz _ rfl⟩
  · exact ⟨h.target, h.term, fun hlt => by dsimp only at hlt; omega⟩
  · exact ⟨h.target, h.term, hz _ rfl⟩

theorem shrink_gone {s : Pool T} (h : ShrinkInv s) {i : Nat} {old : WState T}
    (hi : s.workers[i]? = some old) : ShrinkInv (s.gone i) := by
  refine ⟨h.target, h.term, fun hlt => ?_⟩
  dsimp only [gone] at *
  have := tot_set (f := sleepW) hi .dead
  have := h.awake (by omega)
  have e : sleepW (.dead : WState T) = 0 := rfl
  omega

theorem shrink_step {push : Push T} {s s' : Pool T} {a : Act T} (hc : ShrinkInv s)
    (h : s.step push a = some s') : ShrinkInv s' := by
  have hset : ∀ (s' : Pool T) (i : Nat) (old new : WState T), s.workers[i]? = some old → sleepW new = 0 →
      s'.wc = s.wc → s'.target = s.target → s'.terminating = s.terminating →
      s'.workers = s.workers.set i new → ShrinkInv s' := by
    intro s' i old new hi hn h1 h2 h3 h4
    refine ⟨h2 ▸ hc.target, fun ht => h2 ▸ hc.term (h3 ▸ ht), fun hlt => ?_⟩
    have := tot_set (f := sleepW) hi new
    have := hc.awake (by omega)
    rw [h4]; omega
  have same : ∀ s' : Pool T, s'.wc = s.wc → s'.target = s.target → s'.terminating = s.terminating →
      s'.workers = s.workers → ShrinkInv s' := by
    intro s' h1 h2 h3 h4
    exact ⟨h2 ▸ hc.target, fun ht => h2 ▸ hc.term (h3 ▸ ht), fun hlt => by
      rw [h4]; exact hc.awake (by omega)⟩
  cases a with
  | schedule t who =>
    simp only [step] at h
    split at h
    · split at h
      · rename_i heq
        injection h with h; subst h; exact hset _ _ _ .woken heq rfl rfl rfl rfl rfl
      · cases h
    · split at h
      · injection h with h; subst h; exact same _ rfl rfl rfl rfl
      · cases h
  | clear => injection h with h; subst h; exact same _ rfl rfl rfl rfl
  | resize n made => injection h with h; subst h; exact shrink_resize hc n made
  | resizeActive n => injection h with h; subst h; exact same _ rfl rfl rfl rfl
  | terminateAll =>
    injection h with h; subst h
    exact ⟨by simp, fun _ => rfl, fun _ => tot_sleep_wake _⟩
  | wait k => injection h with h; subst h; exact same _ rfl rfl rfl rfl
  | clientSpurious j =>
    simp only [step] at h
    split at h
    · injection h with h; subst h; exact same _ rfl rfl rfl rfl
    · cases h
  | clientResume j =>
    simp only [step] at h
    split at h
    · injection h with h; subst h; exact same _ rfl rfl rfl rfl
    · cases h
  | fetch i =>
    simp only [step] at h
    split at h
    · rename_i heq
      split at h
      · injection h with h; subst h; exact hset _ _ _ .leaving heq rfl rfl rfl rfl rfl
      · injection h with h; subst h; exact shrink_tryFetch hc heq
    · cases h
  | spurious i =>
    simp only [step] at h
    split at h
    · rename_i heq
      injection h with h; subst h; exact hset _ _ _ .woken heq rfl rfl rfl rfl rfl
    · cases h
  | resume i =>
    simp only [step] at h
    split at h
    · rename_i heq
      injection h with h; subst h
      exact shrink_tryFetch (s := { s with act := s.act + 1 }) (same _ rfl rfl rfl rfl) heq
    · cases h
  | finish i =>
    simp only [step] at h
    split at h
    · rename_i heq
      injection h with h; subst h; exact hset _ _ _ .ready heq rfl rfl rfl rfl rfl
    · cases h
  | fail i made =>
    simp only [step] at h
    split at h
    · rename_i t heq
      injection h with h; subst h
      have hg := shrink_gone hc heq
      have hg' : ShrinkInv { s.gone i with failed := s.failed ++ [t] } := ⟨hg.target, hg.term, hg.awake⟩
      split
      · exact hg'
      · exact shrink_resize hg' _ _
    · cases h
  | exit i =>
    simp only [step] at h
    split at h
    · rename_i heq
      injection h with h; subst h
      exact shrink_gone hc heq
    · cases h

theorem shrink_create (n made : Nat) : ShrinkInv (create n made : Pool T) := by
  have h : ShrinkInv (empty : Pool T) := ⟨Int.le_refl _, (fun h => by cases h), fun _ => rfl⟩
  have := shrink_resize h n made
  exact ⟨this.target, this.term, this.awake⟩

theorem shrink_reach {push : Push T} {P : Pool T → Act T → Prop} {s0 s : Pool T} (h0 : ShrinkInv s0)
    (h : Reach push P s0 s) : ShrinkInv s := by
  induction h with
  | init => exact h0
  | step _ _ h3 ih => exact shrink_step ih h3

/-- While the pool does not shrink, pending tasks always have a worker that will
look at the queue. -/
structure WakeInv (s : Pool T) : Prop where
  wc : 1 ≤ s.wc
  target : s.wc ≤ s.target
  tact : 1 ≤ s.tact
  leave : tot leaveW s.workers = 0
  term : s.terminating = false
  busy : s.queue ≠ [] → 0 < tot busyW s.workers

theorem wake_resize {s : Pool T} (h : WakeInv s) {n : Nat} (hn : s.wc ≤ n) (made : Nat) :
    WakeInv (s.resize n made) := by
  unfold resize
  rw [if_neg (by simp [h.term])]
  dsimp only
  rw [if_pos hn]
  have := h.wc
  refine ⟨?_, ?_, h.tact, ?_, h.term, fun hq => ?_⟩ <;> dsimp only [grow]
  · omega
  · omega
  · rw [tot_append, h.leave]; simp [leaveW]
  · have := h.busy hq
    rw [tot_append]; omega

theorem wake_tryFetch {s : Pool T} (hw : 1 ≤ s.wc) (htg : s.wc ≤ s.target) (hta : 1 ≤ s.tact)
    (hl : tot leaveW s.workers = 0) (htm : s.terminating = false) {i : Nat} {old : WState T}
    (hi : s.workers[i]? = some old) (hb : busyW old = 1)
    (ha : s.act ≤ tot busyW s.workers) : WakeInv (s.tryFetch i) := by
  have hlo : leaveW old = 0 := by
    have := tot_le (f := leaveW) hi
    omega
  rcases tryFetch_cases s i with ⟨_, _, e⟩ | ⟨hq, hle, e⟩ | ⟨t, q, hq, _, e⟩
  · omega
  · rw [e]
    refine ⟨hw, htg, hta, ?_, htm, fun hne => ?_⟩ <;> dsimp only
    · have := tot_set (f := leaveW) hi .waiting
      have e : leaveW (.waiting : WState T) = 0 := rfl
      omega
    · have h1 : s.tact < s.act := hq.resolve_left hne
      have := tot_set (f := busyW) hi .waiting
      have e : busyW (.waiting : WState T) = 0 := rfl
      omega
  · rw [e]
    refine ⟨hw, htg, hta, ?_, htm, fun _ => ?_⟩ <;> dsimp only
    · have := tot_set (f := leaveW) hi (.running t)
      have e : leaveW (.running t : WState T) = 0 := rfl
      omega
    · have := tot_set (f := busyW) hi (.running t)
      have := tot_le (f := busyW) hi
      have e : busyW (.running t : WState T) = 1 := rfl
      omega

theorem wake_step {push : Push T} {s s' : Pool T} {a : Act T} (hn : Counts s) (hc : WakeInv s)
    (hP : NoShrink s a) (h : s.step push a = some s') : WakeInv s' := by
  have hact : s.act ≤ tot busyW s.workers := by
    have := tot_active s.workers
    have := hc.leave
    rw [hn.act]; omega
  have hset : ∀ (s' : Pool T) (i : Nat) (old new : WState T), s.workers[i]? = some old →
      leaveW new = 0 → busyW new = 1 →
      s'.wc = s.wc → s'.target = s.target → s'.tact = s.tact → s'.terminating = s.terminating →
      s'.workers = s.workers.set i new → WakeInv s' := by
    intro s' i old new hi hl hb h1 h2 h3 h4 h5
    refine ⟨h1 ▸ hc.wc, by rw [h1, h2]; exact hc.target, h3 ▸ hc.tact, ?_, h4 ▸ hc.term, fun _ => ?_⟩
    · have := tot_set (f := leaveW) hi new
      have := hc.leave
      rw [h5]; omega
    · have := tot_le (f := busyW) hi
      have := tot_set (f := busyW) hi new
      rw [h5]; omega
  have same : ∀ s' : Pool T, s'.wc = s.wc → s'.target = s.target → 1 ≤ s'.tact →
      s'.terminating = s.terminating → (s'.queue ≠ [] → s.queue ≠ []) →
      s'.workers = s.workers → WakeInv s' := by
    intro s' h1 h2 h3 h4 h5 h6
    exact ⟨h1 ▸ hc.wc, by rw [h1, h2]; exact hc.target, h3, h6 ▸ hc.leave, h4 ▸ hc.term,
      fun hq => h6 ▸ hc.busy (h5 hq)⟩
  cases a with
  | schedule t who =>
    simp only [step] at h
    split at h
    · split at h
      · rename_i heq
        injection h with h; subst h; exact hset _ _ _ .woken heq rfl rfl rfl rfl rfl rfl rfl
      · cases h
    · split at h
      · rename_i hall
        injection h with h; subst h
        refine ⟨hc.wc, hc.target, hc.tact, hc.leave, hc.term, fun _ => ?_⟩
        have h1 := all_awake hall
        have h2 := tot_alive s.workers
        have h3 := hn.wc
        have h4 := hc.wc
        have h5 := hc.leave
        dsimp only
        omega
      · cases h
  | clear =>
    injection h with h; subst h
    exact same _ rfl rfl hc.tact rfl (fun h => absurd rfl h) rfl
  | resize n made => injection h with h; subst h; exact wake_resize hc hP made
  | resizeActive n =>
    injection h with h; subst h
    refine same _ rfl rfl ?_ rfl id rfl
    have : 1 ≤ n := hP
    have := hc.wc
    dsimp only [resizeActive]
    split <;> omega
  | terminateAll => exact absurd hP id
  | wait k => injection h with h; subst h; exact same _ rfl rfl hc.tact rfl id rfl
  | clientSpurious j =>
    simp only [step] at h
    split at h
    · injection h with h; subst h; exact same _ rfl rfl hc.tact rfl id rfl
    · cases h
  | clientResume j =>
    simp only [step] at h
    split at h
    · injection h with h; subst h; exact same _ rfl rfl hc.tact rfl id rfl
    · cases h
  | fetch i =>
    simp only [step] at h
    split at h
    · rename_i heq
      split at h
      · have := hc.target; omega
      · injection h with h; subst h
        exact wake_tryFetch hc.wc hc.target hc.tact hc.leave hc.term heq rfl hact
    · cases h
  | spurious i =>
    simp only [step] at h
    split at h
    · rename_i heq
      injection h with h; subst h; exact hset _ _ _ .woken heq rfl rfl rfl rfl rfl rfl rfl
    · cases h
  | resume i =>
    simp only [step] at h
    split at h
    · rename_i heq
      injection h with h; subst h
      refine wake_tryFetch (s := { s with act := s.act + 1 }) hc.wc hc.target hc.tact hc.leave hc.term heq rfl ?_
      dsimp only
      -- the woken worker itself is busy but not active
      have h1 := tot_set (f := activeW) heq .ready
      have h2 := tot_set (f := busyW) heq .ready
      have h3 := tot_set (f := leaveW) heq .ready
      have h4 := tot_active (s.workers.set i .ready)
      have h5 := hn.act
      have h6 := hc.leave
      simp only [activeW, busyW, leaveW] at h1 h2 h3
      omega
    · cases h
  | finish i =>
    simp only [step] at h
    split at h
    · rename_i heq
      injection h with h; subst h; exact hset _ _ _ .ready heq rfl rfl rfl rfl rfl rfl rfl
    · cases h
  | fail i made =>
    simp only [step] at h
    split at h
    · rename_i t heq
      injection h with h; subst h
      have hm : 1 ≤ made := hP
      have ht := hc.term
      have hwc := hc.wc
      have hl := tot_set (f := leaveW) heq .dead
      have hl0 := hc.leave
      simp only [leaveW] at hl
      have e1 : s.wc - 1 + 1 = s.wc := by omega
      have e2 : ((s.wc.toNat : Nat) : Int) = s.wc := by omega
      unfold resize
      simp only [gone, ht, Bool.false_eq_true, if_false, e1, e2]
      rw [if_pos (by omega)]
      have e3 : min made (s.wc - (s.wc - 1)).toNat = 1 := by omega
      rw [e3]
      refine ⟨?_, ?_, hc.tact, ?_, rfl, fun _ => ?_⟩ <;> dsimp only [grow]
      · omega
      · omega
      · rw [tot_append]; simp only [leaveW]; omega
      · rw [tot_append]; simp only [busyW]; omega
    · cases h
  | exit i =>
    simp only [step] at h
    split at h
    · rename_i heq
      have h1 := tot_le (f := leaveW) heq
      have h2 := hc.leave
      simp only [leaveW] at h1
      omega
    · cases h

theorem wake_create {n made : Nat} (hn : 1 ≤ n) (hm : 1 ≤ made) : WakeInv (create n made : Pool T) := by
  have e : (empty : Pool T).resize n made = grow { (empty : Pool T) with target := n } (min made n) := by
    unfold resize
    rw [if_neg (by simp [empty])]
    dsimp only
    rw [if_pos (by simp [empty])]
    simp [empty]
  unfold create
  rw [e]
  refine ⟨?_, ?_, ?_, ?_, rfl, fun h => absurd rfl h⟩
  · simp only [resizeActive, grow, empty]; omega
  · simp only [resizeActive, grow, empty]; omega
  · have key : ∀ x : Int, 1 ≤ x → 1 ≤ if (n : Int) < x then (n : Int) else x := by
      intro x hx; split <;> omega
    exact key _ (by simp only [grow, empty]; omega)
  · simp only [resizeActive, grow, empty, tot_append, leaveW]; simp [tot]

theorem wake_reach {push : Push T} {P : Pool T → Act T → Prop} {s0 s : Pool T} (h0 : WakeInv s0)
    (hn0 : Counts s0) (hP : ∀ s a, P s a → NoShrink s a) (h : Reach push P s0 s) : WakeInv s := by
  induction h with
  | init => exact h0
  | step h1 h2 h3 ih => exact wake_step (counts_reach hn0 h1) ih (hP _ _ h2) h3

/-! ## Progress -/

/-- Bound on the number of steps the workers can take by themselves. -/
def fuel (s : Pool T) : Nat := 4 * s.queue.length + tot stepsW s.workers

theorem fuel_tryFetch {s : Pool T} {i : Nat} {old : WState T} (hi : s.workers[i]? = some old)
    (ho : stepsW old = 2) : fuel (s.tryFetch i) < fuel s := by
  unfold fuel
  rcases tryFetch_cases s i with ⟨_, _, e⟩ | ⟨_, _, e⟩ | ⟨t, q, hq, _, e⟩ <;> rw [e]
  · have := tot_set (f := stepsW) hi .leaving
    rw [ho] at this
    simp only [stepsW] at this ⊢
    omega
  · have := tot_set (f := stepsW) hi .waiting
    rw [ho] at this
    simp only [stepsW] at this ⊢
    omega
  · have := tot_set (f := stepsW) hi (.running t)
    rw [ho] at this
    simp only [stepsW] at this ⊢
    rw [hq, List.length_cons]; omega

theorem fuel_step {push : Push T} {s s' : Pool T} {a : Act T} (hw : WorkerAct a)
    (h : s.step push a = some s') : fuel s' < fuel s := by
  cases a with
  | fetch i =>
    simp only [step] at h
    split at h
    · rename_i heq
      split at h
      · injection h with h; subst h
        have := tot_set (f := stepsW) heq .leaving
        simp only [stepsW] at this
        unfold fuel; dsimp only; omega
      · injection h with h; subst h; exact fuel_tryFetch heq rfl
    · cases h
  | resume i =>
    simp only [step] at h
    split at h
    · rename_i heq
      injection h with h; subst h
      exact fuel_tryFetch (s := { s with act := s.act + 1 }) heq rfl
    · cases h
  | finish i =>
    simp only [step] at h
    split at h
    · rename_i heq
      injection h with h; subst h
      have := tot_set (f := stepsW) heq .ready
      simp only [stepsW] at this
      unfold fuel; dsimp only; omega
    · cases h
  | exit i =>
    simp only [step] at h
    split at h
    · rename_i heq
      injection h with h; subst h
      have := tot_set (f := stepsW) heq .dead
      simp only [stepsW] at this
      unfold fuel gone; dsimp only; omega
    · cases h
  | _ => exact absurd hw id

theorem fuel_run {push : Push T} {as : List (Act T)} {s s' : Pool T} (hw : ∀ a ∈ as, WorkerAct a)
    (h : s.run push as = some s') : as.length + fuel s' ≤ fuel s := by
  induction as generalizing s with
  | nil => simp only [run, Option.some.injEq] at h; subst h; simp
  | cons a as ih =>
    simp only [run] at h
    cases hs : s.step push a with
    | none => rw [hs] at h; cases h
    | some s1 =>
      rw [hs] at h
      have h1 := fuel_step (hw a (by simp)) hs
      have h2 := ih (fun b hb => hw b (by simp [hb])) h
      rw [List.length_cons]; omega

/-- When no worker can move, all are asleep or gone. -/
theorem quiet_busy {push : Push T} {s : Pool T} (h : Quiet push s) :
    tot busyW s.workers = 0 ∧ tot leaveW s.workers = 0 := by
  constructor
  · apply Nat.eq_zero_of_not_pos
    intro hp
    obtain ⟨i, w, h1, h2⟩ := tot_pos hp
    cases w with
    | ready =>
      have := h (.fetch i) trivial
      simp only [step, h1] at this
      split at this <;> cases this
    | woken =>
      have := h (.resume i) trivial
      simp [step, h1] at this
    | running t =>
      have := h (.finish i) trivial
      simp [step, h1] at this
    | _ => simp [busyW] at h2
  · apply Nat.eq_zero_of_not_pos
    intro hp
    obtain ⟨i, w, h1, h2⟩ := tot_pos hp
    cases w with
    | leaving =>
      have := h (.exit i) trivial
      simp [step, h1] at this
    | _ => simp [leaveW] at h2

theorem Reach.run {push : Push T} {P : Pool T → Act T → Prop} {s0 s s' : Pool T} {as : List (Act T)}
    (h : Reach push P s0 s) (hP : ∀ a ∈ as, ∀ s, P s a) (hr : s.run push as = some s') :
    Reach push P s0 s' := by
  induction as generalizing s with
  | nil => simp only [Pool.run, Option.some.injEq] at hr; subst hr; exact h
  | cons a as ih =>
    simp only [Pool.run] at hr
    cases hs : s.step push a with
    | none => rw [hs] at hr; cases hr
    | some s1 =>
      rw [hs] at hr
      exact ih (h.step (hP a (by simp) s) hs) (fun b hb => hP b (by simp [hb])) hr

theorem running_nil_of_busy {ws : List (WState T)} (h : tot busyW ws = 0) : runningTasks ws = [] := by
  induction ws with
  | nil => rfl
  | cons w ws ih =>
    simp only [tot, List.map_cons, List.sum_cons] at *
    have := ih (by omega)
    cases w <;> simp_all [runningTasks, busyW]

theorem running_nil_of_active {ws : List (WState T)} (h : tot activeW ws = 0) : runningTasks ws = [] := by
  induction ws with
  | nil => rfl
  | cons w ws ih =>
    simp only [tot, List.map_cons, List.sum_cons] at *
    have := ih (by omega)
    cases w <;> simp_all [runningTasks, activeW]

theorem running_le_active (ws : List (WState T)) : (runningTasks ws).length ≤ tot activeW ws := by
  induction ws with
  | nil => exact Nat.le_refl _
  | cons w ws ih =>
    simp only [tot, List.map_cons, List.sum_cons, runningTasks] at *
    cases w <;> simp only [List.filterMap_cons, activeW, List.length_cons] <;> omega

end SpatialOps.Threads
