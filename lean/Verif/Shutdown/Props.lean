import Verif.Shutdown.Progress

/-!
# Property theorems for shutting a thread pool down: C62

A thread pool is shut down when the last copy of its object is destroyed. In a state
`s` reachable from a pool of `n` threads, of which the system granted `made`, `s.atCall`
is the state of the pool when `shutdown()` was called, and `s.phase = .done` says that
`shutdown()` has returned. Other threads may do anything at any moment unless a
restriction `P` is named.
-/

namespace SpatialOps
open Threads Threads.Pool Shutdown
variable {T : Type}

/-- C62. `wait_for_all_tasks`, the policy of all three pool types: when `shutdown()` has
returned, every task handed over before the call has finished, has thrown or was
discarded by another thread; no worker thread is left and no task is being executed. -/
theorem C62_waits_for_all_tasks {push : Push T} (hp : Keeps push) {P : Sys T → Act T → Prop} {n made : Nat} {s : Sys T}
    (h : SReach push .allTasks P (Sys.create n made) s) (hd : s.phase = .done) :
    ∃ p, s.atCall = some p ∧ p.scheduled.Subperm (s.pool.finished ++ s.pool.failed ++ s.pool.cleared) ∧
      liveWorkers s.pool.workers = 0 ∧ runningTasks s.pool.workers = [] := by
  have hi := inv_reach hp h
  unfold SInv at hi
  rw [hd] at hi
  obtain ⟨_, p, h2, _, h4⟩ := hi
  obtain ⟨h5, h6⟩ := h4 (by decide)
  exact ⟨p, h2, h5.all, live_of_dead h6, running_of_dead h6⟩

/-- Tasks handed over and discarded, when nobody discards and nobody hands over during
the shutdown. -/
theorem Shutdown.quiet_clients {push : Push T} {P : Sys T → Act T → Prop} {n made : Nat} {s : Sys T}
    (hP : ∀ s a, P s a → NobodyClears s a ∧ NobodySchedules s a)
    (h : SReach push .allTasks P (Sys.create n made) s) :
    s.pool.cleared = [] ∧ (s.phase ≠ .idle → ∃ p, s.atCall = some p ∧ s.pool.scheduled = p.scheduled) := by
  induction h with
  | init => exact ⟨by show (Pool.create n made : Pool T).cleared = []; unfold create resizeActive Pool.resize grow empty; simp,
      fun h => absurd rfl h⟩
  | @pool s s' a h1 h2 h3 ih =>
    obtain ⟨_, p, h4, rfl⟩ := step_pool h3
    obtain ⟨c1, c2⟩ := hP _ _ h2
    have key : p.cleared = s.pool.cleared ∧ (s.phase ≠ .idle → p.scheduled = s.pool.scheduled) := by
      have hres : ∀ (s : Pool T) n made, (s.resize n made).cleared = s.cleared ∧
          (s.resize n made).scheduled = s.scheduled := by
        intro s n made
        unfold Pool.resize Pool.grow
        split
        · exact ⟨rfl, rfl⟩
        · dsimp only; split <;> exact ⟨rfl, rfl⟩
      by_cases hw : WorkerAct a
      · obtain ⟨w1, _, _, w4⟩ := worker_step hw h4
        exact ⟨w4, fun _ => w1⟩
      · cases a with
        | clear => exact absurd c1 id
        | schedule t who =>
          refine ⟨?_, fun hne => absurd c2 hne⟩
          simp only [step] at h4
          split at h4
          · split at h4
            · injection h4 with h4; subst h4; rfl
            · cases h4
          · split at h4
            · injection h4 with h4; subst h4; rfl
            · cases h4
        | resize m made =>
          injection h4 with h4; subst h4
          exact ⟨(hres _ _ _).1, fun _ => (hres _ _ _).2⟩
        | fail i made =>
          simp only [step] at h4
          split at h4
          · injection h4 with h4; subst h4
            split
            · exact ⟨rfl, fun _ => rfl⟩
            · exact ⟨(hres _ _ _).1, fun _ => (hres _ _ _).2⟩
          · cases h4
        | clientSpurious j =>
          simp only [step] at h4
          split at h4
          · injection h4 with h4; subst h4; exact ⟨rfl, fun _ => rfl⟩
          · cases h4
        | clientResume j =>
          simp only [step] at h4
          split at h4
          · injection h4 with h4; subst h4; exact ⟨rfl, fun _ => rfl⟩
          · cases h4
        | spurious i =>
          simp only [step] at h4
          split at h4
          · injection h4 with h4; subst h4; exact ⟨rfl, fun _ => rfl⟩
          · cases h4
        | resizeActive n => injection h4 with h4; subst h4; exact ⟨rfl, fun _ => rfl⟩
        | terminateAll => injection h4 with h4; subst h4; exact ⟨rfl, fun _ => rfl⟩
        | wait k => injection h4 with h4; subst h4; exact ⟨rfl, fun _ => rfl⟩
        | fetch i => exact absurd trivial hw
        | resume i => exact absurd trivial hw
        | finish i => exact absurd trivial hw
        | exit i => exact absurd trivial hw
    refine ⟨key.1.trans ih.1, fun hne => ?_⟩
    obtain ⟨q, q1, q2⟩ := ih.2 hne
    exact ⟨q, q1, (key.2 hne).trans q2⟩
  | @call s s' h1 h3 ih =>
    obtain ⟨hph, p, ⟨_, h4, rfl⟩ | ⟨hpol, h4, rfl⟩⟩ := step_call h3
    · injection h4 with h4; subst h4
      exact ⟨ih.1, fun _ => ⟨s.pool, rfl, rfl⟩⟩
    · exact absurd rfl hpol
  | @proceed s s' h1 h3 ih =>
    rcases step_proceed h3 with ⟨hph, hpol, p, h4, rfl⟩ | ⟨hph, _, p, h4, rfl⟩ | ⟨j, hph, _, p, p', h4, h5, rfl⟩ | ⟨j, hph, _, rfl⟩
    · cases hpol
    · injection h4 with h4; subst h4
      exact ⟨ih.1, fun _ => ih.2 (by rw [hph]; nofun)⟩
    · injection h4 with h4; subst h4
      injection h5 with h5; subst h5
      exact ⟨ih.1, fun _ => ih.2 (by rw [hph]; nofun)⟩
    · exact ⟨ih.1, fun _ => ih.2 (by rw [hph]; nofun)⟩

/-- C62. `wait_for_all_tasks`, if no other thread discards tasks or hands tasks over
during the shutdown: when `shutdown()` has returned every task ever handed to the pool
has been executed, exactly once, and none is pending. -/
theorem C62_every_task_executed {push : Push T} (hp : Keeps push) {P : Sys T → Act T → Prop}
    (hP : ∀ s a, P s a → NobodyClears s a ∧ NobodySchedules s a) {n made : Nat} {s : Sys T}
    (h : SReach push .allTasks P (Sys.create n made) s) (hd : s.phase = .done) :
    s.pool.scheduled.Perm (s.pool.finished ++ s.pool.failed) ∧ s.pool.queue = [] := by
  obtain ⟨p, h1, h2, _, h4⟩ := C62_waits_for_all_tasks hp h hd
  obtain ⟨c1, c2⟩ := quiet_clients hP h
  obtain ⟨p', c3, c4⟩ := c2 (by rw [hd]; nofun)
  rw [h1] at c3
  injection c3 with c3
  subst c3
  obtain ⟨p1, p2⟩ := C34_exactly_once hp (pool_reach h)
  rw [c1, List.append_nil] at h2 p1
  rw [h4, List.append_nil] at p2
  rw [← c4] at h2
  have hle := h2.length_le
  have l1 := p1.length_eq
  have l2 := p2.length_eq
  simp only [List.length_append] at hle l1 l2
  have hq : s.pool.queue = [] := List.length_eq_zero_iff.1 (by omega)
  rw [hq, List.append_nil] at p1
  exact ⟨p1.trans p2, hq⟩

/-- C62. `wait_for_active_tasks`: when `shutdown()` has returned, every task started
before the call has finished or thrown, every task pending at the call was discarded (in
the order in which they were pending), and no worker thread is left. -/
theorem C62_waits_for_active_tasks {push : Push T} (hp : Keeps push) {P : Sys T → Act T → Prop} {n made : Nat} {s : Sys T}
    (h : SReach push .activeTasks P (Sys.create n made) s) (hd : s.phase = .done) :
    ∃ p, s.atCall = some p ∧ p.started.Subperm (s.pool.finished ++ s.pool.failed) ∧
      (p.cleared ++ p.queue) <+: s.pool.cleared ∧
      liveWorkers s.pool.workers = 0 ∧ runningTasks s.pool.workers = [] := by
  have hi := inv_reach hp h
  unfold SInv at hi
  rw [hd] at hi
  obtain ⟨_, p, h2, h3, h4⟩ := hi
  obtain ⟨h5, h6⟩ := h4 (by decide)
  exact ⟨p, h2, h5.started, h3.dropped (by decide), live_of_dead h6, running_of_dead h6⟩

/-- C62. `immediately`: every task pending at the call is discarded, and no task being
executed is cut short: when the workers have come to rest, each task started before the
call has finished or thrown and no worker thread is left. -/
theorem C62_immediately {push : Push T} (hp : Keeps push) {P : Sys T → Act T → Prop} {n made : Nat} {s : Sys T}
    (h : SReach push .immediately P (Sys.create n made) s) (hd : s.phase = .done) :
    ∃ p, s.atCall = some p ∧ (p.cleared ++ p.queue) <+: s.pool.cleared ∧
      (Quiet push s.pool → p.started.Subperm (s.pool.finished ++ s.pool.failed) ∧
        liveWorkers s.pool.workers = 0) := by
  have hi := inv_reach hp h
  unfold SInv at hi
  rw [hd] at hi
  obtain ⟨h1, p, h2, h3, _⟩ := hi
  refine ⟨p, h2, h3.dropped (by decide), fun hq => ?_⟩
  have hr := pool_reach h
  have hs := shrink_reach (shrink_create n made) hr
  have hcn := counts_reach (counts_create n made) hr
  obtain ⟨q1, q2⟩ := quiet_busy hq
  have q3 := tot_alive s.pool.workers
  have hz : tot aliveW s.pool.workers = 0 := by
    by_contra hne
    have := hs.awake (by rw [hcn.wc, hs.term h1]; omega)
    omega
  have h5 := (C34_exactly_once hp hr).2
  rw [running_nil_of_busy q1, List.append_nil] at h5
  exact ⟨h3.grows.started.sublist.subperm.trans h5.subperm, by rw [liveWorkers_eq]; exact hz⟩

/-- C62. After `shutdown()` of one of the two waiting policies has returned, no task is
started, finishes or throws any more, and no worker thread appears, whatever other
threads still holding the pool do. -/
theorem C62_nothing_runs_afterwards {push : Push T} (hp : Keeps push) {pol : Policy} (hpol : pol ≠ .immediately)
    {P Q : Sys T → Act T → Prop} {n made : Nat} {s s' : Sys T}
    (h : SReach push pol P (Sys.create n made) s) (hd : s.phase = .done) (h' : SReach push pol Q s s') :
    s'.pool.started = s.pool.started ∧ s'.pool.finished = s.pool.finished ∧ s'.pool.failed = s.pool.failed ∧
    liveWorkers s'.pool.workers = 0 := by
  have hi := inv_reach hp h
  unfold SInv at hi
  rw [hd] at hi
  obtain ⟨h1, p, _, _, h4⟩ := hi
  have h6 := (h4 hpol).2
  have key : s'.phase = .done ∧ s'.pool.terminating = true ∧ (∀ w ∈ s'.pool.workers, w = .dead) ∧
      s'.pool.started = s.pool.started ∧ s'.pool.finished = s.pool.finished ∧ s'.pool.failed = s.pool.failed := by
    induction h' with
    | init => exact ⟨hd, h1, h6, rfl, rfl, rfl⟩
    | pool _ _ g3 ih =>
      obtain ⟨k0, k1, k2, k3, k4, k5⟩ := ih
      obtain ⟨hpr, q, g4, rfl⟩ := step_pool g3
      obtain ⟨d1, d2, d3, d4⟩ := gone_step g4 k1 k2
      have ht : q.terminating = true := by
        rcases terminating_step g4 with ⟨_, e⟩ | ⟨_, e⟩
        · exact e
        · exact e.trans k1
      exact ⟨k0, ht, d1, d2.trans k3, d3.trans k4, d4.trans k5⟩
    | call _ g3 ih =>
      have := (step_call g3).1
      rw [ih.1] at this
      cases this
    | proceed _ g3 ih =>
      rcases step_proceed g3 with ⟨e, _⟩ | ⟨e, _⟩ | ⟨j, e, _⟩ | ⟨j, e, _⟩ <;> (rw [ih.1] at e; cases e)
  exact ⟨key.2.2.2.1, key.2.2.2.2.1, key.2.2.2.2.2, live_of_dead key.2.2.1⟩

/-- C62. A shutdown returns: if the pool was created with at least one thread and never
made smaller, then once `shutdown()` has been called, what goes on by itself (workers,
woken clients, the thread in `shutdown()`) cannot go on for ever, and where nothing of
it can go on, `shutdown()` has returned. All three policies; other threads may still hand
over and discard tasks and grow the pool. -/
theorem C62_shutdown_returns {push : Push T} (hp : Keeps push) {pol : Policy} {n made : Nat} (hn : 1 ≤ n) (hm : 1 ≤ made)
    {s : Sys T} (h : SReach push pol (fun s a => NoShrink s.pool a) (Sys.create n made) s) (hc : s.phase ≠ .idle) :
    (¬ ∃ f : Nat → Sys T, f 0 = s ∧ ∀ i, ∃ a, OwnStep a ∧ (f i).step push pol a = some (f (i + 1))) ∧
    ((∀ a, OwnStep a → s.step push pol a = none) → s.phase = .done) := by
  refine ⟨?_, stuck_done hp hn hm h hc⟩
  rintro ⟨f, _, hf⟩
  have hwf : WellFounded (fun a b : Sys T => Shutdown.measure a < Shutdown.measure b) :=
    InvImage.wf Shutdown.measure wellFounded_lt
  have key : ∀ x : Sys T, ∀ i, f i = x → False := by
    intro x
    refine hwf.induction (C := fun x => ∀ i, f i = x → False) x ?_
    intro x ih i hi
    obtain ⟨a, ha, hs⟩ := hf i
    exact ih (f (i + 1)) (hi ▸ measure_step ha hs) (i + 1) rfl
  exact key (f 0) 0 rfl

/-- C62, what fails. `schedule()` accepts tasks after the pool has been shut down; such a
task stays pending for ever: nobody will execute it. -/
theorem C62_task_after_shutdown_is_lost : ∃ s : Sys Nat,
    SReach fifoPush .allTasks (fun _ _ => True) (Sys.create 1 1) s ∧ s.phase = .done ∧
    ∀ t, ∃ s', s.step fifoPush .allTasks (.pool (.schedule t none)) = some s' ∧ s'.pool.queue = [t] ∧
      ∀ Q s'', SReach fifoPush .allTasks Q s' s'' → t ∉ s''.pool.started := by
  have h : ∃ s : Sys Nat, SReach fifoPush .allTasks (fun _ _ => True) (Sys.create 1 1) s ∧ s.phase = .done ∧
      s.pool.started = [] ∧ ∀ t, ∃ s', s.step fifoPush .allTasks (.pool (.schedule t none)) = some s' ∧
        s'.pool.queue = [t] :=
    ⟨_, .proceed (.pool (a := .clientResume 1) (.pool (a := .exit 0) (.pool (a := .resume 0) (.proceed
      (.call (.pool (a := .fetch 0) .init trivial rfl) rfl) rfl) trivial rfl) trivial rfl) trivial rfl) rfl,
      rfl, rfl, fun t => ⟨_, rfl, rfl⟩⟩
  obtain ⟨s, h1, h2, h3, h4⟩ := h
  refine ⟨s, h1, h2, fun t => ?_⟩
  obtain ⟨s', g1, g2⟩ := h4 t
  refine ⟨s', g1, g2, fun Q s'' h'' ht => ?_⟩
  have hd : s'.phase = .done := by
    obtain ⟨_, p, _, rfl⟩ := step_pool g1
    exact h2
  have hr : SReach fifoPush .allTasks (fun _ _ => True) (Sys.create 1 1) s' := .pool h1 trivial g1
  have e := (C62_nothing_runs_afterwards (C34_policies (fun x => x)).1 (by decide) hr hd h'').1
  have e' := (C62_nothing_runs_afterwards (P := fun _ _ => True) (Q := fun _ _ => True) (C34_policies (fun x => x)).1
    (by decide) h1 h2 (.pool .init trivial g1)).1
  rw [e, e', h3] at ht
  cases ht

/-- C62, what fails. The wait for all tasks and the termination are two separate critical
sections: of two tasks handed over between them (by another thread), while `shutdown()`
has not returned, only one is executed; the other is accepted and lost. -/
theorem C62_task_during_shutdown_is_lost : ∃ s s' : Sys Nat,
    SReach fifoPush .allTasks (fun _ _ => True) (Sys.create 1 1) s ∧ s.phase = .waiting 0 ∧
    s.pool.scheduled = [7, 8] ∧
    SReach fifoPush .allTasks (fun _ a => WorkerAct a ∨ a = .clientResume 1) s s' ∧
    s'.phase = .done ∧ s'.pool.queue = [8] ∧ s'.pool.started = [7] :=
  ⟨_, _, .pool (a := .schedule 8 none) (.pool (a := .schedule 7 (some 0)) (.call
      (.pool (a := .fetch 0) .init trivial rfl) rfl) trivial rfl) trivial rfl, rfl, rfl,
    .proceed (.pool (a := .clientResume 1) (.pool (a := .exit 0) (.pool (a := .fetch 0) (.pool (a := .finish 0)
      (.pool (a := .resume 0) (.proceed .init rfl) (Or.inl trivial) rfl) (Or.inl trivial) rfl)
      (Or.inl trivial) rfl) (Or.inl trivial) rfl) (Or.inr rfl) rfl) rfl, rfl, rfl, rfl⟩

/-- The hypotheses are met: two workers, three tasks of which one throws, shut down while
two are being executed and one is pending. -/
example : ∃ s : Sys Nat, SReach fifoPush .allTasks (fun s a => NoShrink s.pool a ∧ NobodyClears s a ∧ NobodySchedules s a)
    (Sys.create 2 2) s ∧ s.phase = .done ∧ (∃ p, s.atCall = some p ∧ p.queue = [3]) ∧ s.pool.finished = [2, 3] ∧
    s.pool.failed = [1] :=
  ⟨_, .proceed (.pool (a := .clientResume 1) (.pool (a := .exit 2) (.pool (a := .exit 1) (.pool (a := .resume 2)
      (.pool (a := .resume 1) (.proceed (.pool (a := .clientResume 0) (.pool (a := .fetch 1) (.pool (a := .fetch 2)
      (.pool (a := .finish 1) (.pool (a := .fetch 1) (.pool (a := .finish 1) (.pool (a := .fail 0 1)
      (.call (.pool (a := .fetch 1) (.pool (a := .fetch 0) (.pool (a := .schedule 3 none)
      (.pool (a := .schedule 2 none) (.pool (a := .schedule 1 none) .init
      ⟨trivial, trivial, rfl⟩ rfl) ⟨trivial, trivial, rfl⟩ rfl) ⟨trivial, trivial, rfl⟩ rfl)
      ⟨trivial, trivial, trivial⟩ rfl) ⟨trivial, trivial, trivial⟩ rfl) rfl)
      ⟨Nat.le_refl 1, trivial, trivial⟩ rfl) ⟨trivial, trivial, trivial⟩ rfl) ⟨trivial, trivial, trivial⟩ rfl)
      ⟨trivial, trivial, trivial⟩ rfl) ⟨trivial, trivial, trivial⟩ rfl) ⟨trivial, trivial, trivial⟩ rfl)
      ⟨trivial, trivial, trivial⟩ rfl) rfl) ⟨trivial, trivial, trivial⟩ rfl) ⟨trivial, trivial, trivial⟩ rfl)
      ⟨trivial, trivial, trivial⟩ rfl) ⟨trivial, trivial, trivial⟩ rfl) ⟨trivial, trivial, trivial⟩ rfl) rfl,
    rfl, ⟨_, rfl, rfl⟩, rfl, rfl⟩

/-- A shutdown that waits for the active task and discards the pending one. -/
example : ∃ s : Sys Nat, SReach fifoPush .activeTasks (fun s a => NoShrink s.pool a) (Sys.create 1 1) s ∧
    s.phase = .done ∧ (∃ p, s.atCall = some p ∧ p.started = [1] ∧ p.queue = [2]) ∧ s.pool.finished = [1] ∧
    s.pool.cleared = [2] :=
  ⟨_, .proceed (.pool (a := .clientResume 1) (.pool (a := .exit 0) (.pool (a := .resume 0) (.proceed
      (.pool (a := .clientResume 0) (.pool (a := .fetch 0) (.pool (a := .finish 0) (.proceed (.call
      (.pool (a := .fetch 0) (.pool (a := .schedule 2 none) (.pool (a := .schedule 1 none) .init
      trivial rfl) trivial rfl) trivial rfl) rfl) rfl) trivial rfl) trivial rfl) trivial rfl) rfl) trivial rfl)
      trivial rfl) trivial rfl) rfl, rfl, ⟨_, rfl, rfl, rfl⟩, rfl, rfl⟩

/-- An immediate shutdown with a task being executed, which still finishes. -/
example : ∃ s : Sys Nat, SReach fifoPush .immediately (fun s a => NoShrink s.pool a) (Sys.create 1 1) s ∧
    s.phase = .done ∧ Quiet fifoPush s.pool ∧ (∃ p, s.atCall = some p ∧ p.started = [1] ∧ p.queue = [2]) ∧
    s.pool.finished = [1] ∧ s.pool.cleared = [2] :=
  ⟨_, .pool (a := .exit 0) (.pool (a := .fetch 0) (.pool (a := .finish 0) (.proceed (.call
      (.pool (a := .fetch 0) (.pool (a := .schedule 2 none) (.pool (a := .schedule 1 none) .init
      trivial rfl) trivial rfl) trivial rfl) rfl) rfl) trivial rfl) trivial rfl) trivial rfl, rfl,
    quiet_of_all (by decide +kernel), ⟨_, rfl, rfl, rfl⟩, rfl, rfl⟩

/-- C62, what fails. A pool without threads that was handed a task never shuts down: its
destructor hangs. -/
theorem C62_empty_pool_hangs : ∃ s : Sys Nat,
    SReach fifoPush .allTasks (fun _ _ => True) (Sys.create 0 0) s ∧ s.phase = .waiting 0 ∧ s.pool.queue = [1] ∧
    ∀ a, OwnStep a → s.step fifoPush .allTasks a = none :=
  ⟨_, .call (.pool (a := .schedule 1 none) .init trivial rfl) rfl, rfl, rfl, by
    intro a ha
    cases a with
    | call => exact absurd ha id
    | proceed => rfl
    | pool a =>
      cases a with
      | clientResume j =>
        cases j with
        | zero => rfl
        | succ j => rfl
      | fetch i => rfl
      | resume i => rfl
      | finish i => rfl
      | exit i => rfl
      | _ => exact absurd ha id⟩

/-- C62, what fails. With the policy `immediately` a worker woken for its termination
looks at the pending tasks before it looks at the number of workers: a task handed over
after `shutdown()` has returned is still started. -/
theorem C62_immediately_still_starts_tasks : ∃ s s' : Sys Nat,
    SReach fifoPush .immediately (fun _ _ => True) (Sys.create 1 1) s ∧ s.phase = .done ∧
    s.pool.scheduled = [] ∧ SReach fifoPush .immediately (fun _ _ => True) s s' ∧ s'.pool.started = [1] :=
  ⟨_, _, .proceed (.call (.pool (a := .fetch 0) .init trivial rfl) rfl) rfl, rfl, rfl,
    .pool (a := .resume 0) (.pool (a := .schedule 1 none) .init trivial rfl) trivial rfl, rfl⟩

end SpatialOps
