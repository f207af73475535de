import Verif.TimedWait.Lemmas

/-!
# Property theorems for waiting with a time limit: C63

`wait(timestamp, threshold)` "blocks until the timestamp is met or the sum of all active
and pending tasks is equal or less than a given threshold", and returns "true if the task
sum is equal or less than the threshold, false otherwise".
-/

namespace SpatialOps.TimedWait
open Threads Threads.Pool Shutdown
variable {T : Type}

/-- C63. Timed waits do not disturb the pool: whatever they do, the pool is in a state it
can reach without them being timed, so everything stated for pools in general (C34 - C39)
holds with them around. -/
theorem _root_.SpatialOps.C63_pool_unaffected {push : Push T} {n made : Nat} {s : TSys T}
    (h : TReach push (TSys.create n made) s) : Reach push (fun _ _ => True) (create n made) s.pool := by
  induction h with
  | init => exact .init
  | @step s s' a h1 h2 ih =>
    cases a with
    | pool a =>
      obtain ⟨_, p, h4, rfl⟩ := step_pool h2
      exact ih.step trivial h4
    | wait k =>
      obtain ⟨p, h4, rfl⟩ := step_wait h2
      exact ih.step (a := .wait (.tasks k)) trivial h4
    | expire i =>
      obtain ⟨_, _, _, _, _, rfl⟩ := step_expire h2
      exact ih
    | giveUp i =>
      obtain ⟨_, _, _, rfl⟩ := step_giveUp h2
      exact ih
    | resume i =>
      obtain ⟨j, k, p, _, h4, rfl⟩ := step_resume h2
      exact ih.step (a := .clientResume j) trivial h4

/-- How a call comes to have returned in a step. -/
theorem returned_step' {push : Push T} {s s' : TSys T} {a : TAct T} {i : Nat} {b : Bool}
    (h2 : s.step push a = some s') (hnew : ¬ Returned s i b) (hret : Returned s' i b) :
    (b = true ∧ ∃ j k, s'.calls[i]? = some ⟨j, k, .result true⟩ ∧ ∃ q, s'.pool.clients[j]? = some (.returned q) ∧
      (∀ q', s.pool.clients[j]? ≠ some (.returned q')) ∧
      ∃ a', s.pool.step push a' = some s'.pool) ∨
    (b = false ∧ a = .giveUp i) := by
  obtain ⟨c, hc, hb⟩ := hret
  cases a with
  | pool a =>
    obtain ⟨_, p, h4, rfl⟩ := step_pool h2
    exact absurd ⟨c, hc, hb⟩ hnew
  | wait k =>
    obtain ⟨p, h4, rfl⟩ := step_wait h2
    by_cases hl : i < s.calls.length
    · dsimp only at hc
      rw [List.getElem?_append_left hl] at hc
      exact absurd ⟨c, hc, hb⟩ hnew
    · have hi : i = s.calls.length := by
        by_contra hne
        rw [List.getElem?_eq_none (by simp; omega)] at hc
        cases hc
      subst hi
      have hc' := hc
      simp only [List.getElem?_concat_length, Option.some.injEq] at hc
      subst hc
      obtain ⟨rfl, q, hq⟩ := stateOf_result hb
      refine Or.inl ⟨rfl, _, k, ?_, q, hq, ?_, .wait (.tasks k), h4⟩
      · rw [hc', ← hb]
      · intro q' h
        rw [List.getElem?_eq_none (Nat.le_refl _)] at h
        cases h
  | expire i' =>
    obtain ⟨j, k, k', g1, g2, rfl⟩ := step_expire h2
    have hl : i' < s.calls.length := (List.getElem?_eq_some_iff.1 g1).1
    by_cases e : i' = i
    · subst e
      dsimp only at hc
      rw [List.getElem?_set_self hl] at hc
      injection hc with hc
      subst hc
      cases hb
    · dsimp only at hc
      rw [List.getElem?_set_ne e] at hc
      exact absurd ⟨c, hc, hb⟩ hnew
  | giveUp i' =>
    obtain ⟨j, k, g1, rfl⟩ := step_giveUp h2
    have hl : i' < s.calls.length := (List.getElem?_eq_some_iff.1 g1).1
    by_cases e : i' = i
    · subst e
      dsimp only at hc
      rw [List.getElem?_set_self hl] at hc
      injection hc with hc
      subst hc
      injection hb with hb
      exact Or.inr ⟨hb.symm, rfl⟩
    · dsimp only at hc
      rw [List.getElem?_set_ne e] at hc
      exact absurd ⟨c, hc, hb⟩ hnew
  | resume i' =>
    obtain ⟨j, k, p, g1, h4, rfl⟩ := step_resume h2
    have hl : i' < s.calls.length := (List.getElem?_eq_some_iff.1 g1).1
    by_cases e : i' = i
    · subst e
      have hc' := hc
      dsimp only at hc
      rw [List.getElem?_set_self hl] at hc
      injection hc with hc
      subst hc
      obtain ⟨rfl, q, hq⟩ := stateOf_result hb
      refine Or.inl ⟨rfl, j, k, ?_, q, hq, ?_, .clientResume j, h4⟩
      · rw [hc', ← hb]
      · intro q' h
        simp only [step, h] at h4
        cases h4
    · dsimp only at hc
      rw [List.getElem?_set_ne e] at hc
      exact absurd ⟨c, hc, hb⟩ hnew

/-- C63. When a call `wait(timestamp, threshold)` returns true, at that moment at most
`threshold` tasks are pending or being executed; with threshold 0 (the default) every
task handed over so far has finished, thrown or been discarded. All histories. -/
theorem _root_.SpatialOps.C63_true_when_reached {push : Push T} (hp : Keeps push) {n made : Nat} {s s' : TSys T}
    {a : TAct T} (h : TReach push (TSys.create n made) s) (hs : s.step push a = some s') {i : Nat} {c : Call}
    (hnew : ¬ Returned s i true) (hret : Returned s' i true) (hc : s'.calls[i]? = some c) :
    s'.pool.queue.length + (runningTasks s'.pool.workers).length ≤ c.threshold ∧
    (c.threshold = 0 → s'.pool.scheduled.Perm (s'.pool.finished ++ s'.pool.failed ++ s'.pool.cleared)) := by
  rcases returned_step' hs hnew hret with ⟨_, j, k, g1, q, g2, g3, a', g4⟩ | ⟨e, _⟩
  · rw [hc] at g1
    injection g1 with g1
    subst g1
    obtain ⟨d, k1, k2, _⟩ := (callsOk_reach (h.step hs)).client i _ hc
    rw [g2] at k1
    injection k1 with k1
    subst k1
    cases k2
    have hr := C63_pool_unaffected h
    cases k with
    | zero =>
      obtain ⟨r1, r2, r3⟩ := C36_wait_returns_when_idle hp hr (hP := trivial) g4 (g3 _) g2
      exact ⟨by rw [r1, r2]; exact Nat.le_refl 0, fun _ => r3⟩
    | succ k =>
      exact ⟨C36_wait_threshold hr (hP := trivial) g4 (g3 _) g2, fun e => by cases e⟩
  · cases e

/-- C63. A call returns false only after its own time was up: the step in which it
returns false is the one in which it gives up. -/
theorem _root_.SpatialOps.C63_false_only_when_time_is_up {push : Push T} {s s' : TSys T} {a : TAct T}
    (hs : s.step push a = some s') {i : Nat} (hnew : ¬ Returned s i false) (hret : Returned s' i false) :
    a = .giveUp i ∧ ∃ c, s.calls[i]? = some c ∧ c.state = .expired := by
  rcases returned_step' hs hnew hret with ⟨e, _⟩ | ⟨_, rfl⟩
  · cases e
  · obtain ⟨j, k, g1, _⟩ := step_giveUp hs
    exact ⟨rfl, _, g1, rfl⟩

/-- C63. A call cannot be held up: from every reachable state, whatever the workers are
doing (a task may never end), a call that has not returned does so within three steps of
its own and of its clock. -/
theorem _root_.SpatialOps.C63_returns_when_time_is_up {push : Push T} {n made : Nat} {s : TSys T}
    (h : TReach push (TSys.create n made) s) {i : Nat} (hpd : Pending s i) :
    ∃ (as : List (TAct T)) (s' : TSys T) (b : Bool), (∀ a ∈ as, OfCall i a) ∧ as.length ≤ 3 ∧
      s.run push as = some s' ∧ Returned s' i b := by
  have giveUp : ∀ (s : TSys T) j k, s.calls[i]? = some ⟨j, k, .expired⟩ →
      ∃ s', s.step push (.giveUp i) = some s' ∧ Returned s' i false := by
    intro s j k hc
    have hl : i < s.calls.length := (List.getElem?_eq_some_iff.1 hc).1
    refine ⟨{ s with calls := s.calls.set i ⟨j, k, .result false⟩ }, ?_, ⟨_, List.getElem?_set_self hl, rfl⟩⟩
    simp only [TSys.step, hc]
  have sleep : ∀ (s : TSys T) j k k', s.calls[i]? = some ⟨j, k, .inLoop⟩ → s.pool.clients[j]? = some (.waiting k') →
      ∃ s' s'', s.step push (.expire i) = some s' ∧ s'.step push (.giveUp i) = some s'' ∧ Returned s'' i false := by
    intro s j k k' hc hw
    have hl : i < s.calls.length := (List.getElem?_eq_some_iff.1 hc).1
    obtain ⟨s'', g1, g2⟩ := giveUp { s with calls := s.calls.set i ⟨j, k, .expired⟩ } j k (List.getElem?_set_self hl)
    exact ⟨_, s'', by simp only [TSys.step, hc, hw], g1, g2⟩
  obtain ⟨⟨j, k, st⟩, hc, hst⟩ := hpd
  have hl : i < s.calls.length := (List.getElem?_eq_some_iff.1 hc).1
  cases st with
  | result b => exact absurd rfl (hst b)
  | expired =>
    obtain ⟨s', g1, g2⟩ := giveUp s j k hc
    refine ⟨[.giveUp i], s', false, ?_, by simp, by simp [TSys.run, g1], g2⟩
    intro a ha
    rw [List.mem_singleton.1 ha]
    rfl
  | inLoop =>
    obtain ⟨d, h1, h2, h3⟩ := (callsOk_reach h).client i _ hc
    cases d with
    | returned k' => exact absurd (h3 ⟨k', rfl⟩) (by intro e; cases e)
    | waiting k' =>
      obtain ⟨s', s'', g1, g2, g3⟩ := sleep s j k k' hc h1
      refine ⟨[.expire i, .giveUp i], s'', false, ?_, by simp, by simp [TSys.run, g1, g2], g3⟩
      intro a ha
      simp only [List.mem_cons, List.not_mem_nil, or_false] at ha
      rcases ha with rfl | rfl <;> rfl
    | woken k' =>
      have hlc : j < s.pool.clients.length := (List.getElem?_eq_some_iff.1 h1).1
      by_cases hcond : s.pool.cond k' = true
      · have e : s.step push (.resume i) = some
            ⟨{ s.pool with clients := s.pool.clients.set j (.returned k') }, s.calls.set i ⟨j, k, .result true⟩⟩ := by
          simp only [TSys.step, hc, step, h1, hcond, if_true, Option.map_some]
          rw [stateOf_returned (k := k') (by exact List.getElem?_set_self hlc)]
        refine ⟨[.resume i], ⟨{ s.pool with clients := s.pool.clients.set j (.returned k') }, s.calls.set i ⟨j, k, .result true⟩⟩,
          true, ?_, by simp, by simp only [TSys.run, e, Option.bind_some],
          ⟨⟨j, k, .result true⟩, List.getElem?_set_self hl, rfl⟩⟩
        intro a ha
        rw [List.mem_singleton.1 ha]
        rfl
      · have hs0 : stateOf { s.pool with clients := s.pool.clients.set j (.waiting k') } j = .inLoop := by
          unfold stateOf
          dsimp only
          rw [List.getElem?_set_self hlc]
        have e : s.step push (.resume i) = some
            ⟨{ s.pool with clients := s.pool.clients.set j (.waiting k') }, s.calls.set i ⟨j, k, .inLoop⟩⟩ := by
          simp only [TSys.step, hc, step, h1, hcond, Option.map_some, if_false, Bool.false_eq_true]
          rw [hs0]
        obtain ⟨s', s'', g1, g2, g3⟩ := sleep
          ⟨{ s.pool with clients := s.pool.clients.set j (.waiting k') }, s.calls.set i ⟨j, k, .inLoop⟩⟩
          j k k' (List.getElem?_set_self hl) (List.getElem?_set_self hlc)
        refine ⟨[.resume i, .expire i, .giveUp i], s'', false, ?_, by simp, by simp [TSys.run, e, g1, g2], g3⟩
        intro a ha
        simp only [List.mem_cons, List.not_mem_nil, or_false] at ha
        rcases ha with rfl | rfl | rfl <;> rfl

/-- C63, what fails. The result false does not mean that too many tasks are left: the time
is up, the last task finishes before the call has the lock back, and the call returns
false in a pool with nothing pending and nothing running (documented: "true if the task
sum is equal or less than the threshold, false otherwise"). -/
theorem _root_.SpatialOps.C63_false_although_reached : ∃ s s' : TSys Nat,
    TReach fifoPush (TSys.create 1 1) s ∧ s.step fifoPush (.giveUp 0) = some s' ∧ Returned s' 0 false ∧
    s'.pool.queue = [] ∧ runningTasks s'.pool.workers = [] ∧ s'.pool.act = 0 ∧ s'.pool.finished = [1] :=
  ⟨_, _, .step (a := .pool (.fetch 0)) (.step (a := .pool (.finish 0)) (.step (a := .expire 0) (.step (a := .pool (.fetch 0))
      (.step (a := .wait 0) (.step (a := .pool (.schedule 1 none)) .init rfl) rfl) rfl) rfl) rfl) rfl, rfl,
    ⟨_, rfl, rfl⟩, rfl, rfl, rfl, rfl⟩

/-- Two calls, one with threshold 1 that returns true and one with threshold 0 whose time
runs out while a task is being executed. -/
example : ∃ s : TSys Nat, TReach fifoPush (TSys.create 1 1) s ∧ Returned s 0 true ∧ Returned s 1 false ∧
    runningTasks s.pool.workers = [2] ∧ s.pool.finished = [1] :=
  ⟨_, .step (a := .giveUp 1) (.step (a := .expire 1) (.step (a := .resume 0) (.step (a := .pool (.clientSpurious 0))
      (.step (a := .pool (.fetch 0)) (.step (a := .pool (.finish 0)) (.step (a := .wait 0) (.step (a := .wait 1)
      (.step (a := .pool (.fetch 0)) (.step (a := .pool (.schedule 2 none)) (.step (a := .pool (.schedule 1 none)) .init
      rfl) rfl) rfl) rfl) rfl) rfl) rfl) rfl) rfl) rfl) rfl, ⟨_, rfl, rfl⟩, ⟨_, rfl, rfl⟩, rfl, rfl⟩

end SpatialOps.TimedWait
