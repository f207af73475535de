import Verif.Script.Progress

/-!
# C94: programs that use one thread pool
-/

namespace SpatialOps
namespace Script
open Threads Threads.Pool Shutdown
variable {T : Type} [DecidableEq T]

/-- C94. A program that creates a pool with at least one thread and never makes it smaller comes to its end under every schedule,
whatever calls it makes in whatever order, and although tasks may throw: nothing goes on for ever (spurious wake-ups aside), and where
nothing can go on, the destructor of the pool has returned. -/
theorem _root_.SpatialOps.C94_ends {push : Push T} (hp : Keeps push) (throws : T → Bool) {n made : Nat} (hn : 1 ≤ n) (hm : 1 ≤ made)
    (prog : List (Stmt T)) (hs : Sound throws n [] prog) {s : St T} (h : Reaches push throws Granted (start n made prog) s) :
    (¬ ∃ f : Nat → St T, f 0 = s ∧ ∀ i, ∃ mv, Own mv ∧ (f i).step push throws mv = some (f (i + 1))) ∧
    ((∀ mv, Own mv → s.step push throws mv = none) → Ended s) := by
  refine ⟨?_, stuck_ended hp hn hm hs h⟩
  rintro ⟨f, hf0, hf⟩
  have hr : ∀ i, Reaches push throws Granted (start n made prog) (f i) := by
    intro i
    induction i with
    | zero => rw [hf0]; exact h
    | succ i ih =>
      obtain ⟨mv, h1, h2⟩ := hf i
      refine .step ih ?_ h2
      cases mv with
      | main who m => trivial
      | world a => cases a <;> trivial
  have hwf : WellFounded (fun a b : St T => size a < size b) := InvImage.wf size wellFounded_lt
  have key : ∀ x : St T, ∀ i, f i = x → False := by
    intro x
    refine hwf.induction (C := fun x => ∀ i, f i = x → False) x ?_
    intro x ih i hi
    obtain ⟨mv, ho, hstep⟩ := hf i
    exact ih (f (i + 1)) (hi ▸ size_step (knows hs (hr i)).pos ho hstep) (i + 1) rfl
  exact key (f 0) 0 rfl

/-- C94. When a program has come to its end, every task it handed over has been executed exactly once, to its end or to the point where
it throws, and no thread is left. Any pool, any calls. -/
theorem _root_.SpatialOps.C94_all_executed {push : Push T} (hp : Keeps push) (throws : T → Bool) {P : Move T → Prop} {n made : Nat}
    (prog : List (Stmt T)) {s : St T} (h : Reaches push throws P (start n made prog) s) (he : Ended s) :
    s.rest = [] ∧ s.sys.pool.finished.Perm ((tasks prog).filter fun t => !throws t) ∧
      s.sys.pool.failed.Perm ((tasks prog).filter throws) ∧ liveWorkers s.sys.pool.workers = 0 := by
  have hi := any_inv h
  obtain ⟨before, b1, b2⟩ := hi.suffix
  have hpast := hi.past (by rw [he]; nofun)
  rw [hpast.1, List.append_nil] at b1
  obtain ⟨p1, _⟩ := C62_every_task_executed hp (fun _ _ h => h.2) hi.reach he
  obtain ⟨_, _, _, hl, _⟩ := C62_waits_for_all_tasks hp hi.reach he
  rw [b2, ← b1] at p1
  refine ⟨hpast.1, ?_, ?_, hl⟩
  · have := p1.filter (fun t => !throws t)
    have e1 : s.sys.pool.finished.filter (fun t => !throws t) = s.sys.pool.finished :=
      List.filter_eq_self.2 (fun t ht => by simp [hi.finished t ht])
    have e2 : s.sys.pool.failed.filter (fun t => !throws t) = [] :=
      List.filter_eq_nil_iff.2 (fun t ht => by simp [hi.failed t ht])
    rw [List.filter_append, e1, e2, List.append_nil] at this
    exact this.symm
  · have := p1.filter throws
    have e1 : s.sys.pool.finished.filter throws = [] := List.filter_eq_nil_iff.2 (fun t ht => by simp [hi.finished t ht])
    have e2 : s.sys.pool.failed.filter throws = s.sys.pool.failed := List.filter_eq_self.2 (fun t ht => hi.failed t ht)
    rw [List.filter_append, e1, e2, List.nil_append] at this
    exact this.symm

/-- C94. Between the return of `wait()` and the next call nothing is pending or being executed: every task handed over before has ended.
Any pool, any calls before and after. -/
theorem _root_.SpatialOps.C94_after_wait {push : Push T} (hp : Keeps push) (throws : T → Bool) {P : Move T → Prop} {n made : Nat}
    (before after : List (Stmt T)) {s : St T} (h : Reaches push throws P (start n made (before ++ .wait 0 :: after)) s)
    (hr : s.rest = after) (hw : s.inWait = none) :
    s.sys.pool.queue = [] ∧ runningTasks s.sys.pool.workers = [] ∧
      (tasks before).Perm (s.sys.pool.finished ++ s.sys.pool.failed) := by
  have key : s.rest.length = after.length →
      (∀ j, s.inWait = some j → ∃ c, s.sys.pool.clients[j]? = some c ∧ kindOf c = .tasks 0) ∧
      ((s.inWait = none ∨ ∃ j, s.inWait = some j ∧ s.sys.pool.clients[j]? = some (.returned (.tasks 0))) → Idle s.sys.pool) := by
    clear hr hw
    induction h with
    | init =>
      intro hl
      simp only [start, List.length_append, List.length_cons] at hl
      omega
    | @step s s' mv h1 h2 h3 ih =>
      have hi := any_inv h1
      obtain ⟨pre, b1, b2⟩ := hi.suffix
      rcases step_cases h3 with ⟨a, y, rfl, hb, hy, rfl⟩ | ⟨who, m, rfl, hcase⟩
      · obtain ⟨_, p, hs, rfl⟩ := step_pool hy
        intro hl
        obtain ⟨i1, i2⟩ := ih hl
        have hne : ∀ t w, a ≠ .schedule t w := by rintro t w rfl; cases hb
        refine ⟨fun j hj => ?_, ?_⟩
        · obtain ⟨c, c1, c2⟩ := i1 j hj
          obtain ⟨c', d1, d2⟩ := (stays_step hs).kind j c c1
          exact ⟨c', d1, d2.trans c2⟩
        · rintro (hn | ⟨j, hj, hret⟩)
          · exact idle_step (i2 (.inl hn)) hs hne
          · by_cases hold : s.sys.pool.clients[j]? = some (.returned (.tasks 0))
            · exact idle_step (i2 (.inr ⟨j, hj, hold⟩)) hs hne
            · obtain ⟨g1, g2, _⟩ := C36_wait_returns_when_idle hp hi.pool trivial hs hold hret
              exact idle_iff.2 ⟨g1, g2⟩
      · rcases hcase with ⟨j, hph, hj, hret, rfl⟩ | ⟨y, hph, hw, hr, hy, rfl⟩ | ⟨st, r, a, y, hph, hw, hr, ha, hy, rfl⟩ |
          ⟨t, r, hph, hw, hr, hf, rfl⟩ | ⟨r, hph, hw, hr, rfl⟩ | ⟨y, hph, hy, rfl⟩
        · intro hl
          obtain ⟨i1, i2⟩ := ih hl
          refine ⟨nofun, fun _ => i2 (.inr ⟨j, hj, ?_⟩)⟩
          obtain ⟨c, c1, c2⟩ := i1 j hj
          obtain ⟨k, hk⟩ := hasReturned_iff hret
          rw [hk] at c1
          injection c1 with c1
          subst c1
          rw [hk]
          exact congrArg _ (congrArg _ c2)
        · intro hl
          obtain ⟨_, i2⟩ := ih (by rw [hr]; exact hl)
          exact ⟨nofun, fun _ => (shutdown_records (.inl rfl) hy).2.2.2.2.2.2.2.2 (i2 (.inl hw))⟩
        · intro hl
          obtain ⟨_, p, hs, rfl⟩ := step_pool hy
          rw [hr] at b1
          have e := List.append_inj_right' b1 (by simpa using hl.symm)
          injection e with e1 e2
          subst e1
          injection ha with ha
          subst ha
          obtain ⟨w1, w2, _⟩ := wait_new hs
          refine ⟨fun j hj => ?_, ?_⟩
          · injection hj with hj
            subst hj
            refine ⟨_, w2, ?_⟩
            split <;> rfl
          · rintro (hn | ⟨j, hj, hret⟩)
            · cases hn
            · injection hj with hj
              subst hj
              have hret : p.clients[s.sys.pool.clients.length]? = some (.returned (.tasks 0)) := hret
              obtain ⟨g1, g2, _⟩ := C36_wait_returns_when_idle hp hi.pool trivial hs (by rw [w1]; nofun) hret
              exact idle_iff.2 ⟨g1, g2⟩
        · intro hl
          rw [hr] at b1
          have e := List.append_inj_right' b1 (by simpa using hl.symm)
          injection e with e1 e2
          cases e1
        · intro hl
          rw [hr] at b1
          have e := List.append_inj_right' b1 (by simpa using hl.symm)
          injection e with e1 e2
          cases e1
        · intro hl
          obtain ⟨_, i2⟩ := ih hl
          have hpast := (hi.past hph).2
          refine ⟨fun j hj => ?_, fun _ => (shutdown_records (.inr rfl) hy).2.2.2.2.2.2.2.2 (i2 (.inl hpast))⟩
          dsimp only at hj
          rw [hpast] at hj; cases hj
  have hi := any_inv h
  have hidle := (key (by rw [hr])).2 (.inl hw)
  obtain ⟨q1, q2⟩ := idle_iff.1 hidle
  refine ⟨q1, q2, ?_⟩
  obtain ⟨pre, b1, b2⟩ := hi.suffix
  rw [hr] at b1
  have hb : tasks pre = tasks before := by
    have e : pre = before ++ [.wait 0] := by
      have : before ++ [.wait 0] ++ after = pre ++ after := by rw [← b1]; simp
      exact (List.append_cancel_right this).symm
    rw [e, tasks_append]
    exact List.append_nil _
  obtain ⟨p1, p2⟩ := C34_exactly_once hp hi.pool
  have hcl := (quiet_clients (fun s a h => h.2) hi.reach).1
  rw [q1, hcl, List.append_nil, List.append_nil, b2, hb] at p1
  rw [q2, List.append_nil] at p2
  exact p1.trans p2

/-- C94. Once the thread is past waiting for the future of a task, that task has finished. Any pool, any calls before and after. -/
theorem _root_.SpatialOps.C94_after_future {push : Push T} (throws : T → Bool) {P : Move T → Prop} {n made : Nat}
    (before after : List (Stmt T)) (t : T) {s : St T} (h : Reaches push throws P (start n made (before ++ .await t :: after)) s)
    (hr : s.rest.length ≤ after.length) : t ∈ s.sys.pool.finished := by
  induction h with
  | init =>
    simp only [start, List.length_append, List.length_cons] at hr
    omega
  | @step s s' mv h1 h2 h3 ih =>
    have hi := any_inv h1
    obtain ⟨pre, b1, _⟩ := hi.suffix
    have grow : ∀ {p p' : Pool T} {a : Act T}, p.step push a = some p' → t ∈ p.finished → t ∈ p'.finished := by
      intro p p' a hs ht
      rcases ends_step hs with ⟨e, _⟩ | ⟨_, _, _, _, e, _⟩ | ⟨_, _, _, _, _, e, _⟩ <;> rw [e]
      · exact ht
      · exact List.mem_append_left _ ht
      · exact ht
    rcases step_cases h3 with ⟨a, y, rfl, hb, hy, rfl⟩ | ⟨who, m, rfl, hcase⟩
    · obtain ⟨_, p, hs, rfl⟩ := step_pool hy
      exact grow hs (ih hr)
    · rcases hcase with ⟨j, hph, hj, hret, rfl⟩ | ⟨y, hph, hw, hrs, hy, rfl⟩ | ⟨st, r, a, y, hph, hw, hrs, ha, hy, rfl⟩ |
        ⟨u, r, hph, hw, hrs, hf, rfl⟩ | ⟨r, hph, hw, hrs, rfl⟩ | ⟨y, hph, hy, rfl⟩
      · exact ih hr
      · rw [← (shutdown_records (.inl rfl) hy).2.1] at ih
        exact ih (by rw [hrs]; simp)
      · obtain ⟨_, p, hs, rfl⟩ := step_pool hy
        by_cases hlt : s.rest.length ≤ after.length
        · exact grow hs (ih hlt)
        · rw [hrs, List.length_cons] at hlt
          dsimp only at hr
          rw [hrs] at b1
          have e := List.append_inj_right' b1 (by simp; omega)
          injection e with e1 e2
          subst e1
          cases ha
      · by_cases hlt : s.rest.length ≤ after.length
        · exact ih hlt
        · rw [hrs, List.length_cons] at hlt
          dsimp only at hr
          rw [hrs] at b1
          have e := List.append_inj_right' b1 (by simp; omega)
          injection e with e1 e2
          injection e1 with e1
          rw [e1]
          exact hf
      · by_cases hlt : s.rest.length ≤ after.length
        · exact ih hlt
        · rw [hrs, List.length_cons] at hlt
          dsimp only at hr
          rw [hrs] at b1
          have e := List.append_inj_right' b1 (by simp; omega)
          injection e with e1 e2
          cases e1
      · rw [← (shutdown_records (.inr rfl) hy).2.1] at ih
        exact ih hr

/-- C94. So a program that waits for the future of a task that throws, or that was never handed over, does not get past that call: the
condition on `await` in `Sound` is needed. -/
theorem _root_.SpatialOps.C94_future_of_throwing_task {push : Push T} (hp : Keeps push) (throws : T → Bool) {P : Move T → Prop} {n made : Nat}
    (before after : List (Stmt T)) (t : T) (ht : throws t = true ∨ t ∉ tasks (before ++ after)) {s : St T}
    (h : Reaches push throws P (start n made (before ++ .await t :: after)) s) : after.length < s.rest.length ∧ ¬ Ended s := by
  have key : after.length < s.rest.length := by
    by_contra hc
    have hf := C94_after_future throws before after t h (by omega)
    have hi := any_inv h
    rcases ht with ht | ht
    · rw [hi.finished t hf] at ht; cases ht
    · obtain ⟨p1, p2⟩ := C34_exactly_once hp hi.pool
      have h1 := p1.mem_iff.2 (List.mem_append_left _ (List.mem_append_left _
        (p2.mem_iff.2 (List.mem_append_left _ (List.mem_append_left _ hf)))))
      obtain ⟨pre, b1, b2⟩ := hi.suffix
      rw [b2] at h1
      apply ht
      have e : tasks (before ++ .await t :: after) = tasks (before ++ after) := by
        rw [tasks_append, tasks_append]; rfl
      rw [← e, b1, tasks_append]
      exact List.mem_append_left _ h1
  refine ⟨key, fun he => ?_⟩
  have := ((any_inv h).past (by rw [he]; nofun)).1
  rw [this] at key
  simp at key

/-- The two theorems above about a program and a state that is reached. -/
example : Reaches (fifoPush : Push Job) Job.throws (fun _ => True) (start 2 2 [.schedule ⟨"task_1", 0⟩, .await ⟨"task_1", 0⟩]) (start 2 2 [.schedule ⟨"task_1", 0⟩, .await ⟨"task_1", 0⟩]) ∧
    Job.throws ⟨"task_1", 0⟩ = true := ⟨.init, by decide⟩

/-- A program that never raises the limit on active workers, on a pool created without threads. -/
theorem zero_facts {push : Push T} (hp : Keeps push) {throws : T → Bool} {P : Move T → Prop} {prog : List (Stmt T)}
    (hl : ∀ m, .resizeActive m ∉ prog) {s : St T} (h : Reaches push throws P (start 0 0 prog) s) :
    s.sys.pool.started = [] ∧ s.sys.pool.queue.length = s.sys.pool.scheduled.length := by
  have hi := any_inv h
  have hreach : Reach push (fun _ a => ∀ m, a ≠ .resizeActive m) (create 0 0) s.sys.pool := by
    induction h with
    | init => exact .init
    | @step s s' mv h1 h2 h3 ih =>
      have hi := any_inv h1
      have ih := ih hi
      obtain ⟨pre, b1, _⟩ := hi.suffix
      rcases step_cases h3 with ⟨a, y, rfl, hb, hy, rfl⟩ | ⟨who, m, rfl, hcase⟩
      · obtain ⟨_, p, hs, rfl⟩ := step_pool hy
        refine ih.step ?_ hs
        rintro m rfl
        cases hb
      · rcases hcase with ⟨j, hph, hj, hret, rfl⟩ | ⟨y, hph, hw, hr, hy, rfl⟩ | ⟨st, r, a, y, hph, hw, hr, ha, hy, rfl⟩ |
          ⟨t, r, hph, hw, hr, hf, rfl⟩ | ⟨r, hph, hw, hr, rfl⟩ | ⟨y, hph, hy, rfl⟩
        · exact ih
        · obtain ⟨_, p, ⟨_, h4, rfl⟩ | ⟨hpol, _, _⟩⟩ := step_call hy
          · exact ih.step (a := .wait (.tasks 0)) nofun h4
          · exact absurd rfl hpol
        · obtain ⟨_, p, hs, rfl⟩ := step_pool hy
          refine ih.step ?_ hs
          rintro k rfl
          cases st <;> cases ha
          exact hl k (by rw [b1, hr]; simp)
        · exact ih
        · exact ih
        · rcases step_proceed hy with ⟨_, hpol, _⟩ | ⟨_, _, p, h4, rfl⟩ | ⟨j, _, _, p, p', h4, h5, rfl⟩ | ⟨j, _, _, rfl⟩
          · cases hpol
          · exact ih.step (a := .wait (.tasks 0)) nofun h4
          · exact (ih.step (a := .terminateAll) nofun h4).step (a := .wait .allGone) nofun h5
          · exact ih
  obtain ⟨h1, _, _⟩ := C35_zero_pool_never_starts hp hreach
  refine ⟨h1, ?_⟩
  have := (C34_exactly_once hp hreach).1.length_eq
  rw [h1, (quiet_clients (fun s a h => h.2) hi.reach).1] at this
  simpa using this.symm

/-- C94, what fails. A program that creates its pool without threads and hands a task over never comes to its end, however far the pool is
grown, unless it raises the limit on active workers itself. -/
theorem _root_.SpatialOps.C94_empty_pool_never_ends {push : Push T} (hp : Keeps push) (throws : T → Bool) {P : Move T → Prop}
    (prog : List (Stmt T)) (hl : ∀ m, .resizeActive m ∉ prog) (ht : tasks prog ≠ []) {s : St T}
    (h : Reaches push throws P (start 0 0 prog) s) : ¬ Ended s ∧ s.sys.pool.started = [] := by
  refine ⟨fun he => ?_, (zero_facts hp hl h).1⟩
  obtain ⟨h1, h2⟩ := zero_facts hp hl h
  obtain ⟨_, hq⟩ := C62_every_task_executed hp (fun _ _ h => h.2) (any_inv h).reach he
  obtain ⟨before, b1, b2⟩ := (any_inv h).suffix
  rw [((any_inv h).past (by rw [he]; nofun)).1, List.append_nil] at b1
  rw [hq, b2, ← b1] at h2
  exact ht (List.length_eq_zero_iff.1 h2.symm)

/-- C94, what fails. Such a program never gets past the first `wait()` after a task has been handed over, nor past waiting for a future. -/
theorem _root_.SpatialOps.C94_empty_pool_hangs {push : Push T} (hp : Keeps push) (throws : T → Bool) {P : Move T → Prop}
    (before after : List (Stmt T)) (b : Stmt T) (hb : b = .wait 0 ∨ ∃ t, b = .await t) (hl : ∀ m, .resizeActive m ∉ before ++ b :: after)
    (ht : tasks before ≠ []) {s : St T} (h : Reaches push throws P (start 0 0 (before ++ b :: after)) s) :
    after.length < s.rest.length ∨ s.rest = after ∧ b = .wait 0 ∧ ∃ j, s.inWait = some j ∧ hasReturned s.sys.pool j = false := by
  have key : after.length < s.rest.length ∨
      s.rest.length = after.length ∧ b = .wait 0 ∧ ∃ j, s.inWait = some j ∧ (∃ c, s.sys.pool.clients[j]? = some c ∧ kindOf c = .tasks 0) ∧
        ∀ k, s.sys.pool.clients[j]? ≠ some (.returned k) := by
    induction h with
    | init => left; simp [start]; omega
    | @step s s' mv h1 h2 h3 ih =>
      have hi := any_inv h1
      obtain ⟨pre, b1, b2⟩ := hi.suffix
      have hz' := zero_facts hp hl (h1.step h2 h3)
      rcases ih with ih | ⟨hlen, hb0, j, hj, ⟨c, c1, c2⟩, hnr⟩
      · -- not yet there
        rcases step_cases h3 with ⟨a, y, rfl, hby, hy, rfl⟩ | ⟨who, m, rfl, hcase⟩
        · exact .inl ih
        · rcases hcase with ⟨j, hph, hj, hret, rfl⟩ | ⟨y, hph, hw, hr, hy, rfl⟩ | ⟨st, r, a, y, hph, hw, hr, ha, hy, rfl⟩ |
            ⟨t, r, hph, hw, hr, hf, rfl⟩ | ⟨r, hph, hw, hr, rfl⟩ | ⟨y, hph, hy, rfl⟩
          · exact .inl ih
          · rw [hr] at ih; exact absurd ih (by simp)
          · rw [hr, List.length_cons] at ih
            by_cases hlt : after.length < r.length
            · exact .inl hlt
            · right
              have hlen : r.length = after.length := by omega
              rw [hr] at b1
              have e := List.append_inj_right' b1 (by simp [hlen])
              injection e with e1 e2
              obtain ⟨_, p, hs, rfl⟩ := step_pool hy
              rcases hb with hb | ⟨t, hb⟩
              · rw [hb] at e1
                subst e1
                injection ha with ha
                subst ha
                obtain ⟨w1, w2, _⟩ := wait_new hs
                refine ⟨hlen, hb, _, rfl, ⟨_, w2, by split <;> rfl⟩, fun k hk => ?_⟩
                have hk : p.clients[s.sys.pool.clients.length]? = some (.returned k) := hk
                have hk0 : k = .tasks 0 := by
                  rw [w2] at hk
                  injection hk with hk
                  split at hk
                  · injection hk with hk; exact hk.symm
                  · cases hk
                subst hk0
                rcases returned_step hs hk with h5 | h5
                · rw [w1] at h5; cases h5
                · simp only [Pool.cond, Bool.and_eq_true, List.isEmpty_iff] at h5
                  have hq : p.queue.length = p.scheduled.length := hz'.2
                  rw [h5.2, tasks_single (st := .wait 0) (who := who) (made := m) rfl hs, b2] at hq
                  have hpre : pre = before := List.append_inj_left' b1.symm (by simp [hlen])
                  rw [hpre] at hq
                  have : tasks before ++ tasks [(.wait 0 : Stmt T)] = [] := List.length_eq_zero_iff.1 hq.symm
                  exact ht (List.append_eq_nil_iff.1 this).1
              · rw [hb] at e1; subst e1; cases ha
          · exfalso
            have := (zero_facts hp hl h1).1
            have p2 := (C34_exactly_once hp hi.pool).2.length_eq
            rw [this] at p2
            simp only [List.length_append, List.length_nil] at p2
            have := List.length_pos_of_mem hf
            omega
          · rw [hr, List.length_cons] at ih
            by_cases hlt : after.length < r.length
            · exact .inl hlt
            · exfalso
              have hlen : r.length = after.length := by omega
              rw [hr] at b1
              have e := List.append_inj_right' b1 (by simp [hlen])
              injection e with e1 e2
              rcases hb with hb | ⟨t, hb⟩ <;> rw [hb] at e1 <;> cases e1
          · exact .inl ih
      · -- inside the waiting call
        right
        have hlen' : s'.rest.length = after.length ∧ s'.inWait = some j ∧ ∃ a, s.sys.pool.step push a = some s'.sys.pool ∧ ∀ t w, a ≠ .schedule t w := by
          rcases step_cases h3 with ⟨a, y, rfl, hby, hy, rfl⟩ | ⟨who, m, rfl, hcase⟩
          · obtain ⟨_, p, hs, rfl⟩ := step_pool hy
            exact ⟨hlen, hj, a, hs, by rintro t w rfl; cases hby⟩
          · rcases hcase with ⟨j', hph, hj', hret, rfl⟩ | ⟨y, hph, hw, hr, hy, rfl⟩ | ⟨st, r, a, y, hph, hw, hr, ha, hy, rfl⟩ |
              ⟨t, r, hph, hw, hr, hf, rfl⟩ | ⟨r, hph, hw, hr, rfl⟩ | ⟨y, hph, hy, rfl⟩
            · rw [hj] at hj'
              injection hj' with hj'
              subst hj'
              obtain ⟨k, hk⟩ := hasReturned_iff hret
              exact absurd hk (hnr k)
            · rw [hj] at hw; cases hw
            · rw [hj] at hw; cases hw
            · rw [hj] at hw; cases hw
            · rw [hj] at hw; cases hw
            · rw [(hi.past hph).2] at hj; cases hj
        obtain ⟨l1, l2, a, hs, hne⟩ := hlen'
        obtain ⟨c', d1, d2⟩ := (stays_step hs).kind j c c1
        refine ⟨l1, hb0, j, l2, ⟨c', d1, d2.trans c2⟩, fun k hk => ?_⟩
        have hk0 : k = .tasks 0 := by
          rw [d1] at hk
          injection hk with hk
          subst hk
          exact d2.trans c2
        subst hk0
        rcases returned_step hs hk with h5 | h5
        · exact hnr _ h5
        · simp only [Pool.cond, Bool.and_eq_true, List.isEmpty_iff] at h5
          have hq := hz'.2
          obtain ⟨pre', q1, q2⟩ := (any_inv (h1.step h2 h3)).suffix
          rw [h5.2, q2] at hq
          have hpre : pre' = before ++ [b] := by
            have : before ++ [b] ++ after = pre' ++ s'.rest := by rw [← q1]; simp
            exact (List.append_inj_left' this l1.symm).symm
          rw [hpre, tasks_append] at hq
          exact ht (List.append_eq_nil_iff.1 (List.length_eq_zero_iff.1 hq.symm)).1
  rcases key with key | ⟨hlen, hb0, j, hj, _, hnr⟩
  · exact .inl key
  · right
    obtain ⟨pre, b1, _⟩ := (any_inv h).suffix
    have e := List.append_inj_right' (s₁ := before ++ [b]) (by rw [← b1]; simp) hlen.symm
    refine ⟨e.symm, hb0, j, hj, ?_⟩
    cases hr : hasReturned s.sys.pool j with
    | false => rfl
    | true =>
      obtain ⟨k, hk⟩ := hasReturned_iff hr
      exact absurd hk (hnr k)

/-! ## The tutorial and the quick start -/

/-- Section 1 of the tutorial and the quick start meet the hypotheses of `C94_ends`. -/
example : Sound Job.throws 2 [] section1 ∧ Sound Job.throws 2 [] quickstart := ⟨trivial, trivial⟩

/-- So does a program with futures on a pool that has threads. -/
example : Sound Job.throws 2 []
    [.schedule ⟨"task_1", 0⟩, .schedule ⟨"task_int_23", 0⟩, .resize 3, .await ⟨"task_int_23", 0⟩, .resizeActive 1, .wait 2, .wait 0] :=
  ⟨by decide, by simp, by decide, by decide, trivial⟩

/-- A sound program reaches its end: the conclusions of the theorems are not about states that do not occur. -/
theorem end_exists {push : Push T} (hp : Keeps push) (throws : T → Bool) {n made : Nat} (hn : 1 ≤ n) (hm : 1 ≤ made)
    (prog : List (Stmt T)) (hs : Sound throws n [] prog) : ∃ s, Reaches push throws Granted (start n made prog) s ∧ Ended s := by
  have hwf : WellFounded (fun a b : St T => size a < size b) := InvImage.wf size wellFounded_lt
  have key : ∀ x : St T, Reaches push throws Granted (start n made prog) x →
      ∃ s, Reaches push throws Granted (start n made prog) s ∧ Ended s := by
    intro x
    refine hwf.induction (C := fun x => Reaches push throws Granted (start n made prog) x →
      ∃ s, Reaches push throws Granted (start n made prog) s ∧ Ended s) x ?_
    intro x ih hx
    by_cases hst : ∀ mv, Own mv → x.step push throws mv = none
    · exact ⟨x, hx, stuck_ended hp hn hm hs hx hst⟩
    · obtain ⟨mv, h1⟩ := not_forall.1 hst
      obtain ⟨ho, h2⟩ := Classical.not_imp.1 h1
      obtain ⟨y, hy⟩ := Option.ne_none_iff_exists'.1 h2
      refine ih y (size_step (knows hs hx).pos ho hy) (.step hx ?_ hy)
      cases mv with
      | main who m => trivial
      | world a => cases a <;> trivial
  exact key _ .init

/-- C94. The tutorial: section 1 comes to its end with `task_3` and `task_with_parameter` executed and `task_1` and `task_2` having
thrown; the quick start has executed both tasks when `wait()` returns. -/
theorem _root_.SpatialOps.C94_tutorial_section1 {s : St Job} (h : Reaches fifoPush Job.throws Granted (start 2 2 section1) s) :
    (¬ ∃ f : Nat → St Job, f 0 = s ∧ ∀ i, ∃ mv, Own mv ∧ (f i).step fifoPush Job.throws mv = some (f (i + 1))) ∧
    ((∀ mv, Own mv → s.step fifoPush Job.throws mv = none) → Ended s) ∧
    (Ended s → s.sys.pool.finished.Perm [⟨"task_3", 0⟩, ⟨"task_with_parameter", 4⟩] ∧
      s.sys.pool.failed.Perm [⟨"task_1", 0⟩, ⟨"task_2", 0⟩]) := by
  have hp : Keeps (fifoPush : Push Job) := (C34_policies fun _ => 0).1
  obtain ⟨h1, h2⟩ := C94_ends hp Job.throws (by decide) (by decide) section1 trivial h
  refine ⟨h1, h2, fun he => ?_⟩
  obtain ⟨_, h3, h4, _⟩ := C94_all_executed hp Job.throws section1 h he
  exact ⟨h3, h4⟩

/-- C94. The quick start: when `tp.wait()` has returned both tasks have been executed. -/
theorem _root_.SpatialOps.C94_quickstart {P : Move Job → Prop} {s : St Job} (h : Reaches fifoPush Job.throws P (start 2 2 quickstart) s)
    (hr : s.rest = []) (hw : s.inWait = none) :
    (s.sys.pool.finished ++ s.sys.pool.failed).Perm [⟨"first_task", 0⟩, ⟨"second_task", 0⟩] := by
  have hp : Keeps (fifoPush : Push Job) := (C34_policies fun _ => 0).1
  exact (C94_after_wait hp Job.throws [.schedule ⟨"first_task", 0⟩, .schedule ⟨"second_task", 0⟩] [] h hr hw).2.2.symm

/-- C94, what fails. The tutorial does not come to its end: its sections on futures, on scheduling and on priorities create the pool without
threads and hang, the first at `res.wait()`, the others at `tp.wait()`. No task is started. -/
theorem _root_.SpatialOps.C94_tutorial_hangs {P : Move Job → Prop} :
    (∀ s, Reaches fifoPush Job.throws P (start 0 0 futures) s → ¬ Ended s ∧ s.sys.pool.started = [] ∧ 2 < s.rest.length) ∧
    (∀ s, Reaches lifoPush Job.throws P (start 0 0 section2) s → ¬ Ended s ∧ s.sys.pool.started = [] ∧ ¬ (s.rest = [] ∧ s.inWait = none)) ∧
    (∀ s, Reaches (prioPush priority) Job.throws P (start 0 0 section3) s →
      ¬ Ended s ∧ s.sys.pool.started = [] ∧ ¬ (s.rest = [] ∧ s.inWait = none)) := by
  obtain ⟨p1, p2, p3, -⟩ := C34_policies priority
  refine ⟨fun s h => ?_, fun s h => ?_, fun s h => ?_⟩
  · obtain ⟨h1, h2⟩ := C94_empty_pool_never_ends p1 Job.throws futures (by simp [futures]) (by decide) h
    refine ⟨h1, h2, ?_⟩
    rcases C94_empty_pool_hangs p1 Job.throws
      [.look, .look, .look, .resize 2, .schedule ⟨"task_int_1", 0⟩, .schedule ⟨"task_int_23", 0⟩, .schedule ⟨"task_int_1", 1⟩]
      [.await ⟨"task_int_23", 0⟩, .await ⟨"task_int_1", 1⟩] (.await ⟨"task_int_23", 0⟩) (.inr ⟨_, rfl⟩) (by simp) (by decide) h with h3 | h3
    · exact h3
    · cases h3.2.1
  · obtain ⟨h1, h2⟩ := C94_empty_pool_never_ends p2 Job.throws section2 (by simp [section2]) (by decide) h
    refine ⟨h1, h2, ?_⟩
    rcases C94_empty_pool_hangs p2 Job.throws
      [.schedule ⟨"task_1", 0⟩, .schedule ⟨"task_2", 0⟩, .schedule ⟨"task_3", 0⟩, .resize 5] [] (.wait 0) (.inl rfl) (by simp) (by decide) h
      with h3 | ⟨_, _, j, h3, _⟩
    · rintro ⟨e, _⟩; rw [e] at h3; cases h3
    · rintro ⟨_, e⟩; rw [e] at h3; cases h3
  · obtain ⟨h1, h2⟩ := C94_empty_pool_never_ends p3 Job.throws section3 (by simp [section3]) (by decide) h
    refine ⟨h1, h2, ?_⟩
    rcases C94_empty_pool_hangs p3 Job.throws
      [.schedule ⟨"task_1", 0⟩, .schedule ⟨"task_2", 0⟩, .schedule ⟨"task_3", 0⟩, .resize 10] [] (.wait 0) (.inl rfl) (by simp) (by decide) h
      with h3 | ⟨_, _, j, h3, _⟩
    · rintro ⟨e, _⟩; rw [e] at h3; cases h3
    · rintro ⟨_, e⟩; rw [e] at h3; cases h3

/-! ## Programs with nothing to do -/

/-- A pool without threads and without tasks, all of whose waiting calls have returned. -/
structure Bare (s : St T) : Prop where
  workers : s.sys.pool.workers = []
  queue : s.sys.pool.queue = []
  wc : s.sys.pool.wc = 0
  act : s.sys.pool.act = 0
  started : s.sys.pool.started = []
  back : ∀ c ∈ s.sys.pool.clients, ∃ k, c = .returned k
  quiet : ∀ c ∈ s.rest, Quiet c
  inWait : ∀ j, s.inWait = some j → j < s.sys.pool.clients.length
  phase : match s.sys.phase with
    | .cleared => False
    | .waiting j | .ending j => j < s.sys.pool.clients.length
    | _ => True

omit [DecidableEq T] in
theorem Bare.hasReturned {s : St T} (h : Bare s) {j : Nat} (hj : j < s.sys.pool.clients.length) : hasReturned s.sys.pool j = true := by
  obtain ⟨k, hk⟩ := h.back _ (List.getElem_mem hj)
  unfold Shutdown.hasReturned
  rw [List.getElem?_eq_getElem hj, hk]

/-- What is left to do: the calls, the waits the thread is in, and the steps of the destructor. -/
def toDo (s : St T) : Nat :=
  2 * s.rest.length + (if s.inWait = none then 0 else 1) +
    (match s.sys.phase with | .idle => 3 | .cleared => 3 | .waiting _ => 2 | .ending _ => 1 | .done => 0)

omit [DecidableEq T] in
theorem bare_cond {s : St T} (h : Bare s) (k : CKind) : s.sys.pool.cond k = true := by
  cases k with
  | allGone => simp [Pool.cond, h.wc]
  | tasks n => cases n <;> simp [Pool.cond, h.act, h.queue]; omega

theorem bare_world {s : St T} (h : Bare s) (push : Push T) (throws : T → Bool) (a : Act T) : s.step push throws (.world a) = none := by
  have hc : ∀ j : Nat, s.sys.pool.clients[j]? = none ∨ ∃ k, s.sys.pool.clients[j]? = some (.returned k) := by
    intro j
    by_cases hj : j < s.sys.pool.clients.length
    · obtain ⟨k, hk⟩ := h.back _ (List.getElem_mem hj)
      exact .inr ⟨k, by rw [List.getElem?_eq_getElem hj, hk]⟩
    · exact .inl (List.getElem?_eq_none (by omega))
  unfold St.step
  cases a with
  | clientSpurious j => rcases hc j with e | ⟨k, e⟩ <;> simp [byItself, Sys.step, isPrivate, Pool.step, e]
  | clientResume j => rcases hc j with e | ⟨k, e⟩ <;> simp [byItself, Sys.step, isPrivate, Pool.step, e]
  | _ => simp [byItself, Sys.step, isPrivate, Pool.step, h.workers]

theorem bare_main {s : St T} (h : Bare s) (hne : ¬ Ended s) (push : Push T) (throws : T → Bool) (who : Option Nat) (made : Nat) :
    ∃ s', s.step push throws (.main who made) = some s' ∧ Bare s' ∧ toDo s' < toDo s := by
  have hw := h.workers; have hqu := h.queue; have hwc := h.wc; have hact := h.act; have hst := h.started
  unfold St.step
  cases hph : s.sys.phase with
  | done => exact absurd hph hne
  | cleared => have := h.phase; rw [hph] at this; exact this.elim
  | waiting j =>
    have hj := h.phase; rw [hph] at hj
    have hr := h.hasReturned hj
    simp only [Sys.step, hph, hr, if_true, enterTerminate, Pool.step, Option.bind_some, Option.map_some]
    refine ⟨_, rfl, ⟨by simp [hw], hqu, hwc, hact, hst, ?_, h.quiet, ?_, ?_⟩, ?_⟩
    · intro c hc
      rcases List.mem_append.1 hc with hc | hc
      · exact h.back c hc
      · rw [List.mem_singleton.1 hc]
        simp [Pool.cond, hwc]
    · intro k hk
      have := h.inWait k hk
      simp only [List.length_append]; omega
    · simp
    · simp only [toDo, hph]; omega
  | ending j =>
    have hj := h.phase; rw [hph] at hj
    have hr := h.hasReturned hj
    simp only [Sys.step, hph, hr, if_true, Option.map_some]
    refine ⟨_, rfl, ⟨hw, hqu, hwc, hact, hst, h.back, h.quiet, h.inWait, trivial⟩, ?_⟩
    simp only [toDo, hph]; omega
  | idle =>
    dsimp only
    cases hi : s.inWait with
    | some j =>
      have hr := h.hasReturned (h.inWait j hi)
      simp only [hr, if_true]
      refine ⟨_, rfl, ⟨hw, hqu, hwc, hact, hst, h.back, h.quiet, fun k hk => (by cases hk), h.phase⟩, ?_⟩
      simp [toDo, hi]
    | none =>
      have hq := h.quiet
      unfold St.call
      dsimp only
      cases hr : s.rest with
      | nil =>
        simp only [Sys.step, hph, enterWait, Pool.step, Option.map_some]
        refine ⟨_, rfl, ⟨hw, hqu, hwc, hact, hst, ?_, by simp, fun k hk => (by cases hk), by simp⟩, ?_⟩
        · intro c hc
          rcases List.mem_append.1 hc with hc | hc
          · exact h.back c hc
          · rw [List.mem_singleton.1 hc, if_pos (bare_cond h _)]
            exact ⟨_, rfl⟩
        · simp [toDo, hi, hph, hr]
      | cons c r =>
        rw [hr] at hq
        have hq1 := hq c (by simp)
        have hq2 : ∀ c ∈ r, Quiet c := fun c hc => hq c (by simp [hc])
        cases c with
        | schedule t => exact hq1.elim
        | await t => exact hq1.elim
        | look =>
          exact ⟨_, rfl, ⟨hw, hqu, hwc, hact, hst, h.back, hq2, fun k hk => (by cases hk), h.phase⟩, by simp [toDo, hi, hph, hr]⟩
        | resizeActive n =>
          exact ⟨_, rfl, ⟨hw, hqu, hwc, hact, hst, h.back, hq2, fun k hk => (by cases hk), h.phase⟩, by simp [toDo, hi, hph, hr]⟩
        | resize n =>
          have hn : n = 0 := hq1
          subst hn
          have hrs : ∃ t, s.sys.pool.resize 0 made = { s.sys.pool with target := t } := by
            unfold Pool.resize
            split
            · exact ⟨s.sys.pool.target, rfl⟩
            · refine ⟨0, ?_⟩
              simp [hwc, Pool.grow]
          obtain ⟨t, ht⟩ := hrs
          simp only [Sys.step, isPrivate, Pool.step, ht, Option.map_some, if_false, Bool.false_eq_true]
          exact ⟨_, rfl, ⟨hw, hqu, hwc, hact, hst, h.back, hq2, fun k hk => (by cases hk), h.phase⟩, by simp [toDo, hi, hph, hr]⟩
        | wait k =>
          simp only [Sys.step, isPrivate, Pool.step, Option.map_some, if_false, Bool.false_eq_true]
          refine ⟨_, rfl, ⟨hw, hqu, hwc, hact, hst, ?_, hq2, ?_, ?_⟩, by simp [toDo, hi, hph, hr]; omega⟩
          · intro c hc
            rcases List.mem_append.1 hc with hc | hc
            · exact h.back c hc
            · rw [List.mem_singleton.1 hc, if_pos (bare_cond h _)]
              exact ⟨_, rfl⟩
          · intro j hj
            injection hj with hj
            subst hj
            simp
          · dsimp only; rw [hph]; trivial

/-- C94. A program that hands no task over and creates no threads comes to its end whatever it calls, with any scheduling policy, although
the pool has no threads: nothing is ever started, no run goes on forever, and it stops only at its end. -/
theorem _root_.SpatialOps.C94_nothing_to_do {push : Push T} {P : Move T → Prop} (throws : T → Bool) (made : Nat) (prog : List (Stmt T))
    (hq : ∀ c ∈ prog, Quiet c) {s : St T} (h : Reaches push throws P (start 0 made prog) s) :
    s.sys.pool.started = [] ∧
    (¬ ∃ f : Nat → St T, f 0 = s ∧ ∀ i, ∃ mv, (f i).step push throws mv = some (f (i + 1))) ∧
    ((∀ mv, Own mv → s.step push throws mv = none) → Ended s) := by
  have hstep : ∀ {a b : St T} {mv : Move T}, Bare a → a.step push throws mv = some b → Bare b ∧ toDo b < toDo a := by
    intro a b mv ha hs
    cases mv with
    | world x => rw [bare_world ha] at hs; cases hs
    | main who m =>
      by_cases he : Ended a
      · unfold St.step at hs
        have he' : a.sys.phase = .done := he
        simp [he', Sys.step] at hs
      · obtain ⟨s', e1, e2, e3⟩ := bare_main ha he push throws who m
        rw [e1] at hs
        injection hs with hs
        subst hs
        exact ⟨e2, e3⟩
  have hb : Bare s := by
    induction h with
    | init =>
      have e : (Pool.create 0 made : Pool T) = Pool.empty := by simp [Pool.create, Pool.resize, Pool.resizeActive, Pool.grow, Pool.empty]
      refine ⟨?_, ?_, ?_, ?_, ?_, ?_, hq, fun j hj => (by cases hj), trivial⟩ <;>
        simp [start, Sys.create, e, Pool.empty]
    | step _ _ hs ih => exact (hstep ih hs).1
  refine ⟨hb.started, ?_, fun hst => ?_⟩
  · rintro ⟨f, h0, hf⟩
    have key : ∀ i, Bare (f i) ∧ toDo (f i) + i ≤ toDo s := by
      intro i
      induction i with
      | zero => rw [h0]; exact ⟨hb, by omega⟩
      | succ i ih =>
        obtain ⟨mv, hm⟩ := hf i
        obtain ⟨b1, b2⟩ := hstep ih.1 hm
        exact ⟨b1, by omega⟩
    have := (key (toDo s + 1)).2
    omega
  · by_contra he
    obtain ⟨s', e1, _⟩ := bare_main hb he push throws none 0
    rw [hst (.main none 0) trivial] at e1
    cases e1

/-- C94. The compile tests at the end of the tutorial come to their end. -/
theorem _root_.SpatialOps.C94_compile_tests {P : Move Job → Prop} {s : St Job} (h : Reaches fifoPush Job.throws P (start 0 0 compileTests) s) :
    (¬ ∃ f : Nat → St Job, f 0 = s ∧ ∀ i, ∃ mv, (f i).step fifoPush Job.throws mv = some (f (i + 1))) ∧
    ((∀ mv, Own mv → s.step fifoPush Job.throws mv = none) → Ended s) :=
  (C94_nothing_to_do Job.throws 0 compileTests (by simp [compileTests, Quiet]) h).2

end Script
end SpatialOps
