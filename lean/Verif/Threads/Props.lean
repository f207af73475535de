import Verif.Threads.Settle

/-!
# Property theorems for the thread pool: C34 - C37, C39

A state of the pool is reachable (`Reach push P (create n made) s`) if it results
from creating a pool of `n` threads, of which the system granted `made`, and any
interleaving of actions of clients, workers and the system. `P` restricts the
clients; where it is a variable, clients may do anything. Task identities are of
any type.
-/

namespace SpatialOps
open Threads Threads.Pool
variable {T : Type}

/-! ## C34: every task is executed exactly once, in the order of the policy -/

/-- C34. Under every interleaving (tasks that throw, failing thread creation,
resizing, discarding and spurious wake-ups included) no task is lost or duplicated:
what was scheduled is, as a multiset, what was started, what is pending and what
was discarded by `clear`; and each started task has finished, has thrown, or is
being executed by exactly one worker. -/
theorem C34_exactly_once {push : Push T} (hp : Keeps push) {P : Pool T → Act T → Prop} {n made : Nat}
    {s : Pool T} (h : Reach push P (create n made) s) :
    s.scheduled.Perm (s.started ++ s.queue ++ s.cleared) ∧
    s.started.Perm (s.finished ++ s.failed ++ runningTasks s.workers) :=
  (tasks_reach hp (tasks_create n made) h).perm

/-- C34. If the tasks handed to the pool are distinct, then none is started twice,
none is both pending and started, and none is executed by two workers. -/
theorem C34_no_task_twice {push : Push T} (hp : Keeps push) {P : Pool T → Act T → Prop} {n made : Nat}
    {s : Pool T} (h : Reach push P (create n made) s) (hd : s.scheduled.Nodup) :
    (s.started ++ s.queue ++ s.cleared).Nodup ∧
    (s.finished ++ s.failed ++ runningTasks s.workers).Nodup := by
  obtain ⟨h1, h2⟩ := C34_exactly_once hp h
  have h3 := h1.nodup_iff.1 hd
  refine ⟨h3, h2.nodup_iff.1 ?_⟩
  exact (List.nodup_append.1 (List.nodup_append.1 h3).1).1

/-- C34. The three scheduling policies store the new task and keep the others; the
priority policy keeps them by descending priority. -/
theorem C34_policies (prio : T → Nat) : Keeps (fifoPush : Push T) ∧ Keeps (lifoPush : Push T) ∧
    ByPriority prio (prioPush prio) :=
  ⟨fun _ _ => List.perm_append_comm, fun _ _ => List.Perm.refl _, fun q t => prioInsert_perm prio t q,
    fun _ _ h => prioInsert_sorted h⟩

/-- C34. With the FIFO policy, the tasks started followed by those pending are, in
this order, those scheduled, less those discarded; if nothing is discarded, tasks
are started in exactly the order in which they were scheduled. -/
theorem C34_fifo {P : Pool T → Act T → Prop} {n made : Nat} {s : Pool T}
    (h : Reach fifoPush P (create n made) s) :
    (s.started ++ s.queue).Sublist s.scheduled ∧
    ((∀ s a, P s a → NoClear s a) → s.scheduled = s.started ++ s.queue) := by
  have h0 : (create n made : Pool T).started ++ (create n made : Pool T).queue = (create n made : Pool T).scheduled := by
    have : (create n made : Pool T).started = [] ∧ (create n made : Pool T).queue = [] ∧
        (create n made : Pool T).scheduled = [] := by
      unfold create resizeActive resize grow empty
      simp
    rw [this.1, this.2.1, this.2.2]; rfl
  induction h with
  | init => exact ⟨h0 ▸ List.Sublist.refl _, fun _ => h0.symm⟩
  | @step s s' a h1 h2 h3 ih =>
    obtain ⟨i1, i2⟩ := ih
    obtain ⟨j1, j2⟩ := fifo_step h3 i1
    refine ⟨j1, fun hP => (j2 ?_ (i2 hP).symm).symm⟩
    intro e
    subst e
    exact hP _ _ h2

/-- C34. With the LIFO policy the task started is the one scheduled last among
those pending: the pending tasks, oldest first, are a subsequence of those
scheduled, and the last of them is the one taken. -/
theorem C34_lifo {P : Pool T → Act T → Prop} {n made : Nat} {s s' : Pool T} {a : Act T}
    (h : Reach lifoPush P (create n made) s) (hs : s.step lifoPush a = some s') {t : T}
    (ht : s'.started = s.started ++ [t]) :
    s.queue.reverse.Sublist s.scheduled ∧ s.queue.reverse = s'.queue.reverse ++ [t] := by
  refine ⟨lifo_reach ?_ h, ?_⟩
  · have : (create n made : Pool T).queue = [] := by
      unfold create resizeActive resize grow empty
      simp
    rw [this]; simp
  · rw [(start_step hs ht).1, List.reverse_cons]

/-- C34. With the priority policy no pending task has a higher priority than the
one started, whatever the order among equal priorities. -/
theorem C34_prio {prio : T → Nat} {push : Push T} (hp : ByPriority prio push)
    {P : Pool T → Act T → Prop} {n made : Nat} {s s' : Pool T} {a : Act T}
    (h : Reach push P (create n made) s) (hs : s.step push a = some s') {t : T}
    (ht : s'.started = s.started ++ [t]) : t ∈ s.queue ∧ ∀ u ∈ s.queue, prio u ≤ prio t := by
  have h0 : (create n made : Pool T).queue.Pairwise fun a b => prio b ≤ prio a := by
    have : (create n made : Pool T).queue = [] := by
      unfold create resizeActive resize grow empty
      simp
    rw [this]; simp
  have h1 := prio_reach hp h0 h
  rw [(start_step hs ht).1] at h1 ⊢
  refine ⟨by simp, fun u hu => ?_⟩
  rcases List.mem_cons.1 hu with e | hu
  · rw [e]; exact Nat.le_refl _
  · exact (List.pairwise_cons.1 h1).1 u hu

/-- The hypotheses are met: three workers, four tasks, one of which throws. -/
example : ∃ s, Reach fifoPush (fun _ _ => True) (create 3 3) s ∧ s.scheduled = [1, 2, 3, 4] ∧
    s.started = [1, 2, 3] ∧ s.queue = [4] ∧ s.finished = [2] ∧ s.failed = [1] ∧
    runningTasks s.workers = [3] :=
  ⟨_, Reach.ofRun [.schedule 1 none, .fetch 0, .schedule 2 none, .schedule 3 none, .fetch 2,
    .fetch 1, .finish 2, .fail 0 1, .schedule 4 none] rfl, by decide +kernel⟩

/-- A run of the priority policy that starts a task out of order. -/
example : ∃ s s', Reach (prioPush id) (fun _ _ => True) (create 1 1) s ∧
    s.step (prioPush id) (.fetch 0) = some s' ∧ s'.started = s.started ++ [7] ∧
    s.scheduled = [3, 7, 5] :=
  ⟨_, _, Reach.ofRun [.schedule 3 none, .schedule 7 none, .schedule 5 none] rfl, rfl, by decide +kernel⟩

/-- Another priority policy: the later of two equal priorities comes first. -/
example (prio : T → Nat) : ByPriority prio (fun q t => q.filter (fun u => decide (prio t < prio u)) ++
    t :: q.filter (fun u => !decide (prio t < prio u))) := by
  refine ⟨fun q t => List.perm_middle.trans ((List.filter_append_perm _ q).cons t), fun q t h => ?_⟩
  refine List.pairwise_append.2 ⟨h.filter _, List.pairwise_cons.2 ⟨fun u hu => ?_, h.filter _⟩,
    fun a ha b hb => ?_⟩
  · simp only [List.mem_filter, Bool.not_eq_true', decide_eq_false_iff_not] at hu
    omega
  · simp only [List.mem_filter, decide_eq_true_eq] at ha
    rcases List.mem_cons.1 hb with e | hb
    · subst e; omega
    · simp only [List.mem_filter, Bool.not_eq_true', decide_eq_false_iff_not] at hb
      omega

/-! ## C35: wake-ups are not lost -/

/-- C35. As long as the pool is not made smaller, at least one worker may be
active, and the system replaces workers whose task threw: whenever a task is
pending some worker can take a step. Clients may discard tasks, grow the pool and
change the limit on active workers at any moment. -/
theorem C35_no_lost_wakeup {push : Push T} {n made : Nat} (hn : 1 ≤ n) (hm : 1 ≤ made) {s : Pool T}
    (h : Reach push NoShrink (create n made) s) (hq : s.queue ≠ []) : ¬ Quiet push s := by
  intro hQ
  have h1 := (wake_reach (wake_create hn hm) (counts_create n made) (fun _ _ h => h) h).busy hq
  have h2 := (quiet_busy hQ).1
  omega

/-- C35. Left alone, the workers execute everything that was scheduled: no
sequence of worker steps is longer than a bound given by the state, and where no
worker can move any more, no task is pending or running and every task scheduled has
finished, thrown or been discarded. -/
theorem C35_drains {push : Push T} (hp : Keeps push) {n made : Nat} (hn : 1 ≤ n) (hm : 1 ≤ made)
    {s : Pool T} (h : Reach push NoShrink (create n made) s) :
    ∃ N : Nat, ∀ (as : List (Act T)) (s' : Pool T), (∀ a ∈ as, WorkerAct a) → s.run push as = some s' →
      as.length ≤ N ∧ (Quiet push s' → s'.queue = [] ∧ runningTasks s'.workers = [] ∧
        s.scheduled.Perm (s'.finished ++ s'.failed ++ s.cleared)) := by
  refine ⟨fuel s, fun as s' hw hr => ⟨?_, fun hQ => ?_⟩⟩
  · have := fuel_run hw hr; omega
  · have h' := h.run (fun a ha s => noShrink_worker (hw a ha) s) hr
    have hq : s'.queue = [] := by
      by_contra hne
      exact C35_no_lost_wakeup hn hm h' hne hQ
    have hrun := running_nil_of_busy (quiet_busy hQ).1
    obtain ⟨p1, p2⟩ := C34_exactly_once hp h'
    rw [hq, List.append_nil] at p1
    rw [hrun, List.append_nil] at p2
    obtain ⟨e1, _, _, e2⟩ := worker_run hw hr
    rw [e1, e2] at p1
    exact ⟨hq, hrun, p1.trans (p2.append_right _)⟩

/-- C35, what fails. A pool created with no threads and grown afterwards never
executes anything, whatever is scheduled: its limit on active workers is still
zero. Here two workers are asleep with a task pending and nobody to wake them. -/
theorem C35_zero_pool_never_runs : ∃ s : Pool Nat,
    Reach fifoPush (fun _ _ => True) (create 0 0) s ∧ s.queue = [1] ∧ liveWorkers s.workers = 2 ∧
    Quiet fifoPush s :=
  ⟨_, Reach.ofRun [.resize 2 2, .schedule 1 none, .fetch 0, .fetch 1] rfl, rfl, rfl,
    quiet_of_all (by decide +kernel)⟩

/-- C35, what fails. Shrinking can lose a wake-up: four workers, one allowed to be
active, shrunk to three. Two workers see the surplus and leave; while the second is
on its way out it still counts as active, so the remaining two go back to sleep with
a task pending. -/
theorem C35_shrink_loses_wakeup : ∃ s : Pool Nat,
    Reach fifoPush (fun _ _ => True) (create 4 4) s ∧ s.queue = [1] ∧ liveWorkers s.workers = 2 ∧
    1 ≤ s.tact ∧ s.terminating = false ∧ Quiet fifoPush s :=
  ⟨_, Reach.ofRun [.resizeActive 1, .resize 3 0, .fetch 0, .fetch 1, .exit 0, .schedule 1 none, .fetch 2,
    .fetch 3, .exit 1] rfl, rfl, rfl, by decide, rfl, quiet_of_all (by decide +kernel)⟩

/-- C35, what fails. A worker whose task throws while the system refuses a new
thread takes the pending wake-up with it. -/
theorem C35_failed_replacement_loses_wakeup : ∃ s : Pool Nat,
    Reach fifoPush (fun _ _ => True) (create 2 2) s ∧ s.queue = [2] ∧ liveWorkers s.workers = 1 ∧
    1 ≤ s.tact ∧ Quiet fifoPush s :=
  ⟨_, Reach.ofRun [.resizeActive 1, .fetch 1, .schedule 1 (some 1), .fetch 0, .resume 1, .schedule 2 (some 1),
    .resume 1, .fail 0 0] rfl, rfl, rfl, by decide, quiet_of_all (by decide +kernel)⟩

/-- The hypotheses of C35 are met with a task pending and a worker asleep. -/
example : ∃ s, Reach fifoPush NoShrink (create 2 2) s ∧ s.queue = [2] ∧ s.workers = [.running 1, .woken] := by
  refine ⟨_, Reach.run .init (as := [.schedule 1 none, .fetch 0, .fetch 1, .schedule 2 (some 1)]) ?_ rfl, rfl, rfl⟩
  intro a ha s
  simp only [List.mem_cons, List.not_mem_nil, or_false] at ha
  rcases ha with rfl | rfl | rfl | rfl <;> exact trivial

/-! ## C36: `wait` -/

/-- C36. When a call of `wait()` returns, nothing is pending, no worker is executing
a task, and every task scheduled up to that point has finished, thrown or been
discarded. Holds for all histories, with shrinking and discarding. -/
theorem C36_wait_returns_when_idle {push : Push T} (hp : Keeps push) {P : Pool T → Act T → Prop}
    {n made : Nat} {s s' : Pool T} {a : Act T} (h : Reach push P (create n made) s) (hP : P s a)
    (hs : s.step push a = some s') {j : Nat} (hnew : s.clients[j]? ≠ some (.returned (.tasks 0)))
    (hret : s'.clients[j]? = some (.returned (.tasks 0))) :
    s'.queue = [] ∧ runningTasks s'.workers = [] ∧
    s'.scheduled.Perm (s'.finished ++ s'.failed ++ s'.cleared) := by
  have h' := Reach.step h hP hs
  have hc := (returned_step hs hret).resolve_left hnew
  simp only [Pool.cond, Bool.and_eq_true, decide_eq_true_eq, List.isEmpty_iff] at hc
  have hn := counts_reach (counts_create n made) h'
  have hrun : runningTasks s'.workers = [] := running_nil_of_active (by have := hn.act; omega)
  obtain ⟨p1, p2⟩ := C34_exactly_once hp h'
  rw [hc.2, List.append_nil] at p1
  rw [hrun, List.append_nil] at p2
  exact ⟨hc.2, hrun, p1.trans (p2.append_right _)⟩

/-- C36. When `wait(k)` with a positive threshold returns, at most `k` tasks are
pending or being executed. -/
theorem C36_wait_threshold {push : Push T} {P : Pool T → Act T → Prop} {n made : Nat} {s s' : Pool T}
    {a : Act T} (h : Reach push P (create n made) s) (hP : P s a) (hs : s.step push a = some s') {j k : Nat}
    (hnew : s.clients[j]? ≠ some (.returned (.tasks (k + 1))))
    (hret : s'.clients[j]? = some (.returned (.tasks (k + 1)))) :
    s'.queue.length + (runningTasks s'.workers).length ≤ k + 1 := by
  have h' := Reach.step h hP hs
  have hc := (returned_step hs hret).resolve_left hnew
  simp only [Pool.cond, Bool.not_eq_true', decide_eq_false_iff_not] at hc
  have hn := (counts_reach (counts_create n made) h').act
  have := running_le_active s'.workers
  omega

/-- C36. The counter of active workers never undercounts the tasks being executed
and never exceeds the number of workers; both counters are exact and never wrap
below zero. -/
theorem C36_counters {push : Push T} {P : Pool T → Act T → Prop} {n made : Nat} {s : Pool T}
    (h : Reach push P (create n made) s) :
    s.wc = liveWorkers s.workers ∧ (runningTasks s.workers).length ≤ s.act ∧ 0 ≤ s.act ∧ s.act ≤ s.wc := by
  have hn := counts_reach (counts_create n made) h
  have h1 := running_le_active s.workers
  have h2 := tot_active s.workers
  have h3 := tot_alive s.workers
  rw [hn.wc, hn.act, liveWorkers_eq]
  refine ⟨rfl, by omega, by omega, by omega⟩

/-- C36. Without shrinking, `wait` does return, whatever its threshold: once the
workers have come to rest no client is left asleep in it, and a client that has been
woken returns as soon as it runs. -/
theorem C36_waiters_released {push : Push T} {n made : Nat} (hn : 1 ≤ n)
    (hm : 1 ≤ made) {s : Pool T} (h : Reach push NoShrink (create n made) s) (hQ : Quiet push s) (k : Nat) :
    .waiting (.tasks k) ∉ s.clients ∧
    ∀ j, s.clients[j]? = some (.woken (.tasks k)) → ∃ s', s.step push (.clientResume j) = some s' ∧
      s'.clients[j]? = some (.returned (.tasks k)) := by
  have hb := quiet_busy hQ
  have hc := counts_reach (counts_create n made) h
  have hact : s.act = 0 := by
    have := tot_active s.workers
    have := hc.act
    omega
  have hq : s.queue = [] := by
    by_contra hne
    exact C35_no_lost_wakeup hn hm h hne hQ
  have hcond : s.cond (.tasks k) = true := by
    cases k with
    | zero => simp [Pool.cond, hact, hq]
    | succ k =>
      simp only [Pool.cond, hact, hq, Bool.not_eq_true', decide_eq_false_iff_not, List.length_nil]
      omega
  refine ⟨fun hw => ?_, fun j hj => ?_⟩
  · rcases client2_reach hn hm h k hw with h1 | h1
    · rw [hcond] at h1; cases h1
    · omega
  · refine ⟨_, by simp only [step, hj]; rfl, ?_⟩
    have hlt : j < s.clients.length := by
      by_contra hge
      rw [List.getElem?_eq_none (by omega)] at hj
      cases hj
    simp only [hcond, if_true]
    rw [List.getElem?_set_self hlt]

/-- C36. With any resizing, but nothing discarded: a client asleep in `wait()` still
has something to wait for. -/
theorem C36_sleeping_client_has_reason {push : Push T} (hp : Keeps push) {n made : Nat} {s : Pool T}
    (h : Reach push NoClear (create n made) s) (hw : .waiting (.tasks 0) ∈ s.clients) :
    s.queue ≠ [] ∨ 0 < s.act := by
  have hc := (counts_reach (counts_create n made) h).act
  rcases (client_reach hp (client_create n made) (counts_create n made) (fun _ _ h => h) h).tasks 0 hw with h1 | h1
  · simp only [Pool.cond, Bool.and_eq_false_iff, decide_eq_false_iff_not] at h1
    rcases h1 with h1 | h1
    · right; omega
    · left
      intro hq
      rw [hq] at h1
      cases h1
  · exact Or.inr h1

/-- C36, what fails. `clear()` does not notify the waiting clients: in a pool with
no workers a client asleep in `wait()` is not woken when the pending tasks are
discarded, and nobody is left to wake it. -/
theorem C36_clear_forgets_waiters : ∃ s : Pool Nat,
    Reach fifoPush (fun _ _ => True) (create 0 0) s ∧ .waiting (.tasks 0) ∈ s.clients ∧ s.queue = [] ∧
    runningTasks s.workers = [] ∧ Quiet fifoPush s :=
  ⟨_, Reach.ofRun [.schedule 1 none, .wait (.tasks 0), .clear] rfl, by decide +kernel, rfl, rfl,
    quiet_of_all (by decide +kernel)⟩

/-- A client waits while a task is pending, and returns after it has finished. -/
example : ∃ s s' : Pool Nat, Reach fifoPush NoShrink (create 1 1) s ∧
    s.step fifoPush (.clientResume 0) = some s' ∧ s.clients[0]? = some (.woken (.tasks 0)) ∧
    s'.clients[0]? = some (.returned (.tasks 0)) ∧ s'.finished = [1] ∧ Quiet fifoPush s := by
  refine ⟨_, _, Reach.run .init (as := [.schedule 1 none, .wait (.tasks 0), .fetch 0, .finish 0, .fetch 0]) ?_ rfl,
    rfl, rfl, rfl, rfl, quiet_of_all (by decide +kernel)⟩
  intro a ha s
  simp only [List.mem_cons, List.not_mem_nil, or_false] at ha
  rcases ha with rfl | rfl | rfl | rfl | rfl <;> exact trivial

/-! ## C37: resizing and termination -/

/-- C37. Shrinking takes effect: after `resize(m)`, once the workers have come to
rest no more than `m` are left, however the request interleaved with their work; and
they do come to rest. The full property says exactly `m`; missing is that no fewer are
left, which is false (`C37_shrink_overshoots`). -/
theorem C37_shrink_settles_partial {push : Push T} {P : Pool T → Act T → Prop} {n made m made' : Nat} {s s1 : Pool T}
    (h : Reach push P (create n made) s) (ht : s.terminating = false)
    (h1 : s.step push (.resize m made') = some s1) :
    ∃ N : Nat, ∀ (as : List (Act T)) (s' : Pool T), (∀ a ∈ as, WorkerAct a) → s1.run push as = some s' →
      as.length ≤ N ∧ (Quiet push s' → liveWorkers s'.workers ≤ m) := by
  refine ⟨fuel s1, fun as s' hw hr => ⟨?_, fun hQ => ?_⟩⟩
  · have := fuel_run hw hr; omega
  · have hT := Reach.mono (Q := fun _ _ => True) (fun _ _ _ => trivial) h
    have hs := shrink_reach (shrink_create n made) ((hT.step trivial h1).run (fun _ _ _ => trivial) hr)
    have hc := counts_reach (counts_create n made) ((hT.step trivial h1).run (fun _ _ _ => trivial) hr)
    have e := (worker_run hw hr).2.1
    have e1 : s1.target = m := by
      simp only [step, Option.some.injEq] at h1
      subst h1
      unfold Pool.resize grow
      rw [if_neg (by simp [ht])]
      dsimp only
      split <;> rfl
    obtain ⟨q1, q2⟩ := quiet_busy hQ
    have q3 := tot_alive s'.workers
    rw [liveWorkers_eq]
    by_contra hgt
    have := hs.awake (by rw [hc.wc]; omega)
    omega

/-- C37. Growing takes effect at once, and the workers stay: with no worker on its
way out and all threads granted, after `resize(m)` there are `m` workers and there
still are when they have come to rest. Missing: growing while a worker is leaving, where it is
false (`C37_grow_misses_leaving_worker`). -/
theorem C37_grow_settles_partial {push : Push T} {P : Pool T → Act T → Prop} {n made m made' : Nat} {s s1 s' : Pool T}
    (h : Reach push P (create n made) s) (ht : s.terminating = false)
    (hl : ∀ w ∈ s.workers, w ≠ .leaving) (hle : liveWorkers s.workers ≤ m)
    (hm : m ≤ liveWorkers s.workers + made') (h1 : s.step push (.resize m made') = some s1)
    {as : List (Act T)} (hw : ∀ a ∈ as, WorkerAct a) (hr : s1.run push as = some s') :
    liveWorkers s1.workers = m ∧ liveWorkers s'.workers = m := by
  have hT := Reach.mono (Q := fun _ _ => True) (fun _ _ _ => trivial) h
  have hc := counts_reach (counts_create n made) hT
  have hc1 := counts_reach (counts_create n made) (hT.step (a := .resize m made') trivial h1)
  have hc' := counts_reach (counts_create n made)
    ((hT.step (a := .resize m made') trivial h1).run (fun _ _ _ => trivial) hr)
  rw [liveWorkers_eq] at hle hm ⊢
  rw [liveWorkers_eq]
  have hl0 : tot leaveW s.workers = 0 := by
    apply Nat.eq_zero_of_not_pos
    intro hp
    obtain ⟨i, w, a1, a2⟩ := tot_pos hp
    have := hl w (List.mem_of_getElem? a1)
    cases w <;> simp_all [leaveW]
  have hwc := hc.wc
  have e : s1.wc = m ∧ s1.target = m ∧ tot leaveW s1.workers = 0 := by
    simp only [step, Option.some.injEq] at h1
    subst h1
    unfold Pool.resize grow
    rw [if_neg (by simp [ht])]
    dsimp only
    rw [if_pos (by omega)]
    refine ⟨by dsimp only; omega, rfl, ?_⟩
    dsimp only
    rw [tot_append, hl0]
    simp [leaveW]
  have h2 := keep_run hw hr (by omega) e.2.2
  have := hc1.wc
  have := hc'.wc
  constructor <;> omega

/-- C37. Termination: after `terminate_all_workers` the workers come to rest, then
all of them are gone, and no client is left asleep waiting for that. -/
theorem C37_terminate {push : Push T} {P : Pool T → Act T → Prop} {n made : Nat} {s s1 : Pool T}
    (h : Reach push P (create n made) s) (h1 : s.step push .terminateAll = some s1) :
    ∃ N : Nat, ∀ (as : List (Act T)) (s' : Pool T), (∀ a ∈ as, WorkerAct a) → s1.run push as = some s' →
      as.length ≤ N ∧ (Quiet push s' → liveWorkers s'.workers = 0 ∧ .waiting .allGone ∉ s'.clients) := by
  refine ⟨fuel s1, fun as s' hw hr => ⟨?_, fun hQ => ?_⟩⟩
  · have := fuel_run hw hr; omega
  · have hT := Reach.mono (Q := fun _ _ => True) (fun _ _ _ => trivial) h
    have hR := (hT.step (a := .terminateAll) trivial h1).run (fun _ _ _ => trivial) hr
    have hs := shrink_reach (shrink_create n made) hR
    have hc := counts_reach (counts_create n made) hR
    have hg := gone_reach (by
      intro hm
      have e : (create n made : Pool T).clients = [] := by
        unfold create resizeActive Pool.resize grow empty
        simp
      rw [e] at hm
      simp at hm) hR
    have e := (worker_run hw hr).2.1
    have e1 : s1.target = 0 := by
      simp only [step, Option.some.injEq] at h1
      subst h1
      rfl
    obtain ⟨q1, q2⟩ := quiet_busy hQ
    have q3 := tot_alive s'.workers
    rw [liveWorkers_eq]
    have hz : tot aliveW s'.workers = 0 := by
      by_contra hne
      have := hs.awake (by rw [hc.wc]; omega)
      omega
    refine ⟨hz, fun hm => ?_⟩
    have := hg hm
    have := hc.wc
    omega

/-- C37, what fails. Shrinking can overshoot: two workers, `resize(1)`; both look at
the counters before either has left, and both leave. -/
theorem C37_shrink_overshoots : ∃ s1 s' : Pool Nat,
    (create 2 2).step fifoPush (.resize 1 0) = some s1 ∧
    Reach fifoPush (fun _ a => WorkerAct a) s1 s' ∧ Quiet fifoPush s' ∧ liveWorkers s'.workers = 0 := by
  refine ⟨_, _, rfl, Reach.run .init (as := [.fetch 0, .fetch 1, .exit 0, .exit 1]) ?_ rfl,
    quiet_of_all (by decide +kernel), rfl⟩
  intro a ha s
  simp only [List.mem_cons, List.not_mem_nil, or_false] at ha
  rcases ha with rfl | rfl | rfl | rfl <;> exact trivial

/-- C37, what fails. Growing back while a worker is on its way out does not replace
it: `resize(1)` then `resize(2)` on two workers ends with one. -/
theorem C37_grow_misses_leaving_worker : ∃ s s1 s' : Pool Nat,
    Reach fifoPush (fun _ _ => True) (create 2 2) s ∧ s.step fifoPush (.resize 2 2) = some s1 ∧
    Reach fifoPush (fun _ a => WorkerAct a) s1 s' ∧ Quiet fifoPush s' ∧ liveWorkers s'.workers = 1 := by
  refine ⟨_, _, _, Reach.ofRun [.resize 1 0, .fetch 0] rfl, rfl,
    Reach.run .init (as := [.exit 0, .fetch 1]) ?_ rfl, quiet_of_all (by decide +kernel), rfl⟩
  intro a ha s
  simp only [List.mem_cons, List.not_mem_nil, or_false] at ha
  rcases ha with rfl | rfl <;> exact trivial

/-- C37. A task that throws costs its worker, and the worker is replaced: unless the
pool is being shut down or the system refuses to create a thread, the number of
live workers is the same before and after, and the task is recorded as failed. -/
theorem C37_failure_keeps_count {push : Push T} {P : Pool T → Act T → Prop} {n made i m : Nat}
    {s s' : Pool T} (h : Reach push P (create n made) s) (hm : 1 ≤ m) (ht : s.terminating = false)
    (hs : s.step push (.fail i m) = some s') :
    liveWorkers s'.workers = liveWorkers s.workers ∧ ∃ t, s.workers[i]? = some (.running t) ∧
      s'.failed = s.failed ++ [t] := by
  have hc := counts_reach (counts_create n made) h
  have hc' := counts_step hc hs
  have key : s'.wc = s.wc ∧ ∃ t, s.workers[i]? = some (.running t) ∧ s'.failed = s.failed ++ [t] := by
    simp only [step] at hs
    split at hs
    · rename_i t heq
      injection hs with hs
      subst hs
      have hp : 0 < s.wc := by
        have := (counts_set hc (new := .dead) heq).1
        simp only [aliveW] at this
        omega
      have e : (s.wc - 1 + 1).toNat = s.wc.toNat := by congr 1; omega
      simp only [gone, ht, Bool.false_eq_true, if_false, Pool.resize, e, grow]
      rw [if_pos (by omega)]
      refine ⟨?_, t, heq, rfl⟩
      dsimp only
      omega
    · cases hs
  refine ⟨?_, key.2⟩
  rw [liveWorkers_eq, liveWorkers_eq]
  have := hc.wc
  have := hc'.wc
  omega

/-- C37, what fails. A task that throws undoes a shrink that is under way: its
replacement is made by resizing the pool to the present number of workers, which
replaces the size asked for. Three workers, one busy; `resize(1)`; the task throws;
when nothing moves any more there are three workers and nobody remembers the 1. -/
theorem C37_failure_cancels_shrink : ∃ s s1 s' : Pool Nat,
    Reach fifoPush (fun _ _ => True) (create 3 3) s ∧ s.step fifoPush (.resize 1 0) = some s1 ∧
    s1.run fifoPush [.fail 0 1, .resume 1, .resume 2, .fetch 3] = some s' ∧ Quiet fifoPush s' ∧
    s'.target = 3 ∧ liveWorkers s'.workers = 3 :=
  ⟨_, _, _, Reach.ofRun [.fetch 1, .fetch 2, .schedule 1 (some 1), .fetch 0, .resume 1] rfl, rfl, rfl,
    quiet_of_all (by decide +kernel), by decide +kernel, by decide +kernel⟩

/-- A task throws on a pool of three. -/
example : ∃ s s' : Pool Nat, Reach fifoPush (fun _ _ => True) (create 3 3) s ∧ s.terminating = false ∧
    s.step fifoPush (.fail 0 1) = some s' ∧ liveWorkers s'.workers = 3 ∧ s'.failed = [1] :=
  ⟨_, _, Reach.ofRun [.schedule 1 none, .fetch 0] rfl, rfl, rfl, by decide +kernel, by decide +kernel⟩

/-- A shrink that works: three workers, one busy, resized to one. -/
example : ∃ s s1 s' : Pool Nat, Reach fifoPush (fun _ _ => True) (create 3 3) s ∧
    s.step fifoPush (.resize 1 0) = some s1 ∧
    s1.run fifoPush [.resume 1, .exit 1, .resume 2, .exit 2, .finish 0, .fetch 0] = some s' ∧
    Quiet fifoPush s' ∧ liveWorkers s'.workers = 1 :=
  ⟨_, _, _, Reach.ofRun [.fetch 1, .fetch 2, .schedule 1 (some 1), .fetch 0, .resume 1] rfl, rfl, rfl,
    quiet_of_all (by decide +kernel), by decide +kernel⟩

/-- Growing from one worker to three with a task running. -/
example : ∃ s s1 : Pool Nat, Reach fifoPush (fun _ _ => True) (create 1 1) s ∧
    (∀ w ∈ s.workers, w ≠ .leaving) ∧ s.step fifoPush (.resize 3 2) = some s1 ∧ liveWorkers s1.workers = 3 :=
  ⟨_, _, Reach.ofRun [.schedule 1 none, .fetch 0] rfl, by decide +kernel, rfl, by decide +kernel⟩

/-- Termination with a client waiting for it. -/
example : ∃ s s1 s' : Pool Nat, Reach fifoPush (fun _ _ => True) (create 1 1) s ∧
    s.step fifoPush .terminateAll = some s1 ∧
    s1.run fifoPush [.finish 0, .fetch 0, .exit 0] = some s' ∧ Quiet fifoPush s' ∧
    s'.clients = [.woken .allGone] :=
  ⟨_, _, _, Reach.ofRun [.schedule 1 none, .fetch 0, .wait .allGone] rfl, rfl, rfl,
    quiet_of_all (by decide +kernel), by decide +kernel⟩

/-! ## C39: the limit on active workers -/

/-- C39. A task is started only while the number of tasks being executed, this one
included, is within the limit. -/
theorem C39_limit_at_start {push : Push T} {P : Pool T → Act T → Prop} {n made : Nat} {s s' : Pool T}
    {a : Act T} (h : Reach push P (create n made) s) (hP : P s a) (hs : s.step push a = some s') {t : T}
    (ht : s'.started = s.started ++ [t]) : ((runningTasks s'.workers).length : Int) ≤ s'.tact := by
  have hn := (counts_reach (counts_create n made) (h.step hP hs)).act
  have := running_le_active s'.workers
  have := (start_step hs ht).2.1
  omega

/-- C39. In every step the number of tasks being executed either stays within the
limit or does not grow: beyond a lowered limit, tasks only drain. -/
theorem C39_beyond_limit_drains {push : Push T} (hp : Keeps push) {P : Pool T → Act T → Prop}
    {n made : Nat} {s s' : Pool T} {a : Act T} (h : Reach push P (create n made) s) (hP : P s a)
    (hs : s.step push a = some s') :
    ((runningTasks s'.workers).length : Int) ≤ s'.tact ∨
    (runningTasks s'.workers).length ≤ (runningTasks s.workers).length := by
  obtain ⟨r1, r2, _⟩ := records_step hs
  rcases r1 with r1 | ⟨t, r1⟩
  · right
    have p1 := (C34_exactly_once hp h).2.length_eq
    have p2 := (C34_exactly_once hp (h.step hP hs)).2.length_eq
    rw [r1] at p2
    simp only [List.length_append] at p1 p2
    omega
  · exact Or.inl (C39_limit_at_start h hP hs r1)

/-- C39. If the limit is never lowered, it always holds. -/
theorem C39_limit {push : Push T} (hp : Keeps push) {n made : Nat} {s : Pool T}
    (h : Reach push NoLower (create n made) s) : ((runningTasks s.workers).length : Int) ≤ s.tact := by
  induction h with
  | init =>
    have h1 : runningTasks (create n made : Pool T).workers = [] := by
      have : (create n made : Pool T).started = [] := by
        unfold create resizeActive Pool.resize grow empty
        simp
      have p := (C34_exactly_once (P := fun _ _ => True) hp (Reach.init (s0 := (create n made : Pool T)))).2.length_eq
      rw [this] at p
      simp only [List.length_append, List.length_nil] at p
      exact List.length_eq_zero_iff.1 (by omega)
    have h2 : 0 ≤ (create n made : Pool T).wc := by
      rw [(counts_create n made).wc]; omega
    rw [h1]
    have key : ∀ x : Int, 0 ≤ x → 0 ≤ if (n : Int) < x then (n : Int) else x := by
      intro x hx; split <;> omega
    exact key _ h2
  | @step s s' a h1 h2 h3 ih =>
    have ht : s.tact ≤ s'.tact := by
      rcases (records_step h3).2.2 with e | ⟨m, e, e'⟩
      · omega
      · subst e
        have : s.tact ≤ m ∧ s.tact ≤ s.wc := h2
        rw [e']
        split <;> omega
    rcases C39_beyond_limit_drains hp h1 h2 h3 with h4 | h4
    · exact h4
    · omega

/-- C39, what fails. Raising the limit wakes nobody: with a limit of one and two
tasks, the second task keeps waiting after the limit is raised although a worker is
asleep; it is only taken when the first has finished. -/
theorem C39_raise_not_noticed : ∃ s : Pool Nat,
    Reach fifoPush (fun _ _ => True) (create 2 2) s ∧ s.tact = 2 ∧ s.queue = [2] ∧
    s.workers = [.running 1, .waiting] :=
  ⟨_, Reach.ofRun [.fetch 1, .resizeActive 1, .schedule 1 (some 1), .fetch 0, .resume 1, .schedule 2 (some 1),
    .resume 1, .resizeActive 2] rfl, by decide +kernel⟩

/-- Two tasks at a time on three workers. -/
example : ∃ s : Pool Nat, Reach fifoPush (fun _ _ => True) (create 3 3) s ∧ s.tact = 2 ∧
    s.queue = [3] ∧ runningTasks s.workers = [1, 2] :=
  ⟨_, Reach.ofRun [.fetch 2, .resizeActive 2, .schedule 1 (some 2), .fetch 0, .schedule 2 none, .schedule 3 none,
    .fetch 1, .resume 2] rfl, by decide +kernel⟩

/-! ## C35 again: a pool created empty -/

/-- C35, what fails. A pool created with no threads never executes anything, whatever
is scheduled and however far it is grown afterwards, as long as its limit on active
workers is not raised explicitly: growing the pool leaves the limit at zero. -/
theorem C35_zero_pool_never_starts {push : Push T} (hp : Keeps push) {s : Pool T}
    (h : Reach push (fun _ a => ∀ m, a ≠ .resizeActive m) (create 0 0) s) :
    s.started = [] ∧ s.finished = [] ∧ runningTasks s.workers = [] := by
  have key : s.started = [] ∧ s.tact = 0 := by
    induction h with
    | init => exact ⟨rfl, rfl⟩
    | @step s s' a h1 h2 h3 ih =>
      obtain ⟨i1, i2⟩ := ih
      obtain ⟨r1, _, r3⟩ := records_step h3
      have ht : s'.tact = 0 := by
        rcases r3 with e | ⟨m, e, _⟩
        · omega
        · exact absurd e (h2 m)
      refine ⟨?_, ht⟩
      rcases r1 with e | ⟨t, e⟩
      · rw [e, i1]
      · exfalso
        have hl := C39_limit_at_start h1 h2 h3 e
        obtain ⟨f1, f2⟩ := start_only h3 e
        have p1 := (C34_exactly_once hp h1).2.length_eq
        have p2 := (C34_exactly_once hp (h1.step h2 h3)).2.length_eq
        rw [e, f1, f2] at p2
        rw [i1] at p1 p2
        simp only [List.length_append, List.length_nil, List.length_singleton] at p1 p2
        omega
  have p := (C34_exactly_once hp h).2.length_eq
  rw [key.1] at p
  simp only [List.length_append, List.length_nil] at p
  exact ⟨key.1, List.length_eq_zero_iff.1 (by omega), List.length_eq_zero_iff.1 (by omega)⟩
/-- The example pool of `C35_zero_pool_never_runs` meets the hypothesis: two workers, a
task pending. -/
example : ∃ s : Pool Nat, Reach fifoPush (fun _ a => ∀ m, a ≠ .resizeActive m) (create 0 0) s ∧
    s.queue = [1] ∧ liveWorkers s.workers = 2 := by
  refine ⟨_, Reach.run .init (as := [.resize 2 2, .schedule 1 none, .fetch 0, .fetch 1]) ?_ rfl, rfl, rfl⟩
  intro a ha s
  simp only [List.mem_cons, List.not_mem_nil, or_false] at ha
  rcases ha with rfl | rfl | rfl | rfl <;> exact fun m => (by simp)

end SpatialOps
