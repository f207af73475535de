import Verif.Sync.Lemmas
import Verif.Threads.Props

/-!
# Property theorems: C38 (semaphore, assigner), C40 (registry), C49 (futures)
-/

namespace SpatialOps
open Sync
open Threads (Pool Push Act)

/-! ## C38 -/

/-- C38. Semaphore, any number of threads posting and waiting, any interleaving,
spurious wake-ups included: the number of threads let through never exceeds the
initial value plus the posts. -/
theorem C38_semaphore_safe {initial : Int} (hi : 0 ≤ initial) {s : Sem}
    (h : Steps Sem.step Any (Sem.init initial) s) : (s.passed : Int) ≤ initial + s.posts := by
  have hv : 0 ≤ s.val := by
    induction h with
    | init => exact hi
    | @step s s' a _ _ h3 ih =>
      have htp : ∀ v : Int, 0 ≤ v → 0 ≤ (Sem.tryPass v).2 := by
        intro v hv
        unfold Sem.tryPass
        split
        · exact hv
        · dsimp only; omega
      cases a with
      | post who =>
        simp only [Sem.step] at h3
        split at h3
        · split at h3
          · injection h3 with h3; subst h3; dsimp only; omega
          · cases h3
        · split at h3
          · injection h3 with h3; subst h3; dsimp only; omega
          · cases h3
      | wait => injection h3 with h3; subst h3; exact htp _ ih
      | spurious j =>
        simp only [Sem.step] at h3
        split at h3
        · injection h3 with h3; subst h3; exact ih
        · cases h3
      | resume j =>
        simp only [Sem.step] at h3
        split at h3
        · injection h3 with h3; subst h3; exact htp _ ih
        · cases h3
  have := (sem_reach h).account
  unfold Sem.passed
  omega

/-- C38. No post is lost: when no woken thread is left to run, a thread is asleep in
`wait` only if every resource (initial value and posts) has been taken by some
other thread. -/
theorem C38_semaphore_no_lost_post {initial : Int} {s : Sem} (h : Steps Sem.step Any (Sem.init initial) s)
    (hq : .woken ∉ s.waiters) (ha : .asleep ∈ s.waiters) : initial + s.posts ≤ s.passed := by
  have hs := sem_reach h
  have h1 := hs.account
  have h2 := hs.wake (List.count_pos_iff.2 ha)
  rw [List.count_eq_zero.2 hq] at h2
  unfold Sem.passed
  omega

/-- The hypotheses are met: two waiters, one post. -/
example : ∃ s, Steps Sem.step Any (Sem.init 0) s ∧ .woken ∉ s.waiters ∧ .asleep ∈ s.waiters ∧ s.passed = 1 :=
  ⟨_, Steps.runs .init [.wait, .wait, .post (some 1), .spurious 0, .resume 0, .resume 1] (fun _ _ => trivial) rfl,
    by decide +kernel⟩

/-- C38. The thread that performs a thread-parallel assignment returns only after
all partition tasks have been scheduled, have written and have posted, in every
interleaving. -/
theorem C38_assign_returns_after_all {n : Nat} {s : Assign} (h : Steps Assign.step Any (Assign.init n) s)
    (hr : s.main = .returned) : s.tasks.length = n ∧ ∀ t ∈ s.tasks, t = .posted := by
  have hc := assign_reach h
  have h1 := hc.full (by rw [hr]; decide)
  have h2 := hc.ret hr
  have h3 := hc.account
  have h4 := hc.nonneg
  have h5 : s.tasks.count .posted ≤ s.tasks.length := List.count_le_length
  refine ⟨h1, fun t ht => ?_⟩
  have h6 : s.tasks.count .posted = s.tasks.length := by omega
  exact (List.count_eq_length.1 h6 t ht).symm

/-- C38. In every execution that lets the assigning thread return, every partition task has written
its part exactly once and has posted exactly once, and there are no others. -/
theorem C38_every_part_written_once {n : Nat} {as : List AssignAct} {s : Assign}
    (h : runs Assign.step (Assign.init n) as = some s) (hr : s.main = .returned) (i : Nat) :
    as.count (.write i) = (if i < n then 1 else 0) ∧ as.count (.post i) = (if i < n then 1 else 0) := by
  obtain ⟨h1, h2⟩ := assign_counts h i
  obtain ⟨h3, h4⟩ := C38_assign_returns_after_all (n := n) (Steps.runs .init as (fun _ _ => trivial) h) hr
  have e0 : (Assign.init n).wrote i = 0 ∧ (Assign.init n).didPost i = 0 := by
    simp [Assign.wrote, Assign.didPost, Assign.init]
  by_cases hi : i < n
  · have hg : s.tasks[i]? = some .posted := by
      rw [List.getElem?_eq_getElem (by omega), h4 _ (List.getElem_mem (by omega))]
    have e1 : s.wrote i = 1 ∧ s.didPost i = 1 := by simp [Assign.wrote, Assign.didPost, hg]
    rw [if_pos hi]; omega
  · have hg : s.tasks[i]? = none := List.getElem?_eq_none (by omega)
    have e1 : s.wrote i = 0 ∧ s.didPost i = 0 := by simp [Assign.wrote, Assign.didPost, hg]
    rw [if_neg hi]; omega

/-- C38. And it does return: if the partition tasks are run, the number of steps is
bounded and the only state in which nothing can happen any more is the one in which
the assigning thread has returned. -/
theorem C38_assign_returns {n : Nat} {s : Assign} (h : Steps Assign.step Any (Assign.init n) s) :
    ∃ N : Nat, ∀ (as : List AssignAct) (s' : Assign), (∀ a ∈ as, AssignAct.real a) → runs Assign.step s as = some s' →
      as.length ≤ N ∧ (s'.Stuck → s'.main = .returned) := by
  refine ⟨s.fuel, fun as s' hr hs => ⟨?_, fun hst => ?_⟩⟩
  · have := fuel_runs (assign_reach h) hr hs; omega
  · exact stuck_returned (assign_reach (h.runs as (fun _ _ => trivial) hs)) hst

/-- C38, what fails. A partition task that throws never posts (NeboLhs.h:408-413 has
no guard): with its post missing, nothing the others do lets the assigning thread
return. `t` is the task that stays short of posting. -/
theorem C38_missing_post_blocks {n : Nat} {s : Assign} (h : Steps Assign.step Any (Assign.init n) s)
    {t : TaskSt} (ht : t ∈ s.tasks) (hne : t ≠ .posted) : s.main ≠ .returned :=
  fun hr => hne ((C38_assign_returns_after_all h hr).2 t ht)

/-- Two partitions, the assigner asleep in between. -/
example : ∃ s, Steps Assign.step Any (Assign.init 2) s ∧ s.main = .returned ∧ s.tasks = [.posted, .posted] :=
  ⟨_, Steps.runs .init [.schedule, .schedule, .schedule, .loop, .write 1, .post 1, .resume, .loop, .write 0,
    .spurious, .resume, .post 0, .resume, .loop] (fun _ _ => trivial) rfl, by decide +kernel⟩

/-! ## C40 -/

section
variable {T : Type}

/-- C40. Registering: a new address is accepted and recorded with at least one
thread; an address already present is refused and nothing changes. -/
theorem C40_insert (m : Mgr T) (id : Nat) (threads : Int) :
    (m.reg id = none → (m.insert id threads).1 = true ∧ (m.insert id threads).2.reg id = some (max 1 threads) ∧
      (∀ id', id' ≠ id → (m.insert id threads).2.reg id' = m.reg id') ∧ (m.insert id threads).2.pools = m.pools) ∧
    (m.reg id ≠ none → m.insert id threads = (false, m)) := by
  unfold Mgr.insert
  constructor
  · intro h
    simp only [h, upd_same]
    refine ⟨trivial, ?_, fun id' h' => upd_other _ _ h', trivial⟩
    congr 1
    split <;> omega
  · intro h
    cases hr : m.reg id with
    | none => exact absurd hr h
    | some r => rfl

/-- C40. Removing reports whether the address was known. -/
theorem C40_remove (m : Mgr T) (id : Nat) :
    (m.reg id = none → m.remove id = (false, m)) ∧
    (m.reg id ≠ none → (m.remove id).1 = true ∧ (m.remove id).2.reg id = none ∧
      ∀ id', id' ≠ id → (m.remove id).2.reg id' = m.reg id') := by
  unfold Mgr.remove
  constructor
  · intro h; simp [h]
  · intro h
    cases hr : m.reg id with
    | none => exact absurd hr h
    | some r => exact ⟨rfl, upd_same _ _ _, fun id' h' => upd_other _ _ h'⟩

/-- C40. Every query and request for an unknown pool is reported with -1 and changes
nothing. -/
theorem C40_unknown (m : Mgr T) (id : Nat) (h : m.reg id = none) (n : Int) (made : Nat) :
    m.resize id n made = (-1, m) ∧ m.resizeActive id n = (-1, m) ∧ m.workerCount id = -1 ∧ m.maxActive id = -1 := by
  unfold Mgr.resize Mgr.resizeActive Mgr.workerCount Mgr.maxActive
  simp [h]

/-- C40. `set_pool_capacity(n)` on a known pool, after any history: it returns and
records `n` clamped to at least one. -/
theorem C40_set_capacity {push : Push T} {m : Mgr T} (h : Steps (Mgr.step push) Any Mgr.empty m) {id : Nat}
    {r : Int} (hr : m.reg id = some r) (n : Int) (made : Nat) :
    (m.resize id n made).1 = max 1 n ∧ (m.resize id n made).2.reg id = some (max 1 n) := by
  have hpos : ∀ id r, m.reg id = some r → 1 ≤ r := by
    clear hr
    induction h with
    | init => intro id r h; cases h
    | step _ _ h3 ih => exact reg_pos_step h3 ih
  have h1 := hpos id r hr
  unfold Mgr.resize
  simp only [hr]
  split
  · rename_i e
    subst e
    refine ⟨by dsimp only; omega, ?_⟩
    dsimp only
    rw [hr]
    congr 1
    omega
  · dsimp only [Mgr.onPool]
    rw [upd_same]
    have : (if n < 1 then 1 else n) = max 1 n := by split <;> omega
    rw [this]
    exact ⟨rfl, rfl⟩

/-- C40. If the pools are resized through the registry only, no task throws and the
pool is not shut down: after `set_pool_capacity(n)` the pool is asked for exactly the
recorded number of workers, also when the call takes the early exit. With C37 this is
the number it grows to, and an upper bound on what it shrinks to. -/
theorem C40_capacity_is_target {push : Push T} {m : Mgr T}
    (h : Steps (Mgr.step push) MAct.viaRegistry Mgr.empty m) {id : Nat} {r : Int} (hr : m.reg id = some r)
    (n : Int) (made : Nat) : ∃ p, (m.resize id n made).2.pools id = some p ∧ p.target = max 1 n := by
  have hinv : ∀ {m : Mgr T}, Steps (Mgr.step push) MAct.viaRegistry Mgr.empty m → RegTarget m := by
    intro m h
    induction h with
    | init =>
      intro id
      refine ⟨by simp [Mgr.empty], fun r p hr => ?_⟩
      cases hr
    | step _ h2 h3 ih => exact reg_target_step h2 h3 ih
  have h2 := hinv (h.step (a := .resize id n made) trivial rfl) id
  have hany : Steps (Mgr.step push) Any Mgr.empty m := by
    clear hr h2
    induction h with
    | init => exact .init
    | step _ _ h3 ih => exact ih.step trivial h3
  have h3 := (C40_set_capacity hany hr n made).2
  cases hp : (m.resize id n made).2.pools id with
  | none => rw [h2.1.2 hp] at h3; cases h3
  | some p => exact ⟨p, rfl, (h2.2 _ p h3 hp).1⟩

/-- C40. `get_pool_capacity` is the number of worker threads alive. -/
theorem C40_capacity_counts_workers {push : Push T} {m : Mgr T} (h : Steps (Mgr.step push) Any Mgr.empty m)
    {id : Nat} {r : Int} {p : Pool T} (hr : m.reg id = some r) (hp : m.pools id = some p) :
    m.workerCount id = Threads.liveWorkers p.workers := by
  have hinv : PoolsReach push m := by
    clear hr hp
    induction h with
    | init => intro id p hp; cases hp
    | step _ _ h3 ih => exact pools_reach_step h3 ih
  obtain ⟨n, made, hR⟩ := hinv id p hp
  unfold Mgr.workerCount
  rw [hr, hp]
  exact (C36_counters hR).1

/-- C40. After `resize_pool(n)`, `get_pool_size` reports `n` clamped to between one
and the number of workers. Missing from the full property: that `resize_pool` returns that number,
which is false (`C40_resize_pool_return_value`). -/
theorem C40_resize_pool_partial {m : Mgr T} {id : Nat} {r : Int} {p : Pool T} (hr : m.reg id = some r)
    (hp : m.pools id = some p) (n : Int) :
    (m.resizeActive id n).2.maxActive id = min (max 1 n) (m.workerCount id) ∧
    (m.resizeActive id n).2.workerCount id = m.workerCount id := by
  unfold Mgr.resizeActive Mgr.maxActive Mgr.workerCount Mgr.onPool
  simp only [hr, hp, upd_same, Option.map_some, Pool.resizeActive]
  refine ⟨?_, trivial⟩
  have e : (((max 1 n).toNat : Nat) : Int) = max 1 n := by omega
  rw [e]
  split <;> omega

/-- C40. `set_pool_capacity` does not touch the limit on active workers: whatever it is asked for,
`get_pool_size` reports afterwards what it reported before. -/
theorem C40_capacity_keeps_limit (m : Mgr T) (id : Nat) (n : Int) (made : Nat) :
    (m.resize id n made).2.maxActive id = m.maxActive id := by
  have hres : ∀ (p : Pool T) k l, (p.resize k l).tact = p.tact := by
    intro p k l
    unfold Pool.resize Pool.grow
    split
    · rfl
    · dsimp only; split <;> rfl
  cases hr : m.reg id with
  | none => simp [Mgr.resize, hr]
  | some r =>
    by_cases hn : r = n
    · simp [Mgr.resize, hr, hn]
    · cases hp : m.pools id with
      | none => simp [Mgr.resize, Mgr.maxActive, Mgr.onPool, hr, hn, upd, hp]
      | some p => simp [Mgr.resize, Mgr.maxActive, Mgr.onPool, hr, hn, upd, hp, hres]

/-- C40, what fails. A program built for no threads registers its pool as having one: `set_pool_capacity(1)`
reports success and creates nothing, and with any other number the pool gets workers but the limit on active
ones, as `get_pool_size` reports it, stays at zero (and no task starts, `C35_zero_pool_never_starts`). -/
theorem C40_no_threads (id made : Nat) :
    (Mgr.empty.self (T := T) id 0 made).reg id = some 1 ∧ (Mgr.empty.self (T := T) id 0 made).workerCount id = 0 ∧
    (∀ made', ((Mgr.empty.self (T := T) id 0 made).resize id 1 made') = (1, Mgr.empty.self id 0 made)) ∧
    ∀ n made', ((Mgr.empty.self (T := T) id 0 made).resize id n made').2.maxActive id = 0 := by
  have h1 : (Mgr.empty.self (T := T) id 0 made).reg id = some 1 := by
    simp [Mgr.self, Mgr.empty, Mgr.insert, upd]
  have h2 : (Mgr.empty.self (T := T) id 0 made).pools id = some (Pool.create 0 made) := by
    simp [Mgr.self, Mgr.empty, Mgr.insert, upd]
  have h3 : (Pool.create 0 made : Pool T).wc = 0 ∧ (Pool.create 0 made : Pool T).tact = 0 := by
    simp [Pool.create, Pool.resize, Pool.grow, Pool.resizeActive, Pool.empty]
  refine ⟨h1, ?_, fun made' => ?_, fun n made' => ?_⟩
  · simp [Mgr.workerCount, h1, h2, h3.1]
  · simp [Mgr.resize, h1]
  · rw [C40_capacity_keeps_limit]
    simp [Mgr.maxActive, h1, h2, h3.2]

end

/-- C40, what fails. `resize_pool` returns its argument, not the size in effect:
`resize_pool(0)` returns 0 while one worker is active, and a request beyond the
number of workers is returned unchanged. -/
theorem C40_resize_pool_return_value : ∃ m : Mgr Nat,
    Steps (Mgr.step Threads.fifoPush) MAct.viaRegistry Mgr.empty m ∧
    (m.resizeActive 0 0).1 = 0 ∧ (m.resizeActive 0 0).2.maxActive 0 = 1 ∧
    (m.resizeActive 0 9).1 = 9 ∧ (m.resizeActive 0 9).2.maxActive 0 = 2 :=
  ⟨_, Steps.runs .init [.self 0 2 2] (by intro a ha; simp at ha; subst ha; exact Nat.le_succ 1) rfl,
    rfl, rfl, rfl, rfl⟩

/-- C40, what fails. The early exit of `set_pool_capacity` compares with the recorded
size, not with the workers there are: after a shrink from two to one that lost both
workers (C37), asking for one again reports success and creates nothing. -/
theorem C40_early_exit_keeps_pool_empty : ∃ m : Mgr Nat,
    Steps (Mgr.step Threads.fifoPush) MAct.viaRegistry Mgr.empty m ∧
    (m.resize 0 1 4).1 = 1 ∧ (m.resize 0 1 4).2.workerCount 0 = 0 := by
  refine ⟨_, Steps.runs .init [.self 0 2 2, .resize 0 1 0, .pool 0 (.fetch 0), .pool 0 (.fetch 1), .pool 0 (.exit 0),
    .pool 0 (.exit 1)] ?_ rfl, rfl, rfl⟩
  intro a ha
  simp only [List.mem_cons, List.not_mem_nil, or_false] at ha
  rcases ha with rfl | rfl | rfl | rfl | rfl | rfl <;> first | exact trivial | exact Nat.le_succ 1

/-- The hypotheses are met: two pools, one resized. -/
example : ∃ m : Mgr Nat, Steps (Mgr.step Threads.fifoPush) MAct.viaRegistry Mgr.empty m ∧
    m.reg 0 = some 5 ∧ m.reg 1 = some 3 ∧ m.workerCount 0 = 5 ∧ m.workerCount 1 = 3 ∧ m.maxActive 0 = 2 := by
  refine ⟨_, Steps.runs .init [.self 0 2 2, .self 1 3 3, .resize 0 5 3] ?_ rfl, rfl, rfl, rfl, rfl, rfl⟩
  intro a ha
  simp only [List.mem_cons, List.not_mem_nil, or_false] at ha
  rcases ha with rfl | rfl | rfl
  · exact Nat.le_succ 1
  · exact Nat.succ_le_succ (Nat.zero_le 2)
  · exact trivial

/-! ## C49 -/

section
variable {V : Type}

/-- C49. Once a future is ready it stays ready with the same value. -/
theorem C49_value_permanent {P : FAct V → Prop} {s s' : Future V} (h : Steps Future.step P s s')
    (hr : s.ready = true) : s'.ready = true ∧ s'.result = s.result := (future_mono_reach h).1 hr

/-- C49. The task function is called at most once, and the value of a ready future
is what that call returned. -/
theorem C49_value_is_result {g : Bool} {s : Future V} (h : Steps Future.step Any (Future.init g) s) :
    s.calls.length ≤ 1 ∧ (s.ready = true → ∃ v, s.result = some v ∧ s.calls = [v]) := by
  have hc := future_reach h
  refine ⟨hc.calls.2, fun hr => ?_⟩
  cases hv : s.result with
  | none => exact absurd hv (hc.res.1 hr)
  | some v => exact ⟨v, rfl, hc.val v hv⟩

/-- C49. `wait` returns only when the future is ready, and yields its value; no
thread sleeps in `wait` on a ready future. -/
theorem C49_wait {g : Bool} {s : Future V} (h : Steps Future.step Any (Future.init g) s) :
    (∀ w, .returned w ∈ s.waiters → s.ready = true ∧ w = s.result ∧ w ≠ none) ∧
    (s.ready = true → .asleep ∉ s.waiters) := by
  have hc := future_reach h
  refine ⟨fun w hw => ?_, hc.asleep⟩
  obtain ⟨h1, h2⟩ := hc.ret w hw
  exact ⟨h1, h2, h2 ▸ hc.res.1 h1⟩

/-- C49. A future that is cancelled while it is not ready never becomes ready. -/
theorem C49_cancelled_stays_unready {P : FAct V → Prop} {s s' : Future V} (h : Steps Future.step P s s')
    (hc : s.cancelled = true) (hr : s.ready = false) : s'.cancelled = true ∧ s'.ready = false :=
  ⟨(future_mono_reach h).2.1 hc, (future_mono_reach h).2.2 hc hr⟩

/-- C49. If nobody ever calls `cancel`, the task makes the future ready: when it has
finished, the value is there. The full property also covers `cancel`: missing is that a cancelled future
never delivers and that its waiters are released, both false (`C49_cancel_succeeds_after_value`,
`C49_cancel_strands_waiter`). -/
theorem C49_delivers_partial {g : Bool} {s : Future V}
    (h : Steps Future.step (fun a => a ≠ .cancelTest) (Future.init g) s)
    (hf : s.task = .finished) : s.ready = true := by
  have key : s.cancelled = false ∧ s.cancels = [] ∧ ((s.task = .delivered ∨ s.task = .finished) → s.ready = true) := by
    clear hf
    induction h with
    | init => exact ⟨rfl, rfl, fun h => by simp [Future.init] at h⟩
    | @step s s' a _ h2 h3 ih =>
      obtain ⟨i1, i2, i3⟩ := ih
      cases a with
      | task v =>
        simp only [Future.step] at h3
        split at h3
        · injection h3 with h3; subst h3; exact ⟨i1, i2, fun h => by simp at h⟩
        · injection h3 with h3; subst h3; exact ⟨i1, i2, fun h => by simp [i1] at h⟩
        · injection h3 with h3; subst h3; exact ⟨i1, i2, fun h => by simp at h⟩
        · injection h3 with h3; subst h3
          unfold Future.setValue
          cases hr : s.ready <;> simp [i1, i2, hr]
        · rename_i ht
          injection h3 with h3; subst h3
          exact ⟨i1, i2, fun _ => i3 (Or.inl ht)⟩
        · cases h3
      | wait => injection h3 with h3; subst h3; exact ⟨i1, i2, i3⟩
      | spurious j =>
        simp only [Future.step] at h3
        split at h3
        · injection h3 with h3; subst h3; exact ⟨i1, i2, i3⟩
        · cases h3
      | resume j =>
        simp only [Future.step] at h3
        split at h3
        · injection h3 with h3; subst h3; exact ⟨i1, i2, i3⟩
        · cases h3
      | cancelTest => exact absurd rfl h2
      | cancelWrite j =>
        simp only [Future.step, i2] at h3
        simp at h3
  exact key.2.2 (Or.inr hf)

end

/-- C49, what fails. A cancelled future can deliver a value: `cancel()` returns true
after the value has been set while the task has not yet cleared its execution flag. -/
theorem C49_cancel_succeeds_after_value : ∃ s : Future Nat, Steps Future.step Any (Future.init false) s ∧
    s.cancels = [.returned true] ∧ s.cancelled = true ∧ s.ready = true ∧ s.result = some 7 :=
  ⟨_, Steps.runs .init [.task 7, .task 7, .task 7, .task 7, .cancelTest, .cancelWrite 0] (fun _ _ => trivial) rfl,
    by decide +kernel⟩

/-- C49, what fails. A thread waiting for a future that is cancelled is never woken:
the task is over, the thread asleep, and only a spurious wake-up can move it, after
which it sleeps again. -/
theorem C49_cancel_strands_waiter : ∃ s : Future Nat, Steps Future.step Any (Future.init false) s ∧
    s.waiters = [.asleep] ∧ s.task = .finished ∧
    ∀ s', Steps Future.step Any s s' → ∀ w, FWait.returned w ∉ s'.waiters := by
  have hR : Steps Future.step Any (Future.init false)
      (⟨false, none, true, false, .finished, [.asleep], [.returned true], []⟩ : Future Nat) :=
    Steps.runs .init [.wait, .cancelTest, .cancelWrite 0, .task 7, .task 7, .task 7] (fun _ _ => trivial) rfl
  refine ⟨_, hR, rfl, rfl, fun s' h w hw => ?_⟩
  have h1 := (C49_cancelled_stays_unready h rfl rfl).2
  have hR' : Steps Future.step Any (Future.init false) s' := by
    clear h1 hw
    induction h with
    | init => exact hR
    | step _ _ h3 ih => exact ih.step trivial h3
  have := ((C49_wait hR').1 w hw).1
  rw [h1] at this
  cases this

/-- A normal delivery to a sleeping waiter. -/
example : ∃ s : Future Nat, Steps Future.step (fun a => a ≠ .cancelTest) (Future.init true) s ∧
    s.task = .finished ∧ s.waiters = [.returned (some 7)] := by
  refine ⟨_, Steps.runs .init [.wait, .task 7, .task 7, .task 7, .spurious 0, .resume 0, .task 7, .resume 0, .task 7]
    ?_ rfl, by decide +kernel⟩
  decide

end SpatialOps
