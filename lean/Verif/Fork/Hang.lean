import Verif.Fork.Progress

/-!
# The pool of the merge sort example never starts a job
-/

namespace SpatialOps.Fork
open Threads Threads.Pool
variable {V L : Type}

/-- State of affairs with the example's pool. -/
structure Hung (push : Push Task) (prog : Prog V L) (m : Nat → V) (s : Sys V L) : Prop where
  reach : Reach push (fun _ a => ∀ m, a ≠ .resizeActive m) (create 0 0) s.pool
  cleared : s.pool.cleared = []
  mem : s.mem = m
  zero : batch s.pc = 0
  count : given prog s.pc ≤ s.pool.scheduled.length
  kind : s.pool.clients.map kindOf =
    List.replicate (match s.pc with | .call b _ => b | .inWait b => b + 1) (.tasks 0)
  stay : ∀ b k, s.pc = .inWait b → s.pool.clients[b]? ≠ some (.returned k)

theorem hung_queue {push : Push Task} (hp : Keeps push) {prog : Prog V L} {m : Nat → V} {s : Sys V L}
    (h : Hung push prog m s) : s.pool.started = [] ∧ s.pool.queue.length = s.pool.scheduled.length ∧
      ∀ i t, ¬ Runs s.pool i t := by
  obtain ⟨h1, h2, h3⟩ := C35_zero_pool_never_starts hp h.reach
  refine ⟨h1, ?_, fun i t ht => ?_⟩
  · have := (C34_exactly_once hp h.reach).1.length_eq
    rw [h1, h.cleared] at this
    simpa using this.symm
  · have := mem_running.2 ⟨i, ht⟩
    rw [h3] at this
    cases this

/-- A client does not return from `wait()` while a task is pending. -/
theorem stay_step {push : Push Task} {p p' : Pool Task} {a : Act Task} {b : Nat}
    (hs : p.step push a = some p') (hq : p'.queue ≠ [])
    (hold : ∀ k, p.clients[b]? ≠ some (.returned k))
    (hkind : ∀ c, p'.clients[b]? = some c → kindOf c = .tasks 0) :
    ∀ k, p'.clients[b]? ≠ some (.returned k) := by
  intro k hk
  have hk0 : k = .tasks 0 := hkind _ hk
  subst hk0
  rcases returned_step hs hk with h1 | h1
  · exact hold _ h1
  · simp only [Pool.cond, Bool.and_eq_true, List.isEmpty_iff] at h1
    exact hq h1.2

/-- Moves of the workers and of the system. -/
theorem hung_pool {push : Push Task} (hp : Keeps push) {prog : Prog V L} (h0 : 0 < size prog 0)
    {m : Nat → V} {s : Sys V L} (h : Hung push prog m s) {a : Act Task} {p' : Pool Task}
    (hs : s.pool.step push a = some p') (ha : Calm s.pool a) (hsched : p'.scheduled = s.pool.scheduled)
    (hk : p'.clients.map kindOf = s.pool.clients.map kindOf) (loc : Nat → Option L) :
    Hung push prog m { s with pool := p', loc := loc } := by
  have hr : Reach push (fun _ a => ∀ m, a ≠ .resizeActive m) (create 0 0) p' := by
    refine h.reach.step ?_ hs
    intro n e
    subst e
    exact ha
  have hc : p'.cleared = [] := by rw [(calm_records ha hs).1]; exact h.cleared
  have hkind := hk.trans h.kind
  refine ⟨hr, hc, h.mem, h.zero, ?_, hkind, ?_⟩
  · dsimp only; rw [hsched]; exact h.count
  · intro b k hpc
    dsimp only at hpc
    have hq : p'.queue ≠ [] := by
      intro hq
      obtain ⟨h1, _, _⟩ := C35_zero_pool_never_starts hp hr
      have := (C34_exactly_once hp hr).1.length_eq
      rw [h1, hc, hq, hsched] at this
      have hcnt := h.count
      have hz := h.zero
      rw [hpc] at hcnt hz
      change size prog b ≤ _ at hcnt
      change b = 0 at hz
      subst hz
      simp only [List.append_nil, List.length_nil] at this
      omega
    exact stay_step hs hq (fun k => h.stay b k hpc) (fun c hc => replicate_kind hkind c hc) k

theorem hung_step {push : Push Task} (hp : Keeps push) {prog : Prog V L} (h0 : 0 < size prog 0)
    {m : Nat → V} {s s' : Sys V L} (h : Hung push prog m s) {mv : Move}
    (hs : s.step push prog mv = some s') : Hung push prog m s' := by
  obtain ⟨_, _, hnr⟩ := hung_queue hp h
  cases mv with
  | schedule who =>
    simp only [Sys.step] at hs
    split at hs
    · rename_i b k hpc
      split at hs
      · split at hs
        · obtain ⟨p', hp', rfl⟩ := Option.map_eq_some_iff.1 hs
          obtain ⟨e1, e2, e3, e4, e5, e6⟩ := schedule_effect hp'
          have hz := h.zero
          have hcnt := h.count
          have hkd := h.kind
          rw [hpc] at hz hcnt hkd
          refine ⟨h.reach.step (a := .schedule (b, k) who) (fun _ => by simp) hp', ?_, h.mem, hz, ?_, ?_, ?_⟩
          · dsimp only; rw [(calm_records (a := .schedule (b, k) who) trivial hp').1]; exact h.cleared
          · change k ≤ s.pool.scheduled.length at hcnt
            show k + 1 ≤ p'.scheduled.length
            rw [e1, List.length_append, List.length_singleton]
            omega
          · show p'.clients.map kindOf = _; rw [e5]; exact hkd
          · intro b' k' hb'; cases hb'
        · cases hs
      · cases hs
    · cases hs
  | wait =>
    simp only [Sys.step] at hs
    split at hs
    · rename_i b k hpc
      split at hs
      · rename_i js hjs
        split at hs
        · cases hs
        · rename_i hk
          obtain ⟨p', hp', rfl⟩ := Option.map_eq_some_iff.1 hs
          have hr := h.reach.step (a := .wait (.tasks 0)) (fun _ => by simp) hp'
          have hc : p'.cleared = [] := by
            rw [(calm_records (a := .wait (.tasks 0)) trivial hp').1]; exact h.cleared
          obtain ⟨e1, e2, c, e3, e4⟩ := wait_effect hp'
          have hz := h.zero
          have hcnt := h.count
          have hkd := h.kind
          rw [hpc] at hz hcnt hkd
          change b = 0 at hz
          change k ≤ _ at hcnt
          subst hz
          have ez : size prog 0 = js.length := by unfold size; rw [hjs]; rfl
          have hkind' : p'.clients.map kindOf = List.replicate (0 + 1) (.tasks 0) := by
            rw [e3, List.map_append, hkd]
            rcases e4 with rfl | rfl <;> rfl
          have hlen : s.pool.clients.length = 0 := by
            have := congrArg List.length hkd
            simpa using this
          have hq : p'.queue ≠ [] := by
            intro hq
            have hql := (hung_queue hp h).2.1
            rw [← e2, hq] at hql
            simp at hql
            omega
          refine ⟨hr, hc, h.mem, rfl, ?_, hkind', ?_⟩
          · show size prog 0 ≤ p'.scheduled.length
            rw [e1.scheduled]
            omega
          · intro b' k' hb'
            injection hb' with hb'
            subst hb'
            refine stay_step hp' hq ?_ (fun c hc => replicate_kind hkind' c hc) k'
            intro k1 hk1
            rw [List.getElem?_eq_none (by omega)] at hk1
            cases hk1
      · cases hs
    · cases hs
  | ret =>
    simp only [Sys.step] at hs
    split at hs
    · rename_i b hpc
      split at hs
      · rename_i k hc
        exact absurd hc (h.stay b k hpc)
      · cases hs
    · cases hs
  | clientResume =>
    simp only [Sys.step] at hs
    split at hs
    · obtain ⟨p', hp', rfl⟩ := Option.map_eq_some_iff.1 hs
      obtain ⟨e1, e2, e3, _⟩ := clientResume_effect hp'
      exact hung_pool hp h0 h hp' trivial e1.scheduled e3 s.loc
    · cases hs
  | clientSpurious =>
    simp only [Sys.step] at hs
    split at hs
    · obtain ⟨p', hp', rfl⟩ := Option.map_eq_some_iff.1 hs
      obtain ⟨e1, e2, e3, _⟩ := clientSpurious_effect hp'
      exact hung_pool hp h0 h hp' trivial e1.scheduled e3 s.loc
    · cases hs
  | fetch i =>
    simp only [Sys.step] at hs
    obtain ⟨p', hp', rfl⟩ := Option.map_eq_some_iff.1 hs
    obtain ⟨e3, e⟩ := fetch_effect hp'
    have es : p'.scheduled = s.pool.scheduled := by
      rcases e with ⟨e, _⟩ | ⟨t, e⟩ <;> exact e.scheduled
    unfold Sys.began
    split
    · exact hung_pool hp h0 h hp' trivial es e3 _
    · exact hung_pool hp h0 h hp' trivial es e3 s.loc
  | resume i =>
    simp only [Sys.step] at hs
    obtain ⟨p', hp', rfl⟩ := Option.map_eq_some_iff.1 hs
    obtain ⟨e3, e⟩ := resume_effect hp'
    have es : p'.scheduled = s.pool.scheduled := by
      rcases e with ⟨e, _⟩ | ⟨t, e⟩ <;> exact e.scheduled
    unfold Sys.began
    split
    · exact hung_pool hp h0 h hp' trivial es e3 _
    · exact hung_pool hp h0 h hp' trivial es e3 s.loc
  | spurious i =>
    simp only [Sys.step] at hs
    obtain ⟨p', hp', rfl⟩ := Option.map_eq_some_iff.1 hs
    obtain ⟨e1, e2, e3, _⟩ := spurious_effect hp'
    exact hung_pool hp h0 h hp' trivial e1.scheduled (by rw [e3]) s.loc
  | exit i =>
    simp only [Sys.step] at hs
    obtain ⟨p', hp', rfl⟩ := Option.map_eq_some_iff.1 hs
    obtain ⟨e1, e2, e3⟩ := exit_effect hp'
    exact hung_pool hp h0 h hp' trivial e1.scheduled e3 s.loc
  | work i =>
    simp only [Sys.step] at hs
    split at hs
    · rename_i t hrun
      exact absurd hrun (hnr i t)
    · cases hs
  | finish i =>
    simp only [Sys.step] at hs
    split at hs
    · rename_i t hrun
      exact absurd hrun (hnr i t)
    · cases hs

theorem hung_run {push : Push Task} (hp : Keeps push) {prog : Prog V L} (h0 : 0 < size prog 0)
    {m : Nat → V} {s s' : Sys V L} (h : Hung push prog m s) {ms : List Move}
    (hs : s.run push prog ms = some s') : Hung push prog m s' := by
  induction ms generalizing s with
  | nil =>
    simp only [Sys.run, Option.some.injEq] at hs
    subst hs
    exact h
  | cons mv ms ih =>
    simp only [Sys.run] at hs
    obtain ⟨s1, h1, h2⟩ := Option.bind_eq_some_iff.1 hs
    exact ih (hung_step hp h0 h h1) h2

theorem hung_start (push : Push Task) (prog : Prog V L) (made : Nat) (m : Nat → V) :
    Hung push prog m (Sys.start (examplePool made) m) := by
  refine ⟨Reach.step .init (a := .resize 5 made) (fun _ => by simp) rfl, ?_, rfl, rfl, Nat.zero_le _, ?_, ?_⟩
  · show (examplePool made).cleared = []
    unfold examplePool create resizeActive Pool.resize grow empty
    simp
  · show (examplePool made).clients.map kindOf = []
    unfold examplePool create resizeActive Pool.resize grow empty
    simp
  · intro b k hb; cases hb

end SpatialOps.Fork
