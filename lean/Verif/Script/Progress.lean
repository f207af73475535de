import Verif.Script.Lemmas

/-!
# A sound program comes to its end
-/

namespace SpatialOps.Script
open Threads Threads.Pool Shutdown
variable {T : Type} [DecidableEq T]

/-- What a program knows about its pool. -/
structure Knows (throws : T → Bool) (s : St T) : Prop where
  size : ∃ (cur : Nat) (seen : List T), s.sys.pool.wc ≤ cur ∧ Sound throws cur seen s.rest ∧ ∀ t ∈ seen, t ∈ s.sys.pool.scheduled
  pos : 0 ≤ s.sys.pool.wc

theorem any_inv {push : Push T} {throws : T → Bool} {P : Move T → Prop} {n made : Nat} {prog : List (Stmt T)} {s : St T}
    (h : Reaches push throws P (start n made prog) s) : Inv push throws (fun _ _ => True) n made prog s :=
  inv_reaches (R := fun _ => True) (fun _ _ _ _ _ => trivial) (fun _ _ _ _ _ _ _ _ _ => trivial) h (fun _ _ _ => trivial)

theorem Inv.pool {push : Push T} {throws : T → Bool} {Q : Sys T → Act T → Prop} {n made : Nat} {prog : List (Stmt T)} {s : St T}
    (h : Inv push throws Q n made prog s) : Reach push (fun _ _ => True) (create n made) s.sys.pool := pool_reach h.reach

omit [DecidableEq T] in
theorem create_wc (n made : Nat) : (create n made : Pool T).wc ≤ n := by
  have : (create n made : Pool T).wc = ((Pool.empty : Pool T).resize n made).wc := rfl
  rw [this]
  exact resize_wc _ _ _ (by show (0 : Int) ≤ n; omega)

theorem knows {push : Push T} {throws : T → Bool} {P : Move T → Prop} {n made : Nat} {prog : List (Stmt T)}
    (hs : Sound throws n [] prog) {s : St T} (h : Reaches push throws P (start n made prog) s) : Knows throws s := by
  have hpos : ∀ {s : St T}, Reaches push throws P (start n made prog) s → 0 ≤ s.sys.pool.wc := by
    intro s h
    have := (C36_counters (any_inv h).pool)
    omega
  refine ⟨?_, hpos h⟩
  induction h with
  | init => exact ⟨n, [], create_wc n made, hs, nofun⟩
  | @step s s' mv h1 h2 h3 ih =>
    obtain ⟨cur, seen, k1, k2, k3⟩ := ih
    have h0 := hpos h1
    rcases step_cases h3 with ⟨a, y, rfl, hb, hy, rfl⟩ | ⟨who, m, rfl, hcase⟩
    · obtain ⟨_, p, hstep, rfl⟩ := step_pool hy
      refine ⟨cur, seen, wc_step hstep h0 k1 ?_, k2, fun t ht => ?_⟩
      · rintro n made rfl; cases hb
      · exact (grows_step hstep).scheduled.subset (k3 t ht)
    · rcases hcase with ⟨j, hph, hj, hret, rfl⟩ | ⟨y, hph, hw, hr, hy, rfl⟩ | ⟨st, r, a, y, hph, hw, hr, ha, hy, rfl⟩ |
          ⟨t, r, hph, hw, hr, hf, rfl⟩ | ⟨r, hph, hw, hr, rfl⟩ | ⟨y, hph, hy, rfl⟩
      · exact ⟨cur, seen, k1, k2, k3⟩
      · obtain ⟨r1, _, _, _, r5, _⟩ := shutdown_records (.inl rfl) hy
        exact ⟨cur, seen, by dsimp only; rw [r5]; exact k1, trivial, fun t ht => by dsimp only; rw [r1]; exact k3 t ht⟩
      · obtain ⟨_, p, hstep, rfl⟩ := step_pool hy
        rw [hr] at k2
        have hsub : ∀ t ∈ seen, t ∈ p.scheduled := fun t ht => (grows_step hstep).scheduled.subset (k3 t ht)
        cases st with
        | schedule t =>
          injection ha with ha; subst ha
          refine ⟨cur, t :: seen, wc_step hstep h0 k1 nofun, k2, fun u hu => ?_⟩
          dsimp only
          rcases List.mem_cons.1 hu with rfl | hu
          · rw [tasks_single (st := .schedule u) (who := who) (made := m) rfl hstep]
            simp [tasks]
          · exact hsub u hu
        | resize n =>
          injection ha with ha; subst ha
          refine ⟨n, seen, wc_step hstep h0 (N := n) (by have := k2.1; omega) ?_, k2.2, hsub⟩
          intro n' m' e
          injection e with e _
          omega
        | resizeActive n => injection ha with ha; subst ha; exact ⟨cur, seen, wc_step hstep h0 k1 nofun, k2.2, hsub⟩
        | wait k => injection ha with ha; subst ha; exact ⟨cur, seen, wc_step hstep h0 k1 nofun, k2, hsub⟩
        | await t => cases ha
        | look => cases ha
      · rw [hr] at k2; exact ⟨cur, seen, k1, k2.2.2, k3⟩
      · rw [hr] at k2; exact ⟨cur, seen, k1, k2, k3⟩
      · obtain ⟨r1, _, _, _, r5, _⟩ := shutdown_records (.inr rfl) hy
        exact ⟨cur, seen, by dsimp only; rw [r5]; exact k1, k2, fun t ht => by dsimp only; rw [r1]; exact k3 t ht⟩

/-- The pool of a sound program is never made smaller. -/
theorem sound_inv {push : Push T} {throws : T → Bool} {n made : Nat} {prog : List (Stmt T)} (hs : Sound throws n [] prog) {s : St T}
    (h : Reaches push throws Granted (start n made prog) s) :
    Inv push throws (fun y a => NoShrink y.pool a) n made prog s := by
  refine inv_reaches (R := Knows throws) ?_ ?_ h (fun s _ hr => knows hs hr)
  · intro s a _ hg hb
    cases a with
    | fail i m => exact hg
    | resize n m => cases hb
    | resizeActive n => cases hb
    | terminateAll => cases hb
    | _ => trivial
  · intro s st r who m a hk hr ha
    obtain ⟨cur, seen, k1, k2, _⟩ := hk.size
    rw [hr] at k2
    cases st with
    | resize n => injection ha with ha; subst ha; show s.sys.pool.wc ≤ n; have := k2.1; omega
    | resizeActive n => injection ha with ha; subst ha; exact k2.1
    | schedule t => injection ha with ha; subst ha; trivial
    | wait k => injection ha with ha; subst ha; trivial
    | await t => cases ha
    | look => cases ha

/-- Calls left. -/
def left (s : St T) : Nat := 2 * s.rest.length + (match s.inWait with | some _ => 1 | none => 0)

/-- What decreases in every move. -/
def size (s : St T) : Nat ×ₗ (Nat ×ₗ Nat ×ₗ Nat) := toLex (left s, Shutdown.measure s.sys)

theorem size_step {push : Push T} {throws : T → Bool} {s s' : St T} {mv : Move T} (hw : 0 ≤ s.sys.pool.wc) (ho : Own mv)
    (h : s.step push throws mv = some s') : size s' < size s := by
  refine Prod.Lex.toLex_lt_toLex.2 ?_
  rcases step_cases h with ⟨a, y, rfl, hb, hy, rfl⟩ | ⟨who, m, rfl, hcase⟩
  · refine .inr ⟨rfl, ?_⟩
    dsimp only
    cases a with
    | fail i m =>
      obtain ⟨_, p, hstep, rfl⟩ := step_pool hy
      exact Prod.Lex.toLex_lt_toLex.2 (.inr ⟨rfl, Prod.Lex.toLex_lt_toLex.2 (.inl (fuel_fail hw hstep))⟩)
    | fetch i => exact measure_step (a := .pool (.fetch i)) trivial hy
    | resume i => exact measure_step (a := .pool (.resume i)) trivial hy
    | finish i => exact measure_step (a := .pool (.finish i)) trivial hy
    | exit i => exact measure_step (a := .pool (.exit i)) trivial hy
    | clientResume j => exact measure_step (a := .pool (.clientResume j)) trivial hy
    | spurious i => exact absurd ho id
    | clientSpurious i => exact absurd ho id
    | _ => cases hb
  · rcases hcase with ⟨j, hph, hj, hret, rfl⟩ | ⟨y, hph, hw, hr, hy, rfl⟩ | ⟨st, r, a, y, hph, hw, hr, ha, hy, rfl⟩ |
          ⟨t, r, hph, hw, hr, hf, rfl⟩ | ⟨r, hph, hw, hr, rfl⟩ | ⟨y, hph, hy, rfl⟩
    · left; simp only [left, hj]; omega
    · right
      refine ⟨by simp only [left, hr, hw], Prod.Lex.toLex_lt_toLex.2 (.inl ?_)⟩
      obtain ⟨_, p, ⟨_, _, rfl⟩ | ⟨hpol, _, _⟩⟩ := step_call hy
      · show 2 < s.sys.phase.rank; rw [hph]; decide
      · exact absurd rfl hpol
    · left
      simp only [left, hr, hw, List.length_cons]
      split <;> omega
    · left; simp only [left, hr, hw, List.length_cons]; omega
    · left; simp only [left, hr, hw, List.length_cons]; omega
    · exact .inr ⟨rfl, measure_step (a := .proceed) trivial hy⟩

/-- Where the program cannot move, neither can its pool. -/
theorem stuck_pool {push : Push T} {throws : T → Bool} {s : St T} (h : ∀ mv, Own mv → s.step push throws mv = none) :
    ∀ a, OwnStep a → s.sys.step push .allTasks a = none := by
  have world : ∀ a, Own (.world a) → byItself throws s.sys.pool a = true → s.sys.step push .allTasks (.pool a) = none := by
    intro a ho hb
    have := h (.world a) ho
    simp only [St.step, hb, if_true] at this
    exact Option.map_eq_none_iff.1 this
  intro a ha
  cases a with
  | call => exact absurd ha id
  | proceed =>
    cases hph : s.sys.phase with
    | idle => simp only [Sys.step, hph]
    | _ =>
      have := h (.main none 0) trivial
      simp only [St.step, hph] at this
      exact Option.map_eq_none_iff.1 this
  | pool a =>
    cases a with
    | clientResume j => exact world _ trivial rfl
    | fetch i => exact world _ trivial rfl
    | resume i => exact world _ trivial rfl
    | exit i => exact world _ trivial rfl
    | finish i =>
      by_cases hr : ∃ t, s.sys.pool.workers[i]? = some (.running t)
      · obtain ⟨t, ht⟩ := hr
        cases hth : throws t with
        | false => exact world _ trivial (by simp [byItself, ht, hth])
        | true =>
          have := world (.fail i 1) (Nat.le_refl 1) (by simp [byItself, ht, hth])
          simp [Sys.step, isPrivate, step, ht] at this
      · simp only [Sys.step, isPrivate, Bool.false_eq_true, if_false, step]
        split
        · rename_i t ht; exact absurd ⟨t, ht⟩ hr
        · rfl
    | _ => exact absurd ha id

omit [DecidableEq T] in
/-- A task can always be handed over. -/
theorem can_schedule (push : Push T) (p : Pool T) (t : T) : ∃ who p', p.step push (.schedule t who) = some p' := by
  by_cases h : ∃ w ∈ p.workers, w = .waiting
  · obtain ⟨w, hwm, hwv⟩ := h
    obtain ⟨i, hlt, hi⟩ := List.getElem_of_mem hwm
    have hg : p.workers[i]? = some .waiting := by rw [List.getElem?_eq_getElem hlt, hi, hwv]
    exact ⟨some i, _, by simp only [step, hg]; rfl⟩
  · refine ⟨none, { p with queue := push p.queue t, scheduled := p.scheduled ++ [t] }, ?_⟩
    unfold step
    dsimp only
    refine if_pos (List.all_eq_true.2 fun w hw => ?_)
    cases w with
    | waiting => exact absurd ⟨_, hw, rfl⟩ h
    | _ => rfl

/-- A sound program that cannot move has come to its end. -/
theorem stuck_ended {push : Push T} (hp : Keeps push) {throws : T → Bool} {n made : Nat} (hn : 1 ≤ n) (hm : 1 ≤ made) {prog : List (Stmt T)}
    (hs : Sound throws n [] prog) {s : St T} (h : Reaches push throws Granted (start n made prog) s)
    (hst : ∀ mv, Own mv → s.step push throws mv = none) : s.sys.phase = .done := by
  have hi := sound_inv hs h
  have hstp := stuck_pool hst
  have hsr := SReach.mono (Q := fun s a => NoShrink s.pool a) (fun _ _ h => h.1) hi.reach
  by_cases hph : s.sys.phase = .idle
  swap
  · exact stuck_done hp hn hm hsr hph hstp
  exfalso
  have hq := quiet_of_stuck hstp
  have hr := noShrink_reach hsr (.inl hph)
  have hmain : ∀ who m, s.step push throws (.main who m) = none := fun who m => hst _ trivial
  cases hw : s.inWait with
  | some j =>
    obtain ⟨c, k, c1, c2⟩ := hi.client j hw
    cases c with
    | waiting k' => cases c2; exact (C36_waiters_released hn hm hr hq k).1 (List.mem_of_getElem? c1)
    | woken k' => exact no_woken hstp j k' c1
    | returned k' =>
      have := hmain none 0
      simp only [St.step, hph, hw, hasReturned, c1, if_true] at this
      cases this
  | none =>
    have hcall : ∀ who m, s.call push who m = none := by
      intro who m
      have := hmain who m
      simp only [St.step, hph, hw] at this
      exact this
    obtain ⟨cur, seen, k1, k2, k3⟩ := (knows hs h).size
    cases hrest : s.rest with
    | nil =>
      have := hcall none 0
      simp [St.call, hrest, Sys.step, hph, enterWait, step] at this
    | cons st r =>
      cases st with
      | schedule t =>
        obtain ⟨who, p, hsch⟩ := can_schedule push s.sys.pool t
        have := hcall who 0
        simp only [St.call, hrest, Sys.step, isPrivate, hsch, Bool.false_eq_true, if_false, Option.map_some] at this
        cases this
      | resize m =>
        have := hcall none 0
        simp only [St.call, hrest, Sys.step, isPrivate, step] at this
        cases this
      | resizeActive m =>
        have := hcall none 0
        simp only [St.call, hrest, Sys.step, isPrivate, step] at this
        cases this
      | wait k =>
        have := hcall none 0
        simp only [St.call, hrest, Sys.step, isPrivate, step] at this
        cases this
      | look =>
        have := hcall none 0
        simp only [St.call, hrest] at this
        cases this
      | await t =>
        have := hcall none 0
        simp only [St.call, hrest] at this
        split at this
        · cases this
        · rename_i hnf
          rw [hrest] at k2
          have hqe : s.sys.pool.queue = [] := by
            by_contra hne
            exact C35_no_lost_wakeup hn hm hr hne hq
          have hrun := running_nil_of_busy (quiet_busy hq).1
          obtain ⟨p1, p2⟩ := C34_exactly_once hp hr
          have hcl := (quiet_clients (fun s a h => h.2) hi.reach).1
          rw [hqe, hcl, List.append_nil, List.append_nil] at p1
          rw [hrun, List.append_nil] at p2
          rcases List.mem_append.1 ((p1.trans p2).subset (k3 t k2.1)) with h1 | h1
          · exact hnf h1
          · have := hi.failed t h1
            rw [k2.2.1] at this
            cases this

end SpatialOps.Script
