import Verif.Script.Spec
import Verif.Shutdown.Props

/-!
# Lemmas on programs that use one thread pool
-/

namespace SpatialOps.Script
open Threads Threads.Pool Shutdown
variable {T : Type}

theorem SReach.mono {push : Push T} {pol : Policy} {P Q : Sys T → Act T → Prop} (hPQ : ∀ s a, P s a → Q s a) {s0 s : Sys T}
    (h : SReach push pol P s0 s) : SReach push pol Q s0 s := by
  induction h with
  | init => exact .init
  | pool _ h2 h3 ih => exact .pool ih (hPQ _ _ h2) h3
  | call _ h3 ih => exact .call ih h3
  | proceed _ h3 ih => exact .proceed ih h3

/-- The action on the pool a call consists of. -/
def actOf (who : Option Nat) (made : Nat) : Stmt T → Option (Act T)
  | .schedule t => some (.schedule t who)
  | .resize n => some (.resize n made)
  | .resizeActive n => some (.resizeActive n)
  | .wait k => some (.wait (.tasks k))
  | _ => none

/-- The waiting call the thread is in after the call. -/
def waitOf (p : Pool T) : Stmt T → Option Nat
  | .wait _ => some p.clients.length
  | _ => none

/-- The kinds of moves. -/
theorem step_cases [DecidableEq T] {push : Push T} {throws : T → Bool} {s s' : St T} {mv : Move T}
    (h : s.step push throws mv = some s') :
    (∃ a y, mv = .world a ∧ byItself throws s.sys.pool a = true ∧ s.sys.step push .allTasks (.pool a) = some y ∧ s' = { s with sys := y }) ∨
    (∃ who made, mv = .main who made ∧
      ((∃ j, s.sys.phase = .idle ∧ s.inWait = some j ∧ hasReturned s.sys.pool j = true ∧ s' = { s with inWait := none }) ∨
       (∃ y, s.sys.phase = .idle ∧ s.inWait = none ∧ s.rest = [] ∧ s.sys.step push .allTasks .call = some y ∧ s' = ⟨y, [], none⟩) ∨
       (∃ st r a y, s.sys.phase = .idle ∧ s.inWait = none ∧ s.rest = st :: r ∧ actOf who made st = some a ∧
          s.sys.step push .allTasks (.pool a) = some y ∧ s' = ⟨y, r, waitOf s.sys.pool st⟩) ∨
       (∃ t r, s.sys.phase = .idle ∧ s.inWait = none ∧ s.rest = .await t :: r ∧ t ∈ s.sys.pool.finished ∧ s' = ⟨s.sys, r, none⟩) ∨
       (∃ r, s.sys.phase = .idle ∧ s.inWait = none ∧ s.rest = .look :: r ∧ s' = ⟨s.sys, r, none⟩) ∨
       (∃ y, s.sys.phase ≠ .idle ∧ s.sys.step push .allTasks .proceed = some y ∧ s' = { s with sys := y }))) := by
  cases mv with
  | world a =>
    left
    simp only [St.step] at h
    split at h
    · rename_i hb
      cases hy : s.sys.step push .allTasks (.pool a) with
      | none => rw [hy] at h; cases h
      | some y =>
        rw [hy] at h
        injection h with h
        exact ⟨a, y, rfl, hb, hy, h.symm⟩
    · cases h
  | main who made =>
    right
    refine ⟨who, made, rfl, ?_⟩
    simp only [St.step] at h
    split at h
    · rename_i hph
      split at h
      · rename_i j hj
        split at h
        · rename_i hr
          injection h with h
          exact .inl ⟨j, hph, hj, hr, h.symm⟩
        · cases h
      · rename_i hw
        right
        unfold St.call at h
        split at h
        · rename_i hr
          left
          cases hy : s.sys.step push .allTasks .call with
          | none => rw [hy] at h; cases h
          | some y => rw [hy] at h; injection h with h; exact ⟨y, hph, hw, hr, rfl, h.symm⟩
        all_goals rename_i hr
        · right; left
          rename_i t r
          cases hy : s.sys.step push .allTasks (.pool (.schedule t who)) with
          | none => rw [hy] at h; cases h
          | some y => rw [hy] at h; injection h with h; exact ⟨_, r, _, y, hph, hw, hr, rfl, hy, h.symm⟩
        · right; left
          rename_i n r
          cases hy : s.sys.step push .allTasks (.pool (.resize n made)) with
          | none => rw [hy] at h; cases h
          | some y => rw [hy] at h; injection h with h; exact ⟨_, r, _, y, hph, hw, hr, rfl, hy, h.symm⟩
        · right; left
          rename_i n r
          cases hy : s.sys.step push .allTasks (.pool (.resizeActive n)) with
          | none => rw [hy] at h; cases h
          | some y => rw [hy] at h; injection h with h; exact ⟨_, r, _, y, hph, hw, hr, rfl, hy, h.symm⟩
        · right; left
          rename_i k r
          cases hy : s.sys.step push .allTasks (.pool (.wait (.tasks k))) with
          | none => rw [hy] at h; cases h
          | some y => rw [hy] at h; injection h with h; exact ⟨_, r, _, y, hph, hw, hr, rfl, hy, h.symm⟩
        · right; right; left
          rename_i t r
          split at h
          · rename_i hm
            injection h with h
            exact ⟨t, r, hph, hw, hr, hm, h.symm⟩
          · cases h
        · right; right; right; left
          rename_i r
          injection h with h
          exact ⟨r, hph, hw, hr, h.symm⟩
    · rename_i hph
      right; right; right; right; right
      cases hy : s.sys.step push .allTasks .proceed with
      | none => rw [hy] at h; cases h
      | some y => rw [hy] at h; injection h with h; exact ⟨y, hph, rfl, h.symm⟩

/-! ## Facts about steps of the pool -/

theorem resize_facts (s : Pool T) (n made : Nat) : (s.resize n made).scheduled = s.scheduled ∧ (s.resize n made).queue = s.queue ∧
    (s.resize n made).finished = s.finished ∧ (s.resize n made).failed = s.failed ∧
    runningTasks (s.resize n made).workers = runningTasks s.workers := by
  have hwake : ∀ ws : List (WState T), runningTasks (ws.map wakeW) = runningTasks ws := by
    intro ws
    induction ws with
    | nil => rfl
    | cons w ws ih =>
      unfold runningTasks at ih ⊢
      rw [List.map_cons, List.filterMap_cons, List.filterMap_cons, ih]
      cases w <;> rfl
  have hrep : ∀ k, runningTasks (List.replicate k (.ready : WState T)) = [] := by
    intro k
    apply List.filterMap_eq_nil_iff.2
    intro w hw
    rw [List.eq_of_mem_replicate hw]
  unfold Pool.resize Pool.grow
  split
  · exact ⟨rfl, rfl, rfl, rfl, rfl⟩
  · dsimp only
    split
    · refine ⟨rfl, rfl, rfl, rfl, ?_⟩
      dsimp only
      unfold runningTasks
      rw [List.filterMap_append]
      exact (congrArg _ (hrep _)).trans (List.append_nil _)
    · exact ⟨rfl, rfl, rfl, rfl, hwake _⟩

/-- Nothing but the end of a task is recorded as one. -/
theorem ends_step {push : Push T} {s s' : Pool T} {a : Act T} (h : s.step push a = some s') :
    (s'.finished = s.finished ∧ s'.failed = s.failed) ∨
    (∃ i t, a = .finish i ∧ s.workers[i]? = some (.running t) ∧ s'.finished = s.finished ++ [t] ∧ s'.failed = s.failed) ∨
    (∃ i made t, a = .fail i made ∧ s.workers[i]? = some (.running t) ∧ s'.finished = s.finished ∧ s'.failed = s.failed ++ [t]) := by
  have htry : ∀ (s : Pool T) i, (s.tryFetch i).finished = s.finished ∧ (s.tryFetch i).failed = s.failed := by
    intro s i
    rcases tryFetch_cases s i with ⟨_, _, e⟩ | ⟨_, _, e⟩ | ⟨t, q, hq, _, e⟩ <;> rw [e] <;> exact ⟨rfl, rfl⟩
  cases a with
  | schedule t who =>
    left
    simp only [step] at h
    split at h
    · split at h
      · injection h with h; subst h; exact ⟨rfl, rfl⟩
      · cases h
    · split at h
      · injection h with h; subst h; exact ⟨rfl, rfl⟩
      · cases h
  | clear => injection h with h; subst h; exact .inl ⟨rfl, rfl⟩
  | resize n made => injection h with h; subst h; exact .inl ⟨(resize_facts _ _ _).2.2.1, (resize_facts _ _ _).2.2.2.1⟩
  | resizeActive n => injection h with h; subst h; exact .inl ⟨rfl, rfl⟩
  | terminateAll => injection h with h; subst h; exact .inl ⟨rfl, rfl⟩
  | wait k => injection h with h; subst h; exact .inl ⟨rfl, rfl⟩
  | clientSpurious j =>
    simp only [step] at h
    split at h
    · injection h with h; subst h; exact .inl ⟨rfl, rfl⟩
    · cases h
  | clientResume j =>
    simp only [step] at h
    split at h
    · injection h with h; subst h; exact .inl ⟨rfl, rfl⟩
    · cases h
  | fetch i =>
    simp only [step] at h
    split at h
    · split at h
      · injection h with h; subst h; exact .inl ⟨rfl, rfl⟩
      · injection h with h; subst h; exact .inl (htry _ _)
    · cases h
  | spurious i =>
    simp only [step] at h
    split at h
    · injection h with h; subst h; exact .inl ⟨rfl, rfl⟩
    · cases h
  | resume i =>
    simp only [step] at h
    split at h
    · injection h with h; subst h; exact .inl (htry _ _)
    · cases h
  | finish i =>
    simp only [step] at h
    split at h
    · rename_i t heq
      injection h with h; subst h
      exact .inr (.inl ⟨i, t, rfl, heq, rfl, rfl⟩)
    · cases h
  | fail i made =>
    simp only [step] at h
    split at h
    · rename_i t heq
      injection h with h; subst h
      refine .inr (.inr ⟨i, made, t, rfl, heq, ?_⟩)
      split
      · exact ⟨rfl, rfl⟩
      · exact ⟨(resize_facts _ _ _).2.2.1, (resize_facts _ _ _).2.2.2.1⟩
    · cases h
  | exit i =>
    simp only [step] at h
    split at h
    · injection h with h; subst h; exact .inl ⟨rfl, rfl⟩
    · cases h

/-- Only handing over a task adds to the record of tasks handed over. -/
theorem scheduled_step {push : Push T} {s s' : Pool T} {a : Act T} (h : s.step push a = some s') :
    (∃ t who, a = .schedule t who ∧ s'.scheduled = s.scheduled ++ [t]) ∨ ((∀ t who, a ≠ .schedule t who) ∧ s'.scheduled = s.scheduled) := by
  have htry : ∀ (s : Pool T) i, (s.tryFetch i).scheduled = s.scheduled := by
    intro s i
    rcases tryFetch_cases s i with ⟨_, _, e⟩ | ⟨_, _, e⟩ | ⟨t, q, hq, _, e⟩ <;> rw [e]
  cases a with
  | schedule t who =>
    left
    refine ⟨t, who, rfl, ?_⟩
    simp only [step] at h
    split at h
    · split at h
      · injection h with h; subst h; rfl
      · cases h
    · split at h
      · injection h with h; subst h; rfl
      · cases h
  | clear => injection h with h; subst h; exact .inr ⟨nofun, rfl⟩
  | resize n made => injection h with h; subst h; exact .inr ⟨nofun, (resize_facts _ _ _).1⟩
  | resizeActive n => injection h with h; subst h; exact .inr ⟨nofun, rfl⟩
  | terminateAll => injection h with h; subst h; exact .inr ⟨nofun, rfl⟩
  | wait k => injection h with h; subst h; exact .inr ⟨nofun, rfl⟩
  | clientSpurious j =>
    simp only [step] at h
    split at h
    · injection h with h; subst h; exact .inr ⟨nofun, rfl⟩
    · cases h
  | clientResume j =>
    simp only [step] at h
    split at h
    · injection h with h; subst h; exact .inr ⟨nofun, rfl⟩
    · cases h
  | fetch i =>
    simp only [step] at h
    split at h
    · split at h
      · injection h with h; subst h; exact .inr ⟨nofun, rfl⟩
      · injection h with h; subst h; exact .inr ⟨nofun, htry _ _⟩
    · cases h
  | spurious i =>
    simp only [step] at h
    split at h
    · injection h with h; subst h; exact .inr ⟨nofun, rfl⟩
    · cases h
  | resume i =>
    simp only [step] at h
    split at h
    · injection h with h; subst h; exact .inr ⟨nofun, htry _ _⟩
    · cases h
  | finish i =>
    simp only [step] at h
    split at h
    · injection h with h; subst h; exact .inr ⟨nofun, rfl⟩
    · cases h
  | fail i made =>
    simp only [step] at h
    split at h
    · injection h with h; subst h
      refine .inr ⟨nofun, ?_⟩
      split
      · rfl
      · exact (resize_facts _ _ _).1
    · cases h
  | exit i =>
    simp only [step] at h
    split at h
    · injection h with h; subst h; exact .inr ⟨nofun, rfl⟩
    · cases h

theorem resize_wc (s : Pool T) (n made : Nat) (hw : s.wc ≤ n) : (s.resize n made).wc ≤ n := by
  unfold Pool.resize Pool.grow
  split
  · exact hw
  · dsimp only
    rw [if_pos hw]
    dsimp only
    omega

/-- The number of workers grows only up to a number asked for. -/
theorem wc_step {push : Push T} {s s' : Pool T} {a : Act T} (h : s.step push a = some s') (h0 : 0 ≤ s.wc) {N : Nat} (hN : s.wc ≤ N)
    (hr : ∀ n made, a = .resize n made → n ≤ N) : s'.wc ≤ N := by
  have htry : ∀ (s : Pool T) i, (s.tryFetch i).wc = s.wc := by
    intro s i
    rcases tryFetch_cases s i with ⟨_, _, e⟩ | ⟨_, _, e⟩ | ⟨t, q, hq, _, e⟩ <;> rw [e]
  cases a with
  | schedule t who =>
    simp only [step] at h
    split at h
    · split at h
      · injection h with h; subst h; exact hN
      · cases h
    · split at h
      · injection h with h; subst h; exact hN
      · cases h
  | clear => injection h with h; subst h; exact hN
  | resize n made =>
    injection h with h; subst h
    have hn := hr n made rfl
    by_cases hw : s.wc ≤ n
    · have := resize_wc s n made hw; omega
    · unfold Pool.resize Pool.grow
      split
      · exact hN
      · dsimp only
        rw [if_neg hw]
        exact hN
  | resizeActive n => injection h with h; subst h; exact hN
  | terminateAll => injection h with h; subst h; exact hN
  | wait k => injection h with h; subst h; exact hN
  | clientSpurious j =>
    simp only [step] at h
    split at h
    · injection h with h; subst h; exact hN
    · cases h
  | clientResume j =>
    simp only [step] at h
    split at h
    · injection h with h; subst h; exact hN
    · cases h
  | fetch i =>
    simp only [step] at h
    split at h
    · split at h
      · injection h with h; subst h; exact hN
      · injection h with h; subst h; rw [htry]; exact hN
    · cases h
  | spurious i =>
    simp only [step] at h
    split at h
    · injection h with h; subst h; exact hN
    · cases h
  | resume i =>
    simp only [step] at h
    split at h
    · injection h with h; subst h; rw [htry]; exact hN
    · cases h
  | finish i =>
    simp only [step] at h
    split at h
    · injection h with h; subst h; exact hN
    · cases h
  | fail i made =>
    simp only [step] at h
    split at h
    · injection h with h; subst h
      split
      · show s.wc - 1 ≤ N; omega
      · rename_i t _ _
        have := resize_wc { s.gone i with failed := s.failed ++ [t] } ((s.wc - 1 + 1).toNat) made
          (by show s.wc - 1 ≤ _; omega)
        refine Int.le_trans this ?_
        omega
    · cases h
  | exit i =>
    simp only [step] at h
    split at h
    · injection h with h; subst h; show s.wc - 1 ≤ N; omega
    · cases h

theorem fuel_resize (p : Pool T) {m made : Nat} (h1 : p.wc ≤ m) (h2 : (m : Int) ≤ p.wc + 1) : fuel (p.resize m made) ≤ fuel p + 2 := by
  unfold Pool.resize Pool.grow
  split
  · omega
  · dsimp only
    rw [if_pos h1]
    unfold fuel
    dsimp only
    rw [tot_append]
    have : min made ((m : Int) - p.wc).toNat ≤ 1 := by omega
    have := Nat.mul_le_mul_right (stepsW (.ready : WState T)) this
    simp only [stepsW] at this ⊢
    omega

/-- A task that throws is a step of its worker, too. -/
theorem fuel_fail {push : Push T} {s s' : Pool T} {i made : Nat} (hw : 0 ≤ s.wc) (h : s.step push (.fail i made) = some s') :
    fuel s' < fuel s := by
  simp only [step] at h
  split at h
  · rename_i t heq
    injection h with h
    obtain ⟨p, hp⟩ : ∃ p : Pool T, p = { s.gone i with failed := s.failed ++ [t] } := ⟨_, rfl⟩
    have h0 : fuel p + 3 ≤ fuel s := by
      have := tot_set (f := stepsW) heq .dead
      simp only [stepsW] at this
      rw [hp]
      unfold fuel gone
      dsimp only
      omega
    have h1 : p.wc = s.wc - 1 := by rw [hp]; rfl
    have h : (if p.terminating = true then p else p.resize (p.wc + 1).toNat made) = s' := by rw [hp]; exact h
    rw [← h]
    split
    · omega
    · have := fuel_resize p (m := (p.wc + 1).toNat) (made := made) (by omega) (by omega)
      omega
  · cases h

/-! ## An idle pool -/

/-- Nothing is pending or being executed. -/
structure Idle (p : Pool T) : Prop where
  queue : p.queue = []
  none : ∀ w ∈ p.workers, ∀ t, w ≠ .running t

theorem idle_iff {p : Pool T} : Idle p ↔ p.queue = [] ∧ runningTasks p.workers = [] := by
  constructor
  · rintro ⟨h1, h2⟩
    refine ⟨h1, List.filterMap_eq_nil_iff.2 fun w hw => ?_⟩
    cases w with
    | running t => exact absurd rfl (h2 _ hw t)
    | _ => rfl
  · rintro ⟨h1, h2⟩
    refine ⟨h1, fun w hw t he => ?_⟩
    subst he
    have := List.filterMap_eq_nil_iff.1 h2 _ hw
    simp at this

theorem none_set {ws : List (WState T)} (h : ∀ w ∈ ws, ∀ t, w ≠ .running t) (i : Nat) {x : WState T} (hx : ∀ t, x ≠ .running t) :
    ∀ w ∈ ws.set i x, ∀ t, w ≠ .running t := by
  intro w hw
  rcases List.mem_or_eq_of_mem_set hw with h1 | h1
  · exact h w h1
  · subst h1; exact hx

theorem none_wake {ws : List (WState T)} (h : ∀ w ∈ ws, ∀ t, w ≠ .running t) : ∀ w ∈ ws.map wakeW, ∀ t, w ≠ .running t := by
  intro w hw t
  obtain ⟨v, hv, rfl⟩ := List.mem_map.1 hw
  cases v with
  | running u => exact absurd rfl (h _ hv u)
  | _ => simp [wakeW]

theorem idle_resize {p : Pool T} (h : Idle p) (n made : Nat) : Idle (p.resize n made) := by
  have := resize_facts p n made
  rw [idle_iff] at h ⊢
  rw [this.2.1, this.2.2.2.2]
  exact h

theorem idle_tryFetch {p : Pool T} (h : Idle p) (i : Nat) : Idle (p.tryFetch i) := by
  rcases tryFetch_cases p i with ⟨_, _, e⟩ | ⟨_, _, e⟩ | ⟨t, q, hq, _, e⟩
  · rw [e]; exact ⟨h.queue, none_set h.none i nofun⟩
  · rw [e]; exact ⟨h.queue, none_set h.none i nofun⟩
  · rw [h.queue] at hq; cases hq

/-- An idle pool stays idle until a task is handed over. -/
theorem idle_step {push : Push T} {s s' : Pool T} {a : Act T} (hi : Idle s) (h : s.step push a = some s')
    (ha : ∀ t who, a ≠ .schedule t who) : Idle s' := by
  have norun : ∀ {i : Nat} {t : T}, s.workers[i]? ≠ some (.running t) := fun he => hi.none _ (List.mem_of_getElem? he) _ rfl
  cases a with
  | schedule t who => exact absurd rfl (ha t who)
  | clear => injection h with h; subst h; exact ⟨rfl, hi.none⟩
  | resize n made => injection h with h; subst h; exact idle_resize hi _ _
  | resizeActive n => injection h with h; subst h; exact ⟨hi.queue, hi.none⟩
  | terminateAll => injection h with h; subst h; exact ⟨hi.queue, none_wake hi.none⟩
  | wait k => injection h with h; subst h; exact ⟨hi.queue, hi.none⟩
  | clientSpurious j =>
    simp only [step] at h
    split at h
    · injection h with h; subst h; exact ⟨hi.queue, hi.none⟩
    · cases h
  | clientResume j =>
    simp only [step] at h
    split at h
    · injection h with h; subst h; exact ⟨hi.queue, hi.none⟩
    · cases h
  | fetch i =>
    simp only [step] at h
    split at h
    · split at h
      · injection h with h; subst h; exact ⟨hi.queue, none_set hi.none i nofun⟩
      · injection h with h; subst h; exact idle_tryFetch hi i
    · cases h
  | spurious i =>
    simp only [step] at h
    split at h
    · injection h with h; subst h; exact ⟨hi.queue, none_set hi.none i nofun⟩
    · cases h
  | resume i =>
    simp only [step] at h
    split at h
    · injection h with h; subst h; exact idle_tryFetch (p := { s with act := s.act + 1 }) ⟨hi.queue, hi.none⟩ i
    · cases h
  | finish i =>
    simp only [step] at h
    split at h
    · rename_i heq; exact absurd heq norun
    · cases h
  | fail i made =>
    simp only [step] at h
    split at h
    · rename_i heq; exact absurd heq norun
    · cases h
  | exit i =>
    simp only [step] at h
    split at h
    · injection h with h; subst h; exact ⟨hi.queue, none_set hi.none i nofun⟩
    · cases h

/-! ## The program and the pool -/

/-- Facts about every state a program reaches, whatever pool and program. -/
structure Inv [DecidableEq T] (push : Push T) (throws : T → Bool) (Q : Sys T → Act T → Prop) (n made : Nat) (prog : List (Stmt T)) (s : St T) : Prop where
  reach : SReach push .allTasks (fun y a => Q y a ∧ NobodyClears y a ∧ NobodySchedules y a) (Sys.create n made) s.sys
  suffix : ∃ before, prog = before ++ s.rest ∧ s.sys.pool.scheduled = tasks before
  past : s.sys.phase ≠ .idle → s.rest = [] ∧ s.inWait = none
  client : ∀ j, s.inWait = some j → ∃ c k, s.sys.pool.clients[j]? = some c ∧ kindOf c = .tasks k
  finished : ∀ t ∈ s.sys.pool.finished, throws t = false
  failed : ∀ t ∈ s.sys.pool.failed, throws t = true

theorem tasks_append (a b : List (Stmt T)) : tasks (a ++ b) = tasks a ++ tasks b := by
  induction a with
  | nil => rfl
  | cons st a ih =>
    cases st with
    | schedule t => show t :: tasks (a ++ b) = t :: tasks a ++ tasks b; rw [ih]; rfl
    | _ => exact ih

/-- A call hands over its task. -/
theorem tasks_single {who : Option Nat} {made : Nat} {st : Stmt T} {a : Act T} (h : actOf who made st = some a) {push : Push T} {p p' : Pool T}
    (hs : p.step push a = some p') : p'.scheduled = p.scheduled ++ tasks [st] := by
  rcases scheduled_step hs with ⟨t, w, rfl, e⟩ | ⟨hne, e⟩
  · cases st with
    | schedule u => injection h with h; injection h with h _; subst h; exact e
    | _ => cases h
  · rw [e]
    cases st with
    | schedule t => injection h with h; exact absurd h.symm (hne _ _)
    | _ => exact (List.append_nil _).symm

/-- The records of ends in one step by itself. -/
theorem ends_byItself {push : Push T} {throws : T → Bool} {p p' : Pool T} {a : Act T} (hb : byItself throws p a = true)
    (hs : p.step push a = some p') (h1 : ∀ t ∈ p.finished, throws t = false) (h2 : ∀ t ∈ p.failed, throws t = true) :
    (∀ t ∈ p'.finished, throws t = false) ∧ ∀ t ∈ p'.failed, throws t = true := by
  rcases ends_step hs with ⟨e1, e2⟩ | ⟨i, t, rfl, hi, e1, e2⟩ | ⟨i, made, t, rfl, hi, e1, e2⟩ <;> rw [e1, e2]
  · exact ⟨h1, h2⟩
  · simp only [byItself, hi, Bool.not_eq_true'] at hb
    refine ⟨fun u hu => ?_, h2⟩
    rcases List.mem_append.1 hu with hu | hu
    · exact h1 u hu
    · rw [List.mem_singleton.1 hu]; exact hb
  · simp only [byItself, hi] at hb
    refine ⟨h1, fun u hu => ?_⟩
    rcases List.mem_append.1 hu with hu | hu
    · exact h2 u hu
    · rw [List.mem_singleton.1 hu]; exact hb

/-- No other action ends a task. -/
theorem ends_same {push : Push T} {p p' : Pool T} {a : Act T} (hs : p.step push a = some p') (h1 : ∀ i, a ≠ .finish i) (h2 : ∀ i m, a ≠ .fail i m) :
    p'.finished = p.finished ∧ p'.failed = p.failed := by
  rcases ends_step hs with e | ⟨i, t, e, -⟩ | ⟨i, made, t, e, -⟩
  · exact e
  · exact absurd e (h1 i)
  · exact absurd e (h2 i made)

theorem act_not_end {who : Option Nat} {made : Nat} {st : Stmt T} {a : Act T} (h : actOf who made st = some a) :
    (∀ i, a ≠ .finish i) ∧ (∀ i m, a ≠ .fail i m) ∧ a ≠ .clear := by
  cases st <;> cases h
  all_goals exact ⟨nofun, nofun, nofun⟩

/-- The records after a step of the thread in the destructor. -/
theorem shutdown_records {push : Push T} {y y' : Sys T} {a : SAct T} (ha : a = .call ∨ a = .proceed) (h : y.step push .allTasks a = some y') :
    y'.pool.scheduled = y.pool.scheduled ∧ y'.pool.finished = y.pool.finished ∧ y'.pool.failed = y.pool.failed ∧ y'.phase ≠ .idle ∧
      y'.pool.wc = y.pool.wc ∧ y'.pool.queue = y.pool.queue ∧ y'.pool.cleared = y.pool.cleared ∧ y'.pool.tact = y.pool.tact ∧
      (Idle y.pool → Idle y'.pool) := by
  rcases ha with rfl | rfl
  · obtain ⟨hph, p, ⟨_, h4, rfl⟩ | ⟨hpol, _, _⟩⟩ := step_call h
    · have hi : Idle y.pool → Idle p := fun hi => idle_step hi h4 nofun
      injection h4 with h4; subst h4
      exact ⟨rfl, rfl, rfl, nofun, rfl, rfl, rfl, rfl, hi⟩
    · exact absurd rfl hpol
  · rcases step_proceed h with ⟨hph, hpol, _⟩ | ⟨hph, _, p, h4, rfl⟩ | ⟨j, hph, _, p, p', h4, h5, rfl⟩ | ⟨j, hph, _, rfl⟩
    · cases hpol
    · have hi : Idle y.pool → Idle p := fun hi => idle_step hi h4 nofun
      injection h4 with h4; subst h4
      exact ⟨rfl, rfl, rfl, nofun, rfl, rfl, rfl, rfl, hi⟩
    · have hi : Idle y.pool → Idle p' := fun hi => idle_step (idle_step hi h4 nofun) h5 nofun
      injection h4 with h4; subst h4
      injection h5 with h5; subst h5
      exact ⟨rfl, rfl, rfl, nofun, rfl, rfl, rfl, rfl, hi⟩
    · exact ⟨rfl, rfl, rfl, nofun, rfl, rfl, rfl, rfl, id⟩

/-- The facts hold in every state reached. `Q` restricts the actions on the pool. -/
theorem inv_reaches [DecidableEq T] {push : Push T} {throws : T → Bool} {P : Move T → Prop} {Q : Sys T → Act T → Prop} {n made : Nat}
    {prog : List (Stmt T)} {R : St T → Prop}
    (hworld : ∀ s a, R s → P (.world a) → byItself throws s.sys.pool a = true → Q s.sys a)
    (hmain : ∀ s st r who m a, R s → s.rest = st :: r → actOf who m st = some a → Q s.sys a)
    {s : St T} (h : Reaches push throws P (start n made prog) s)
    (hR : ∀ s, Inv push throws Q n made prog s → Reaches push throws P (start n made prog) s → R s) :
    Inv push throws Q n made prog s := by
  induction h with
  | init =>
    have e : (Pool.create n made : Pool T).scheduled = [] ∧ (Pool.create n made : Pool T).finished = [] ∧ (Pool.create n made : Pool T).failed = [] := by
      unfold create resizeActive Pool.resize grow empty; simp
    refine ⟨.init, ⟨[], rfl, e.1⟩, fun h => absurd rfl h, nofun, ?_, ?_⟩
    · intro t ht
      change t ∈ (Pool.create n made : Pool T).finished at ht
      rw [e.2.1] at ht; cases ht
    · intro t ht
      change t ∈ (Pool.create n made : Pool T).failed at ht
      rw [e.2.2] at ht; cases ht
  | @step s s' mv h1 h2 h3 ih =>
    have hRs := hR s ih h1
    rcases step_cases h3 with ⟨a, y, rfl, hb, hy, rfl⟩ | ⟨who, m, rfl, hcase⟩
    · obtain ⟨_, p, hs, rfl⟩ := step_pool hy
      have hne : ∀ t w, a ≠ .schedule t w := by rintro t w rfl; cases hb
      have hncl : a ≠ .clear := by rintro rfl; cases hb
      obtain ⟨f1, f2⟩ := ends_byItself hb hs ih.finished ih.failed
      obtain ⟨before, b1, b2⟩ := ih.suffix
      refine ⟨.pool ih.reach ⟨hworld s a hRs h2 hb, ?_, ?_⟩ hy, ⟨before, b1, ?_⟩, ih.past, ?_, f1, f2⟩
      · cases a <;> trivial
      · cases a <;> trivial
      · rcases scheduled_step hs with ⟨t, w, e, _⟩ | ⟨_, e⟩
        · exact absurd e (hne _ _)
        · exact e.trans b2
      · intro j hj
        obtain ⟨c, k, c1, c2⟩ := ih.client j hj
        obtain ⟨c', d1, d2⟩ := (stays_step hs).kind j c c1
        exact ⟨c', k, d1, d2.trans c2⟩
    · obtain ⟨before, b1, b2⟩ := ih.suffix
      rcases hcase with ⟨j, hph, hj, hret, rfl⟩ | ⟨y, hph, hw, hr, hy, rfl⟩ | ⟨st, r, a, y, hph, hw, hr, ha, hy, rfl⟩ |
          ⟨t, r, hph, hw, hr, hf, rfl⟩ | ⟨r, hph, hw, hr, rfl⟩ | ⟨y, hph, hy, rfl⟩
      · exact ⟨ih.reach, ⟨before, b1, b2⟩, fun h => absurd hph h, nofun, ih.finished, ih.failed⟩
      · obtain ⟨r1, r2, r3, r4, _⟩ := shutdown_records (.inl rfl) hy
        refine ⟨.call ih.reach hy, ⟨before, by rw [b1, hr], by rw [← b2]; exact r1⟩, fun _ => ⟨rfl, rfl⟩, nofun, ?_, ?_⟩
        · dsimp only; rw [r2]; exact ih.finished
        · dsimp only; rw [r3]; exact ih.failed
      · obtain ⟨_, p, hs, rfl⟩ := step_pool hy
        obtain ⟨e1, e2, e3⟩ := act_not_end ha
        obtain ⟨f1, f2⟩ := ends_same hs e1 e2
        refine ⟨.pool ih.reach ⟨hmain s st r who m a hRs hr ha, ?_, ?_⟩ hy, ⟨before ++ [st], by rw [b1, hr]; simp, ?_⟩,
          fun h => absurd hph h, ?_, ?_, ?_⟩
        · cases a <;> trivial
        · cases a <;> trivial
        · dsimp only; rw [tasks_single ha hs, tasks_append, b2]
        · intro j hj
          cases st with
          | wait k =>
            injection hj with hj; subst hj
            injection ha with ha; subst ha
            refine ⟨_, k, (wait_new hs).2.1, ?_⟩
            split <;> rfl
          | _ => cases hj
        · dsimp only; rw [f1]; exact ih.finished
        · dsimp only; rw [f2]; exact ih.failed
      · exact ⟨ih.reach, ⟨before ++ [.await t], by rw [b1, hr]; simp, by rw [tasks_append, b2]; exact (List.append_nil _).symm⟩,
          fun h => absurd hph h, nofun, ih.finished, ih.failed⟩
      · exact ⟨ih.reach, ⟨before ++ [.look], by rw [b1, hr]; simp, by rw [tasks_append, b2]; exact (List.append_nil _).symm⟩,
          fun h => absurd hph h, nofun, ih.finished, ih.failed⟩
      · obtain ⟨r1, r2, r3, r4, _⟩ := shutdown_records (.inr rfl) hy
        refine ⟨.proceed ih.reach hy, ⟨before, b1, by rw [← b2]; exact r1⟩, fun _ => ih.past hph, ?_, ?_, ?_⟩
        · intro j hj
          dsimp only at hj
          rw [(ih.past hph).2] at hj; cases hj
        · dsimp only; rw [r2]; exact ih.finished
        · dsimp only; rw [r3]; exact ih.failed

end SpatialOps.Script
