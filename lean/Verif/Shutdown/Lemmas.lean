import Verif.Shutdown.Spec
import Verif.Threads.Props

/-!
# Lemmas on shutting a thread pool down
-/

namespace SpatialOps.Shutdown
open Threads Threads.Pool
variable {T : Type}

/-- What a client waits for. -/
def kindOf : CState → CKind
  | .waiting k => k
  | .woken k => k
  | .returned k => k

/-- Records only grow, in every step. -/
structure Grows (s s' : Pool T) : Prop where
  scheduled : s.scheduled <+: s'.scheduled
  started : s.started <+: s'.started
  finished : s.finished <+: s'.finished
  failed : s.failed <+: s'.failed
  cleared : s.cleared <+: s'.cleared

theorem Grows.refl (s : Pool T) : Grows s s :=
  ⟨List.prefix_refl _, List.prefix_refl _, List.prefix_refl _, List.prefix_refl _, List.prefix_refl _⟩

theorem Grows.trans {a b c : Pool T} (h : Grows a b) (g : Grows b c) : Grows a c :=
  ⟨h.1.trans g.1, h.2.trans g.2, h.3.trans g.3, h.4.trans g.4, h.5.trans g.5⟩

theorem Grows.of_eq {s s' : Pool T} (h1 : s'.scheduled = s.scheduled) (h2 : s'.started = s.started)
    (h3 : s'.finished = s.finished) (h4 : s'.failed = s.failed) (h5 : s'.cleared = s.cleared) : Grows s s' := by
  constructor
  · rw [h1]; exact List.prefix_refl _
  · rw [h2]; exact List.prefix_refl _
  · rw [h3]; exact List.prefix_refl _
  · rw [h4]; exact List.prefix_refl _
  · rw [h5]; exact List.prefix_refl _

theorem grows_resize (s : Pool T) (n made : Nat) : Grows s (s.resize n made) := by
  unfold Pool.resize Pool.grow
  split
  · exact Grows.refl _
  · dsimp only; split <;> exact Grows.of_eq rfl rfl rfl rfl rfl

theorem grows_tryFetch (s : Pool T) (i : Nat) : Grows s (s.tryFetch i) := by
  rcases tryFetch_cases s i with ⟨_, _, e⟩ | ⟨_, _, e⟩ | ⟨t, q, hq, _, e⟩ <;> rw [e]
  · exact Grows.of_eq rfl rfl rfl rfl rfl
  · exact Grows.of_eq rfl rfl rfl rfl rfl
  · exact ⟨List.prefix_refl _, List.prefix_append _ _, List.prefix_refl _, List.prefix_refl _, List.prefix_refl _⟩

theorem grows_step {push : Push T} {s s' : Pool T} {a : Act T} (h : s.step push a = some s') : Grows s s' := by
  cases a with
  | schedule t who =>
    simp only [step] at h
    split at h
    · split at h
      · injection h with h; subst h
        exact ⟨List.prefix_append _ _, List.prefix_refl _, List.prefix_refl _, List.prefix_refl _, List.prefix_refl _⟩
      · cases h
    · split at h
      · injection h with h; subst h
        exact ⟨List.prefix_append _ _, List.prefix_refl _, List.prefix_refl _, List.prefix_refl _, List.prefix_refl _⟩
      · cases h
  | clear =>
    injection h with h; subst h
    exact ⟨List.prefix_refl _, List.prefix_refl _, List.prefix_refl _, List.prefix_refl _, List.prefix_append _ _⟩
  | resize n made => injection h with h; subst h; exact grows_resize s n made
  | fetch i =>
    simp only [step] at h
    split at h
    · split at h
      · injection h with h; subst h; exact Grows.of_eq rfl rfl rfl rfl rfl
      · injection h with h; subst h; exact grows_tryFetch s i
    · cases h
  | resume i =>
    simp only [step] at h
    split at h
    · injection h with h; subst h
      exact (Grows.of_eq rfl rfl rfl rfl rfl : Grows s { s with act := s.act + 1 }).trans (grows_tryFetch _ i)
    · cases h
  | finish i =>
    simp only [step] at h
    split at h
    · injection h with h; subst h
      exact ⟨List.prefix_refl _, List.prefix_refl _, List.prefix_append _ _, List.prefix_refl _, List.prefix_refl _⟩
    · cases h
  | fail i made =>
    simp only [step] at h
    split at h
    · rename_i t heq
      injection h with h; subst h
      have g : Grows s { s.gone i with failed := s.failed ++ [t] } :=
        ⟨List.prefix_refl _, List.prefix_refl _, List.prefix_refl _, List.prefix_append _ _, List.prefix_refl _⟩
      split
      · exact g
      · exact g.trans (grows_resize _ _ _)
    · cases h
  | exit i =>
    simp only [step] at h
    split at h
    · injection h with h; subst h; exact Grows.of_eq rfl rfl rfl rfl rfl
    · cases h
  | clientSpurious j =>
    simp only [step] at h
    split at h
    · injection h with h; subst h; exact Grows.of_eq rfl rfl rfl rfl rfl
    · cases h
  | clientResume j =>
    simp only [step] at h
    split at h
    · injection h with h; subst h; exact Grows.of_eq rfl rfl rfl rfl rfl
    · cases h
  | spurious i =>
    simp only [step] at h
    split at h
    · injection h with h; subst h; exact Grows.of_eq rfl rfl rfl rfl rfl
    · cases h
  | resizeActive n => injection h with h; subst h; exact Grows.of_eq rfl rfl rfl rfl rfl
  | terminateAll => injection h with h; subst h; exact Grows.of_eq rfl rfl rfl rfl rfl
  | wait k => injection h with h; subst h; exact Grows.of_eq rfl rfl rfl rfl rfl

/-- A client stays the client of the same call; once returned it stays returned. -/
structure Stays (cs cs' : List CState) : Prop where
  kind : ∀ (j : Nat) c, cs[j]? = some c → ∃ c', cs'[j]? = some c' ∧ kindOf c' = kindOf c
  back : ∀ (j : Nat) k, cs[j]? = some (.returned k) → cs'[j]? = some (.returned k)

theorem Stays.refl (cs : List CState) : Stays cs cs := ⟨fun _ c h => ⟨c, h, rfl⟩, fun _ _ h => h⟩

theorem stays_wake (cs : List CState) : Stays cs (cs.map wakeC) := by
  constructor
  · intro j c h
    refine ⟨wakeC c, by rw [List.getElem?_map, h]; rfl, ?_⟩
    cases c <;> rfl
  · intro j k h
    rw [List.getElem?_map, h]; rfl

theorem stays_append (cs : List CState) (c : CState) : Stays cs (cs ++ [c]) := by
  have key : ∀ (j : Nat) d, cs[j]? = some d → (cs ++ [c])[j]? = some d := by
    intro j d h
    have hl : j < cs.length := (List.getElem?_eq_some_iff.1 h).1
    rw [List.getElem?_append_left hl, h]
  exact ⟨fun j d h => ⟨d, key j d h, rfl⟩, fun j k h => key j _ h⟩

theorem stays_set {cs : List CState} {j : Nat} {k : CKind} {c c' : CState} (h : cs[j]? = some c)
    (hc : kindOf c = k) (hr : ∀ k', c ≠ .returned k') (hc' : kindOf c' = k) : Stays cs (cs.set j c') := by
  have hl : j < cs.length := (List.getElem?_eq_some_iff.1 h).1
  constructor
  · intro i d hd
    by_cases hi : j = i
    · subst hi
      rw [h] at hd; injection hd with hd; subst hd
      exact ⟨c', List.getElem?_set_self hl, hc'.trans hc.symm⟩
    · exact ⟨d, by rw [List.getElem?_set_ne hi, hd], rfl⟩
  · intro i k' hd
    by_cases hi : j = i
    · subst hi
      rw [h] at hd; injection hd with hd
      exact absurd hd (hr k')
    · rw [List.getElem?_set_ne hi, hd]

theorem clients_resize (s : Pool T) (n made : Nat) : (s.resize n made).clients = s.clients := by
  unfold Pool.resize Pool.grow
  split
  · rfl
  · dsimp only; split <;> rfl

theorem stays_tryFetch (s : Pool T) (i : Nat) : Stays s.clients (s.tryFetch i).clients := by
  rcases tryFetch_cases s i with ⟨_, _, e⟩ | ⟨_, _, e⟩ | ⟨t, q, hq, _, e⟩ <;> rw [e]
  · exact Stays.refl _
  · exact stays_wake _
  · exact Stays.refl _

theorem kind_if {b : Bool} {k : CKind} : kindOf (if b then .returned k else .waiting k) = k := by
  cases b <;> rfl

theorem stays_step {push : Push T} {s s' : Pool T} {a : Act T} (h : s.step push a = some s') :
    Stays s.clients s'.clients := by
  cases a with
  | schedule t who =>
    simp only [step] at h
    split at h
    · split at h
      · injection h with h; subst h; exact Stays.refl _
      · cases h
    · split at h
      · injection h with h; subst h; exact Stays.refl _
      · cases h
  | clear => injection h with h; subst h; exact Stays.refl _
  | resize n made =>
    injection h with h; subst h
    rw [clients_resize]; exact Stays.refl _
  | fetch i =>
    simp only [step] at h
    split at h
    · split at h
      · injection h with h; subst h; exact Stays.refl _
      · injection h with h; subst h; exact stays_tryFetch s i
    · cases h
  | resume i =>
    simp only [step] at h
    split at h
    · injection h with h; subst h
      exact stays_tryFetch { s with act := s.act + 1 } i
    · cases h
  | finish i =>
    simp only [step] at h
    split at h
    · injection h with h; subst h; exact Stays.refl _
    · cases h
  | fail i made =>
    simp only [step] at h
    split at h
    · injection h with h; subst h
      split
      · exact stays_wake _
      · rw [clients_resize]; exact stays_wake _
    · cases h
  | exit i =>
    simp only [step] at h
    split at h
    · injection h with h; subst h; exact stays_wake _
    · cases h
  | clientSpurious j =>
    simp only [step] at h
    split at h
    · rename_i k heq
      injection h with h; subst h
      exact stays_set heq rfl (by intro k' e; cases e) rfl
    · cases h
  | clientResume j =>
    simp only [step] at h
    split at h
    · rename_i k heq
      injection h with h; subst h
      exact stays_set heq rfl (by intro k' e; cases e) kind_if
    · cases h
  | spurious i =>
    simp only [step] at h
    split at h
    · injection h with h; subst h; exact Stays.refl _
    · cases h
  | resizeActive n => injection h with h; subst h; exact Stays.refl _
  | terminateAll => injection h with h; subst h; exact Stays.refl _
  | wait k => injection h with h; subst h; exact stays_append _ _

/-- `terminating` is set only by `terminate_all_workers` and never cleared. -/
theorem terminating_step {push : Push T} {s s' : Pool T} {a : Act T} (h : s.step push a = some s') :
    (a = .terminateAll ∧ s'.terminating = true) ∨ (a ≠ .terminateAll ∧ s'.terminating = s.terminating) := by
  have hres : ∀ (s : Pool T) n made, (s.resize n made).terminating = s.terminating := by
    intro s n made
    unfold Pool.resize Pool.grow
    split
    · rfl
    · dsimp only; split <;> rfl
  have htry : ∀ (s : Pool T) i, (s.tryFetch i).terminating = s.terminating := by
    intro s i
    rcases tryFetch_cases s i with ⟨_, _, e⟩ | ⟨_, _, e⟩ | ⟨t, q, hq, _, e⟩ <;> rw [e]
  cases a with
  | terminateAll => injection h with h; subst h; exact Or.inl ⟨rfl, rfl⟩
  | schedule t who =>
    refine Or.inr ⟨nofun, ?_⟩
    simp only [step] at h
    split at h
    · split at h
      · injection h with h; subst h; rfl
      · cases h
    · split at h
      · injection h with h; subst h; rfl
      · cases h
  | clear => injection h with h; subst h; exact Or.inr ⟨nofun, rfl⟩
  | resize n made => injection h with h; subst h; exact Or.inr ⟨nofun, hres _ _ _⟩
  | fetch i =>
    refine Or.inr ⟨nofun, ?_⟩
    simp only [step] at h
    split at h
    · split at h
      · injection h with h; subst h; rfl
      · injection h with h; subst h; exact htry s i
    · cases h
  | resume i =>
    refine Or.inr ⟨nofun, ?_⟩
    simp only [step] at h
    split at h
    · injection h with h; subst h; exact htry _ i
    · cases h
  | finish i =>
    refine Or.inr ⟨nofun, ?_⟩
    simp only [step] at h
    split at h
    · injection h with h; subst h; rfl
    · cases h
  | fail i made =>
    refine Or.inr ⟨nofun, ?_⟩
    simp only [step] at h
    split at h
    · injection h with h; subst h
      split
      · rfl
      · rw [hres]; rfl
    · cases h
  | exit i =>
    refine Or.inr ⟨nofun, ?_⟩
    simp only [step] at h
    split at h
    · injection h with h; subst h; rfl
    · cases h
  | clientSpurious j =>
    refine Or.inr ⟨nofun, ?_⟩
    simp only [step] at h
    split at h
    · injection h with h; subst h; rfl
    · cases h
  | clientResume j =>
    refine Or.inr ⟨nofun, ?_⟩
    simp only [step] at h
    split at h
    · injection h with h; subst h; rfl
    · cases h
  | spurious i =>
    refine Or.inr ⟨nofun, ?_⟩
    simp only [step] at h
    split at h
    · injection h with h; subst h; rfl
    · cases h
  | resizeActive n => injection h with h; subst h; exact Or.inr ⟨nofun, rfl⟩
  | wait k => injection h with h; subst h; exact Or.inr ⟨nofun, rfl⟩

/-- With the pool terminating and every worker gone, nothing moves any more. -/
theorem gone_step {push : Push T} {s s' : Pool T} {a : Act T} (h : s.step push a = some s')
    (ht : s.terminating = true) (hd : ∀ w ∈ s.workers, w = .dead) :
    (∀ w ∈ s'.workers, w = .dead) ∧ s'.started = s.started ∧ s'.finished = s.finished ∧ s'.failed = s.failed := by
  have ws : ∀ {i : Nat} {w : WState T}, s.workers[i]? = some w → w = .dead :=
    fun hi => hd _ (List.mem_of_getElem? hi)
  have wake : ∀ w ∈ s.workers.map wakeW, w = .dead := by
    intro w hw
    obtain ⟨v, hv, rfl⟩ := List.mem_map.1 hw
    rw [hd v hv]; rfl
  cases a with
  | schedule t who =>
    simp only [step] at h
    split at h
    · split at h
      · rename_i heq; cases ws heq
      · cases h
    · split at h
      · injection h with h; subst h; exact ⟨hd, rfl, rfl, rfl⟩
      · cases h
  | clear => injection h with h; subst h; exact ⟨hd, rfl, rfl, rfl⟩
  | resize n made =>
    injection h with h; subst h
    unfold Pool.resize
    rw [if_pos ht]
    exact ⟨hd, rfl, rfl, rfl⟩
  | fetch i =>
    simp only [step] at h
    split at h
    · rename_i heq; cases ws heq
    · cases h
  | resume i =>
    simp only [step] at h
    split at h
    · rename_i heq; cases ws heq
    · cases h
  | finish i =>
    simp only [step] at h
    split at h
    · rename_i heq; cases ws heq
    · cases h
  | fail i made =>
    simp only [step] at h
    split at h
    · rename_i heq; cases ws heq
    · cases h
  | exit i =>
    simp only [step] at h
    split at h
    · rename_i heq; cases ws heq
    · cases h
  | clientSpurious j =>
    simp only [step] at h
    split at h
    · injection h with h; subst h; exact ⟨hd, rfl, rfl, rfl⟩
    · cases h
  | clientResume j =>
    simp only [step] at h
    split at h
    · injection h with h; subst h; exact ⟨hd, rfl, rfl, rfl⟩
    · cases h
  | spurious i =>
    simp only [step] at h
    split at h
    · rename_i heq; cases ws heq
    · cases h
  | resizeActive n => injection h with h; subst h; exact ⟨hd, rfl, rfl, rfl⟩
  | terminateAll => injection h with h; subst h; exact ⟨wake, rfl, rfl, rfl⟩
  | wait k => injection h with h; subst h; exact ⟨hd, rfl, rfl, rfl⟩

theorem dead_of_live {ws : List (WState T)} (h : liveWorkers ws = 0) : ∀ w ∈ ws, w = .dead := by
  intro w hw
  have := List.countP_eq_zero.1 h w hw
  cases w <;> simp_all

theorem live_of_dead {ws : List (WState T)} (h : ∀ w ∈ ws, w = .dead) : liveWorkers ws = 0 := by
  apply List.countP_eq_zero.2
  intro w hw
  rw [h w hw]
  simp

theorem running_of_dead {ws : List (WState T)} (h : ∀ w ∈ ws, w = .dead) : runningTasks ws = [] := by
  apply List.filterMap_eq_nil_iff.2
  intro w hw
  rw [h w hw]

/-! ## The pool under the layer -/

theorem step_pool {push : Push T} {pol : Policy} {s s' : Sys T} {a : Act T}
    (h : s.step push pol (.pool a) = some s') :
    isPrivate a = false ∧ ∃ p, s.pool.step push a = some p ∧ s' = { s with pool := p } := by
  unfold Sys.step at h
  dsimp only at h
  split at h
  · cases h
  · rename_i hp
    cases hs : s.pool.step push a with
    | none => simp only [hs, Option.map_none] at h; cases h
    | some p =>
      simp only [hs, Option.map_some, Option.some.injEq] at h
      exact ⟨by simpa using hp, p, rfl, h.symm⟩

theorem step_call {push : Push T} {pol : Policy} {s s' : Sys T} (h : s.step push pol .call = some s') :
    s.phase = .idle ∧ ∃ p,
      ((pol = .allTasks ∧ s.pool.step push (.wait (.tasks 0)) = some p ∧
          s' = ⟨p, .waiting s.pool.clients.length, some s.pool⟩) ∨
       (pol ≠ .allTasks ∧ s.pool.step push .clear = some p ∧ s' = ⟨p, .cleared, some s.pool⟩)) := by
  unfold Sys.step at h
  dsimp only at h
  split at h
  · rename_i hph
    refine ⟨hph, ?_⟩
    split at h
    · unfold enterWait at h
      dsimp only at h
      cases hs : s.pool.step push (.wait (.tasks 0)) with
      | none => rw [hs] at h; cases h
      | some p =>
        rw [hs] at h
        injection h with h
        exact ⟨p, Or.inl ⟨rfl, rfl, h.symm⟩⟩
    · rename_i hpol
      cases hs : s.pool.step push .clear with
      | none => rw [hs] at h; cases h
      | some p =>
        rw [hs] at h
        injection h with h
        exact ⟨p, Or.inr ⟨hpol, rfl, h.symm⟩⟩
  · cases h

theorem step_proceed {push : Push T} {pol : Policy} {s s' : Sys T} (h : s.step push pol .proceed = some s') :
    (s.phase = .cleared ∧ pol = .immediately ∧ ∃ p, s.pool.step push .terminateAll = some p ∧
        s' = { s with pool := p, phase := .done }) ∨
    (s.phase = .cleared ∧ pol ≠ .immediately ∧ ∃ p, s.pool.step push (.wait (.tasks 0)) = some p ∧
        s' = { s with pool := p, phase := .waiting s.pool.clients.length }) ∨
    (∃ j, s.phase = .waiting j ∧ hasReturned s.pool j = true ∧ ∃ p p', s.pool.step push .terminateAll = some p ∧
        p.step push (.wait .allGone) = some p' ∧ s' = { s with pool := p', phase := .ending p.clients.length }) ∨
    (∃ j, s.phase = .ending j ∧ hasReturned s.pool j = true ∧ s' = { s with phase := .done }) := by
  unfold Sys.step at h
  dsimp only at h
  split at h
  · rename_i hph
    split at h
    · cases hs : s.pool.step push .terminateAll with
      | none => rw [hs] at h; cases h
      | some p =>
        rw [hs] at h
        injection h with h
        exact Or.inl ⟨hph, rfl, p, rfl, h.symm⟩
    · rename_i hpol
      unfold enterWait at h
      cases hs : s.pool.step push (.wait (.tasks 0)) with
      | none => rw [hs] at h; cases h
      | some p =>
        rw [hs] at h
        injection h with h
        exact Or.inr (Or.inl ⟨hph, hpol, p, rfl, h.symm⟩)
  · rename_i j hph
    split at h
    · rename_i hr
      unfold enterTerminate at h
      cases hs : s.pool.step push .terminateAll with
      | none => rw [hs] at h; cases h
      | some p =>
        rw [hs] at h
        simp only [Option.bind_some] at h
        cases hs' : p.step push (.wait .allGone) with
        | none => rw [hs'] at h; cases h
        | some p' =>
          rw [hs'] at h
          injection h with h
          exact Or.inr (Or.inr (Or.inl ⟨j, hph, hr, p, p', rfl, hs', h.symm⟩))
    · cases h
  · rename_i j hph
    split at h
    · rename_i hr
      injection h with h
      exact Or.inr (Or.inr (Or.inr ⟨j, hph, hr, h.symm⟩))
    · cases h
  · cases h

/-- The pool of a reachable state of the layer is a reachable pool. -/
theorem pool_reach {push : Push T} {pol : Policy} {P : Sys T → Act T → Prop} {n made : Nat} {s : Sys T}
    (h : SReach push pol P (Sys.create n made) s) : Reach push (fun _ _ => True) (create n made) s.pool := by
  induction h with
  | init => exact .init
  | pool _ _ h3 ih =>
    obtain ⟨_, p, h4, rfl⟩ := step_pool h3
    exact ih.step trivial h4
  | call _ h3 ih =>
    obtain ⟨_, p, ⟨_, h4, rfl⟩ | ⟨_, h4, rfl⟩⟩ := step_call h3
    · exact ih.step trivial h4
    · exact ih.step trivial h4
  | proceed _ h3 ih =>
    rcases step_proceed h3 with ⟨_, _, p, h4, rfl⟩ | ⟨_, _, p, h4, rfl⟩ | ⟨j, _, _, p, p', h4, h5, rfl⟩ | ⟨j, _, _, rfl⟩
    · exact ih.step trivial h4
    · exact ih.step trivial h4
    · exact (ih.step trivial h4).step (a := .wait .allGone) trivial h5
    · exact ih

end SpatialOps.Shutdown
