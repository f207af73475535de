import Verif.Shutdown.Lemmas

/-!
# Invariant of a pool being shut down
-/

namespace SpatialOps.Shutdown
open Threads Threads.Pool
variable {T : Type}

/-- Everything handed over by `p` has been dealt with in `q`, and what had been started
has been completed. -/
structure Settled (p q : Pool T) : Prop where
  all : p.scheduled.Subperm (q.finished ++ q.failed ++ q.cleared)
  started : p.started.Subperm (q.finished ++ q.failed)

theorem prefix_append2 {α : Type} {a b c d : List α} (h : a <+: b) (g : c <+: d) : (a ++ c).Subperm (b ++ d) := by
  obtain ⟨x, rfl⟩ := h
  obtain ⟨y, rfl⟩ := g
  refine ⟨a ++ c, List.Perm.refl _, ?_⟩
  exact (List.sublist_append_left a x).append (List.sublist_append_left c y)

theorem Settled.mono {p q q' : Pool T} (h : Settled p q) (g : Grows q q') : Settled p q' := by
  have h1 := prefix_append2 g.finished g.failed
  refine ⟨h.all.trans ?_, h.started.trans h1⟩
  obtain ⟨a, e1⟩ := g.finished
  obtain ⟨b, e2⟩ := g.failed
  obtain ⟨c, e3⟩ := g.cleared
  rw [← e1, ← e2, ← e3]
  exact (((List.sublist_append_left q.finished a).append (List.sublist_append_left q.failed b)).append
    (List.sublist_append_left q.cleared c)).subperm

/-- What is known of the state at the call. -/
structure Snap (pol : Policy) (p q : Pool T) : Prop where
  grows : Grows p q
  dropped : pol ≠ .allTasks → p.cleared ++ p.queue <+: q.cleared

theorem Snap.mono {pol : Policy} {p q q' : Pool T} (h : Snap pol p q) (g : Grows q q') : Snap pol p q' :=
  ⟨h.grows.trans g, fun hp => (h.dropped hp).trans g.cleared⟩

/-- The invariant, phase by phase. -/
def SInv (pol : Policy) (s : Sys T) : Prop :=
  match s.phase with
  | .idle => s.pool.terminating = false
  | .cleared => s.pool.terminating = false ∧ ∃ p, s.atCall = some p ∧ Snap pol p s.pool
  | .waiting j => s.pool.terminating = false ∧ pol ≠ .immediately ∧ ∃ p, s.atCall = some p ∧ Snap pol p s.pool ∧
      (∃ c, s.pool.clients[j]? = some c ∧ kindOf c = .tasks 0) ∧
      (s.pool.clients[j]? = some (.returned (.tasks 0)) → Settled p s.pool)
  | .ending j => s.pool.terminating = true ∧ pol ≠ .immediately ∧ ∃ p, s.atCall = some p ∧ Snap pol p s.pool ∧
      Settled p s.pool ∧ (∃ c, s.pool.clients[j]? = some c ∧ kindOf c = .allGone) ∧
      (s.pool.clients[j]? = some (.returned .allGone) → ∀ w ∈ s.pool.workers, w = .dead)
  | .done => s.pool.terminating = true ∧ ∃ p, s.atCall = some p ∧ Snap pol p s.pool ∧
      (pol ≠ .immediately → Settled p s.pool ∧ ∀ w ∈ s.pool.workers, w = .dead)

/-- When the wait for all tasks is seen to have returned, everything is settled. -/
theorem settled_of_return {push : Push T} (hp : Keeps push) {n made : Nat} {q q' : Pool T} {a : Act T}
    (h : Reach push (fun _ _ => True) (create n made) q) (hs : q.step push a = some q') {j : Nat}
    (hnew : q.clients[j]? ≠ some (.returned (.tasks 0))) (hret : q'.clients[j]? = some (.returned (.tasks 0)))
    {p : Pool T} (g : Grows p q') : Settled p q' := by
  obtain ⟨h1, h2, h3⟩ := C36_wait_returns_when_idle hp h (hP := trivial) hs hnew hret
  have h4 := (C34_exactly_once hp (h.step trivial hs)).2
  rw [h2, List.append_nil] at h4
  exact ⟨g.scheduled.sublist.subperm.trans h3.subperm, g.started.sublist.subperm.trans h4.subperm⟩

/-- When the wait for the termination is seen to have returned, every worker is gone. -/
theorem dead_of_return {push : Push T} {n made : Nat} {q q' : Pool T} {a : Act T}
    (h : Reach push (fun _ _ => True) (create n made) q) (hs : q.step push a = some q') {j : Nat}
    (hnew : q.clients[j]? ≠ some (.returned .allGone)) (hret : q'.clients[j]? = some (.returned .allGone)) :
    ∀ w ∈ q'.workers, w = .dead := by
  have hc := (returned_step hs hret).resolve_left hnew
  have hn := (counts_reach (counts_create n made) (h.step trivial hs)).wc
  simp only [Pool.cond, Bool.not_eq_true', decide_eq_false_iff_not] at hc
  refine dead_of_live ?_
  rw [liveWorkers_eq]
  omega

theorem inv_pool {push : Push T} (hp : Keeps push) {pol : Policy} {n made : Nat} {s : Sys T} {a : Act T} {p' : Pool T}
    (hr : Reach push (fun _ _ => True) (create n made) s.pool) (hi : SInv pol s) (hpr : isPrivate a = false)
    (hs : s.pool.step push a = some p') : SInv pol { s with pool := p' } := by
  have g := grows_step hs
  have st := stays_step hs
  have ht : p'.terminating = s.pool.terminating := by
    rcases terminating_step hs with ⟨rfl, _⟩ | ⟨_, h⟩
    · cases hpr
    · exact h
  unfold SInv at hi ⊢
  cases hph : s.phase with
  | idle =>
    rw [hph] at hi
    exact ht.trans hi
  | cleared =>
    rw [hph] at hi
    obtain ⟨h1, p, h2, h3⟩ := hi
    exact ⟨ht.trans h1, p, h2, h3.mono g⟩
  | waiting j =>
    rw [hph] at hi
    obtain ⟨h1, h2, p, h3, h4, ⟨c, h5, h6⟩, h7⟩ := hi
    refine ⟨ht.trans h1, h2, p, h3, h4.mono g, ?_, fun hret => ?_⟩
    · obtain ⟨c', h8, h9⟩ := st.kind j c h5
      exact ⟨c', h8, h9.trans h6⟩
    · by_cases hold : s.pool.clients[j]? = some (.returned (.tasks 0))
      · exact (h7 hold).mono g
      · exact settled_of_return hp hr hs hold hret (h4.mono g).grows
  | ending j =>
    rw [hph] at hi
    obtain ⟨h1, h2, p, h3, h4, h4', ⟨c, h5, h6⟩, h7⟩ := hi
    refine ⟨ht.trans h1, h2, p, h3, h4.mono g, h4'.mono g, ?_, fun hret => ?_⟩
    · obtain ⟨c', h8, h9⟩ := st.kind j c h5
      exact ⟨c', h8, h9.trans h6⟩
    · by_cases hold : s.pool.clients[j]? = some (.returned .allGone)
      · exact (gone_step hs h1 (h7 hold)).1
      · exact dead_of_return hr hs hold hret
  | done =>
    rw [hph] at hi
    obtain ⟨h1, p, h2, h3, h4⟩ := hi
    refine ⟨ht.trans h1, p, h2, h3.mono g, fun hpol => ?_⟩
    obtain ⟨h5, h6⟩ := h4 hpol
    exact ⟨h5.mono g, (gone_step hs h1 h6).1⟩

theorem hasReturned_iff {p : Pool T} {j : Nat} (h : hasReturned p j = true) :
    ∃ k, p.clients[j]? = some (.returned k) := by
  unfold hasReturned at h
  split at h
  · rename_i k hk; exact ⟨k, hk⟩
  · cases h

theorem wait_new {push : Push T} {q p : Pool T} {k : CKind} (h : q.step push (.wait k) = some p) :
    q.clients[q.clients.length]? = none ∧
    p.clients[q.clients.length]? = some (if p.cond k then .returned k else .waiting k) ∧
    p.terminating = q.terminating ∧ p.workers = q.workers ∧ p.wc = q.wc ∧ p.cond k = q.cond k := by
  injection h with h
  subst h
  have hc : ∀ cs, Pool.cond { q with clients := cs } k = q.cond k := by
    intro cs
    cases k with
    | tasks n => cases n <;> rfl
    | allGone => rfl
  refine ⟨by simp, ?_, rfl, rfl, rfl, hc _⟩
  simp [hc]

theorem inv_wait {push : Push T} (hp : Keeps push) {pol : Policy} {n made : Nat} {q q' : Pool T} {p : Pool T}
    (hr : Reach push (fun _ _ => True) (create n made) q) (ht : q.terminating = false) (hpol : pol ≠ .immediately)
    (hsn : Snap pol p q) (hs : q.step push (.wait (.tasks 0)) = some q') :
    SInv pol ⟨q', .waiting q.clients.length, some p⟩ := by
  obtain ⟨h1, h2, h3, _⟩ := wait_new hs
  refine ⟨h3.trans ht, hpol, p, rfl, hsn.mono (grows_step hs), ⟨_, h2, kind_if⟩, fun hret => ?_⟩
  exact settled_of_return hp hr hs (by rw [h1]; nofun) hret (hsn.mono (grows_step hs)).grows

theorem inv_reach {push : Push T} (hp : Keeps push) {pol : Policy} {P : Sys T → Act T → Prop} {n made : Nat} {s : Sys T}
    (h : SReach push pol P (Sys.create n made) s) : SInv pol s := by
  induction h with
  | init =>
    show (Pool.create n made : Pool T).terminating = false
    unfold create resizeActive Pool.resize grow empty
    simp
  | pool h1 _ h3 ih =>
    obtain ⟨hpr, p, h4, rfl⟩ := step_pool h3
    exact inv_pool hp (pool_reach h1) ih hpr h4
  | @call s s' h1 h3 ih =>
    have hr := pool_reach h1
    obtain ⟨hph, p, ⟨rfl, h4, rfl⟩ | ⟨hpol, h4, rfl⟩⟩ := step_call h3
    · unfold SInv at ih
      rw [hph] at ih
      exact inv_wait hp hr ih (by decide) ⟨Grows.refl _, fun h => absurd rfl h⟩ h4
    · unfold SInv at ih
      rw [hph] at ih
      injection h4 with h4
      subst h4
      refine ⟨ih, s.pool, rfl, ⟨?_, fun _ => List.prefix_refl _⟩⟩
      exact grows_step (push := push) (a := .clear) rfl
  | @proceed s s' h1 h3 ih =>
    have hr := pool_reach h1
    unfold SInv at ih
    rcases step_proceed h3 with ⟨hph, hpol, p, h4, rfl⟩ | ⟨hph, hpol, p, h4, rfl⟩ | ⟨j, hph, hret, p, p', h4, h5, rfl⟩ | ⟨j, hph, hret, rfl⟩
    · rw [hph] at ih
      obtain ⟨i1, q, i2, i3⟩ := ih
      have ht : p.terminating = true := by injection h4 with h4; subst h4; rfl
      exact ⟨ht, q, i2, i3.mono (grows_step h4), fun h => absurd hpol h⟩
    · rw [hph] at ih
      obtain ⟨i1, q, i2, i3⟩ := ih
      have := inv_wait hp hr i1 hpol i3 h4
      rw [← i2] at this
      exact this
    · rw [hph] at ih
      obtain ⟨i1, i2, q, i3, i4, ⟨c, i5, i6⟩, i7⟩ := ih
      obtain ⟨k, hk⟩ := hasReturned_iff hret
      have hk' : s.pool.clients[j]? = some (.returned (.tasks 0)) := by
        rw [hk] at i5
        injection i5 with i5
        subst i5
        cases i6
        exact hk
      have ht : p.terminating = true := by injection h4 with h4; subst h4; rfl
      obtain ⟨w1, w2, w3, _⟩ := wait_new h5
      have g := (grows_step h4).trans (grows_step h5)
      refine ⟨w3.trans ht, i2, q, i3, i4.mono g, (i7 hk').mono g, ⟨_, w2, kind_if⟩, fun hret' => ?_⟩
      exact dead_of_return (hr.step (a := .terminateAll) trivial h4) h5 (by rw [w1]; nofun) hret'
    · rw [hph] at ih
      obtain ⟨i1, i2, q, i3, i4, i4', ⟨c, i5, i6⟩, i7⟩ := ih
      obtain ⟨k, hk⟩ := hasReturned_iff hret
      have hk' : s.pool.clients[j]? = some (.returned .allGone) := by
        rw [hk] at i5
        injection i5 with i5
        subst i5
        cases i6
        exact hk
      exact ⟨i1, q, i3, i4, fun _ => ⟨i4', i7 hk'⟩⟩

end SpatialOps.Shutdown
