import Verif.TimedWait.Spec
import Verif.Shutdown.Lemmas

/-!
# Lemmas on waiting with a time limit
-/

namespace SpatialOps.TimedWait
open Threads Threads.Pool Shutdown
variable {T : Type}

theorem step_pool {push : Push T} {s s' : TSys T} {a : Act T} (h : s.step push (.pool a) = some s') :
    resumesTimed s.calls a = false ∧ ∃ p, s.pool.step push a = some p ∧ s' = { s with pool := p } := by
  unfold TSys.step at h
  dsimp only at h
  split at h
  · cases h
  · rename_i hp
    cases hs : s.pool.step push a with
    | none => simp only [hs, Option.map_none] at h; cases h
    | some p =>
      simp only [hs, Option.map_some, Option.some.injEq] at h
      exact ⟨by simpa using hp, p, rfl, h.symm⟩

theorem step_wait {push : Push T} {s s' : TSys T} {k : Nat} (h : s.step push (.wait k) = some s') :
    ∃ p, s.pool.step push (.wait (.tasks k)) = some p ∧
      s' = ⟨p, s.calls ++ [⟨s.pool.clients.length, k, stateOf p s.pool.clients.length⟩]⟩ := by
  injection h with h
  exact ⟨_, rfl, h.symm⟩

theorem step_expire {push : Push T} {s s' : TSys T} {i : Nat} (h : s.step push (.expire i) = some s') :
    ∃ j k k', s.calls[i]? = some ⟨j, k, .inLoop⟩ ∧ s.pool.clients[j]? = some (.waiting k') ∧
      s' = { s with calls := s.calls.set i ⟨j, k, .expired⟩ } := by
  unfold TSys.step at h
  dsimp only at h
  split at h
  · rename_i j k h1
    split at h
    · rename_i k' h2
      injection h with h
      exact ⟨j, k, k', h1, h2, h.symm⟩
    · cases h
  · cases h

theorem step_giveUp {push : Push T} {s s' : TSys T} {i : Nat} (h : s.step push (.giveUp i) = some s') :
    ∃ j k, s.calls[i]? = some ⟨j, k, .expired⟩ ∧ s' = { s with calls := s.calls.set i ⟨j, k, .result false⟩ } := by
  unfold TSys.step at h
  dsimp only at h
  split at h
  · rename_i j k h1
    injection h with h
    exact ⟨j, k, h1, h.symm⟩
  · cases h

theorem step_resume {push : Push T} {s s' : TSys T} {i : Nat} (h : s.step push (.resume i) = some s') :
    ∃ j k p, s.calls[i]? = some ⟨j, k, .inLoop⟩ ∧ s.pool.step push (.clientResume j) = some p ∧
      s' = ⟨p, s.calls.set i ⟨j, k, stateOf p j⟩⟩ := by
  unfold TSys.step at h
  dsimp only at h
  split at h
  · rename_i j k h1
    cases hs : s.pool.step push (.clientResume j) with
    | none => rw [hs] at h; cases h
    | some p =>
      rw [hs] at h
      injection h with h
      exact ⟨j, k, p, h1, hs, h.symm⟩
  · cases h

/-- The client of a call is there, waits for the threshold of the call, and has returned
only if the call has. -/
structure CallsOk (s : TSys T) : Prop where
  client : ∀ (i : Nat) (c : Call), s.calls[i]? = some c → ∃ d, s.pool.clients[c.client]? = some d ∧
    kindOf d = .tasks c.threshold ∧ ((∃ k, d = .returned k) → c.state = .result true)
  own : ∀ (i i' : Nat) (c c' : Call), s.calls[i]? = some c → s.calls[i']? = some c' → c.client = c'.client → i = i'

theorem stateOf_returned {p : Pool T} {j : Nat} {k : CKind} (h : p.clients[j]? = some (.returned k)) :
    stateOf p j = .result true := by
  unfold stateOf
  rw [h]

theorem stateOf_result {p : Pool T} {j : Nat} {b : Bool} (h : stateOf p j = .result b) :
    b = true ∧ ∃ k, p.clients[j]? = some (.returned k) := by
  unfold stateOf at h
  split at h
  · rename_i k hk
    cases h
    exact ⟨rfl, k, hk⟩
  · cases h

/-- A step of the pool that resumes no timed client makes none of them return. -/
theorem no_return {push : Push T} {p q : Pool T} {a : Act T} (h : p.step push a = some q) {j : Nat} {d : CState}
    (hd : p.clients[j]? = some d) (hr : ∀ k, d ≠ .returned k) (ha : a ≠ .clientResume j) {k : CKind} :
    q.clients[j]? ≠ some (.returned k) := by
  have hj : j < p.clients.length := (List.getElem?_eq_some_iff.1 hd).1
  have same : ∀ cs, cs = p.clients → cs[j]? ≠ some (.returned k) := by
    intro cs e h; rw [e, hd] at h; injection h with h; exact hr k h
  have wake : ∀ cs, cs = p.clients.map wakeC → cs[j]? ≠ some (.returned k) := by
    intro cs e h
    rw [e, List.getElem?_map, hd] at h
    injection h with h
    cases d with
    | returned k' => exact hr k' rfl
    | waiting k' => cases h
    | woken k' => cases h
  have htry : ∀ (s : Pool T) i, s.clients = p.clients → (s.tryFetch i).clients[j]? ≠ some (.returned k) := by
    intro s i e
    rcases tryFetch_cases s i with ⟨_, _, e'⟩ | ⟨_, _, e'⟩ | ⟨t, q, hq, _, e'⟩ <;> rw [e']
    · exact same _ e
    · exact wake _ (by rw [e])
    · exact same _ e
  cases a with
  | schedule t who =>
    simp only [step] at h
    split at h
    · split at h
      · injection h with h; subst h; exact same _ rfl
      · cases h
    · split at h
      · injection h with h; subst h; exact same _ rfl
      · cases h
  | clear => injection h with h; subst h; exact same _ rfl
  | resize n made => injection h with h; subst h; exact same _ (clients_resize _ _ _)
  | fetch i =>
    simp only [step] at h
    split at h
    · split at h
      · injection h with h; subst h; exact same _ rfl
      · injection h with h; subst h; exact htry p i rfl
    · cases h
  | resume i =>
    simp only [step] at h
    split at h
    · injection h with h; subst h; exact htry _ i rfl
    · cases h
  | finish i =>
    simp only [step] at h
    split at h
    · injection h with h; subst h; exact same _ rfl
    · cases h
  | fail i made =>
    simp only [step] at h
    split at h
    · injection h with h; subst h
      split
      · exact wake _ rfl
      · exact wake _ (by rw [clients_resize]; rfl)
    · cases h
  | exit i =>
    simp only [step] at h
    split at h
    · injection h with h; subst h; exact wake _ rfl
    · cases h
  | clientSpurious i =>
    simp only [step] at h
    split at h
    · rename_i k' heq
      injection h with h; subst h
      dsimp only
      by_cases e : i = j
      · subst e
        rw [List.getElem?_set_self hj]
        nofun
      · rw [List.getElem?_set_ne e]
        exact same _ rfl
    · cases h
  | clientResume i =>
    simp only [step] at h
    split at h
    · injection h with h; subst h
      have e : i ≠ j := fun e => ha (by rw [e])
      dsimp only
      rw [List.getElem?_set_ne e]
      exact same _ rfl
    · cases h
  | spurious i =>
    simp only [step] at h
    split at h
    · injection h with h; subst h; exact same _ rfl
    · cases h
  | resizeActive n => injection h with h; subst h; exact same _ rfl
  | terminateAll => injection h with h; subst h; exact same _ rfl
  | wait k' =>
    injection h with h; subst h
    dsimp only
    rw [List.getElem?_append_left hj]
    exact same _ rfl


theorem callsOk_pool {push : Push T} {s : TSys T} {p : Pool T} {a : Act T} (ok : CallsOk s)
    (h : s.pool.step push a = some p) (hr : resumesTimed s.calls a = false) : CallsOk { s with pool := p } := by
  refine ⟨fun i c hc => ?_, ok.own⟩
  obtain ⟨d, h1, h2, h3⟩ := ok.client i c hc
  obtain ⟨d', h4, h5⟩ := (stays_step h).kind _ d h1
  refine ⟨d', h4, h5.trans h2, ?_⟩
  rintro ⟨k, rfl⟩
  by_cases hb : ∃ k, d = .returned k
  · exact h3 hb
  · refine absurd h4 (no_return h h1 (fun k e => hb ⟨k, e⟩) ?_)
    rintro rfl
    have := List.any_eq_false.1 hr c (List.mem_of_getElem? hc)
    simp at this

theorem callsOk_set {s : TSys T} (ok : CallsOk s) {i j k : Nat} {st st' : TState} (hi : s.calls[i]? = some ⟨j, k, st⟩)
    (hst : ∀ d, s.pool.clients[j]? = some d → (∃ k', d = .returned k') → st' = .result true) :
    CallsOk { s with calls := s.calls.set i ⟨j, k, st'⟩ } := by
  have hl : i < s.calls.length := (List.getElem?_eq_some_iff.1 hi).1
  have old : ∀ (i' : Nat) (c : Call), (s.calls.set i ⟨j, k, st'⟩)[i']? = some c →
      (i' = i ∧ c = ⟨j, k, st'⟩) ∨ (i' ≠ i ∧ s.calls[i']? = some c) := by
    intro i' c hc
    by_cases e : i = i'
    · subst e
      rw [List.getElem?_set_self hl] at hc
      injection hc with hc
      exact Or.inl ⟨rfl, hc.symm⟩
    · rw [List.getElem?_set_ne e] at hc
      exact Or.inr ⟨fun e' => e e'.symm, hc⟩
  refine ⟨fun i' c hc => ?_, fun i1 i2 c1 c2 h1 h2 he => ?_⟩
  · rcases old i' c hc with ⟨rfl, rfl⟩ | ⟨_, h⟩
    · obtain ⟨d, h1, h2, _⟩ := ok.client _ _ hi
      exact ⟨d, h1, h2, hst d h1⟩
    · exact ok.client _ _ h
  · rcases old i1 c1 h1 with ⟨rfl, rfl⟩ | ⟨_, g1⟩ <;> rcases old i2 c2 h2 with ⟨rfl, rfl⟩ | ⟨_, g2⟩
    · rfl
    · exact ok.own _ _ _ _ hi g2 he
    · exact ok.own _ _ _ _ g1 hi he
    · exact ok.own _ _ _ _ g1 g2 he

theorem callsOk_reach {push : Push T} {n made : Nat} {s : TSys T} (h : TReach push (TSys.create n made) s) :
    CallsOk s := by
  induction h with
  | init => exact ⟨(fun _ _ h => nomatch h), (fun _ _ _ _ h => nomatch h)⟩
  | @step s s' a h1 h2 ok =>
    cases a with
    | pool a =>
      obtain ⟨hr, p, h4, rfl⟩ := step_pool h2
      exact callsOk_pool ok h4 hr
    | wait k =>
      obtain ⟨p, h4, rfl⟩ := step_wait h2
      have ok' := callsOk_pool ok h4 rfl
      have hnew : p.clients[s.pool.clients.length]? =
          some (if s.pool.cond (.tasks k) then .returned (.tasks k) else .waiting (.tasks k)) := by
        injection h4 with h4; subst h4; simp
      have old : ∀ (i : Nat) (c : Call), (s.calls ++ [⟨s.pool.clients.length, k, stateOf p s.pool.clients.length⟩])[i]? = some c →
          s.calls[i]? = some c ∨ (i = s.calls.length ∧ c = ⟨s.pool.clients.length, k, stateOf p s.pool.clients.length⟩) := by
        intro i c hc
        by_cases hl : i < s.calls.length
        · rw [List.getElem?_append_left hl] at hc
          exact Or.inl hc
        · rw [List.getElem?_append_right (by omega)] at hc
          have h0 : i - s.calls.length = 0 := by
            by_contra h0
            rw [List.getElem?_eq_none (by simp; omega)] at hc
            cases hc
          rw [h0] at hc
          injection hc with hc
          exact Or.inr ⟨by omega, hc.symm⟩
      have lt : ∀ (i : Nat) (c : Call), s.calls[i]? = some c → c.client < s.pool.clients.length := by
        intro i c hc
        obtain ⟨d, hd, _⟩ := ok.client i c hc
        exact (List.getElem?_eq_some_iff.1 hd).1
      refine ⟨fun i c hc => ?_, fun i1 i2 c1 c2 g1 g2 he => ?_⟩
      · rcases old i c hc with h | ⟨rfl, rfl⟩
        · exact ok'.client i c h
        · refine ⟨_, hnew, kind_if, ?_⟩
          rintro ⟨k', e⟩
          exact stateOf_returned (hnew.trans (congrArg some e))
      · rcases old i1 c1 g1 with h1' | ⟨rfl, rfl⟩ <;> rcases old i2 c2 g2 with h2' | ⟨rfl, rfl⟩
        · exact ok.own _ _ _ _ h1' h2' he
        · have := lt _ _ h1'
          dsimp only at he; omega
        · have := lt _ _ h2'
          dsimp only at he; omega
        · rfl
    | expire i =>
      obtain ⟨j, k, k', g1, g2, rfl⟩ := step_expire h2
      refine callsOk_set ok g1 ?_
      rintro d hd ⟨k'', rfl⟩
      rw [g2] at hd
      cases hd
    | giveUp i =>
      obtain ⟨j, k, g1, rfl⟩ := step_giveUp h2
      refine callsOk_set ok g1 ?_
      rintro d hd hret
      obtain ⟨d', hd', _, h3⟩ := ok.client _ _ g1
      rw [hd] at hd'
      injection hd' with hd'
      subst hd'
      exact absurd (h3 hret) (by intro e; cases e)
    | resume i =>
      obtain ⟨j, k, p, g1, h4, rfl⟩ := step_resume h2
      have hl : i < s.calls.length := (List.getElem?_eq_some_iff.1 g1).1
      have st := stays_step h4
      have old : ∀ (i' : Nat) (c : Call), (s.calls.set i ⟨j, k, stateOf p j⟩)[i']? = some c →
          (i' = i ∧ c = ⟨j, k, stateOf p j⟩) ∨ (i' ≠ i ∧ s.calls[i']? = some c) := by
        intro i' c hc
        by_cases e : i = i'
        · subst e
          rw [List.getElem?_set_self hl] at hc
          injection hc with hc
          exact Or.inl ⟨rfl, hc.symm⟩
        · rw [List.getElem?_set_ne e] at hc
          exact Or.inr ⟨fun e' => e e'.symm, hc⟩
      refine ⟨fun i' c hc => ?_, fun i1 i2 c1 c2 g1' g2' he => ?_⟩
      · rcases old i' c hc with ⟨rfl, rfl⟩ | ⟨hne, g⟩
        · obtain ⟨d, h1, h2, _⟩ := ok.client _ _ g1
          obtain ⟨d', h5, h6⟩ := st.kind _ d h1
          refine ⟨d', h5, h6.trans h2, ?_⟩
          rintro ⟨k', rfl⟩
          exact stateOf_returned h5
        · obtain ⟨d, h1, h2, h3⟩ := ok.client _ _ g
          obtain ⟨d', h5, h6⟩ := st.kind _ d h1
          refine ⟨d', h5, h6.trans h2, ?_⟩
          rintro ⟨k', rfl⟩
          by_cases hb : ∃ k, d = .returned k
          · exact h3 hb
          · refine absurd h5 (no_return h4 h1 (fun k e => hb ⟨k, e⟩) ?_)
            intro e
            injection e with e
            exact hne (ok.own _ _ _ _ g g1 e.symm)
      · rcases old i1 c1 g1' with ⟨rfl, rfl⟩ | ⟨_, h1'⟩ <;> rcases old i2 c2 g2' with ⟨rfl, rfl⟩ | ⟨_, h2'⟩
        · rfl
        · exact ok.own _ _ _ _ g1 h2' he
        · exact ok.own _ _ _ _ h1' g1 he
        · exact ok.own _ _ _ _ h1' h2' he

end SpatialOps.TimedWait
