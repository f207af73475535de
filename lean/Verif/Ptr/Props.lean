import Verif.Ptr.Lemmas

/-!
# C15: reference-counted field pointers

The unrestricted statement is: along every history of operations on alive
handles no undefined behaviour occurs, and `ReleasedExactlyOnce` holds at every
point. The code does not satisfy it; the three witnesses below are its
counterexamples, and the partial theorem covers every history avoiding them.
-/

namespace SpatialOps.PtrWorld

/-- C15 (partial: histories restricted by `Legal`). Constructing, copying,
assigning, re-seating, detaching the only handle and destroying handles never
reaches undefined behaviour, and after any such history each wrapped field is
untouched while referenced and otherwise released exactly once. -/
theorem _root_.SpatialOps.C15_released_exactly_once_partial (os : List Op)
    (hl : init.LegalRun os) : ∃ w, init.run os = .ok w ∧ w.ReleasedExactlyOnce := by
  obtain ⟨w, e, hi⟩ := run_inv os inv_init hl
  exact ⟨w, e, released_of_inv hi⟩

/-- C15 (partial, intermediate points). The same holds at every intermediate
point of a legal history, in particular no field is released while a handle
refers to it. -/
theorem _root_.SpatialOps.C15_safe_at_every_point_partial (os₁ os₂ : List Op)
    (hl : init.LegalRun (os₁ ++ os₂)) :
    ∃ w w', init.run os₁ = .ok w ∧ w.ReleasedExactlyOnce ∧ w.run os₂ = .ok w' := by
  have split : ∀ (a b : List Op) (w : PtrWorld), w.LegalRun (a ++ b) →
      w.LegalRun a ∧ ∀ w', w.run a = .ok w' → w'.LegalRun b := by
    intro a b
    induction a with
    | nil =>
      intro w h
      exact ⟨trivial, fun w' e => by simp only [run] at e; injection e with e; subst e; exact h⟩
    | cons o a ih =>
      intro w h
      simp only [List.cons_append, LegalRun] at h ⊢
      cases hs : w.step o with
      | ok w1 =>
        rw [hs] at h
        obtain ⟨h1, h2⟩ := ih w1 h.2
        refine ⟨⟨h.1, h1⟩, fun w' e => ?_⟩
        unfold run at e
        rw [hs, Outcome.ok_bind] at e
        exact h2 w' e
      | abort => exact ⟨⟨h.1, trivial⟩, fun w' e => by unfold run at e; rw [hs] at e; cases e⟩
      | throws => exact ⟨⟨h.1, trivial⟩, fun w' e => by unfold run at e; rw [hs] at e; cases e⟩
      | ub => exact ⟨⟨h.1, trivial⟩, fun w' e => by unfold run at e; rw [hs] at e; cases e⟩
  obtain ⟨h1, h2⟩ := split os₁ os₂ init hl
  obtain ⟨w, e, hi⟩ := run_inv os₁ inv_init h1
  obtain ⟨w', e', _⟩ := run_inv os₂ hi (h2 w e)
  exact ⟨w, w', e, released_of_inv hi, e'⟩

/-- A legal history using every operation, with sharing and re-seating. -/
example : init.LegalRun [.new 7 true, .copy 0, .dflt, .assign 2 1, .assign 0 0, .destroy 1,
    .assignField 2 9, .assign 0 2, .destroy 0, .detach 2, .destroy 2] := by
  simp [LegalRun, Legal, step, init, NonNull, Alive, Sole, handle, incr, dropRef, setHandle, restore,
    delete]

/-- … at whose end field 7 was restored and deleted once, field 9 deleted once. -/
example : init.run [.new 7 true, .copy 0, .dflt, .assign 2 1, .assign 0 0, .destroy 1,
    .assignField 2 9, .assign 0 2, .destroy 0, .detach 2, .destroy 2] =
    .ok ⟨[none, none, none], [none, none], [7], [9, 7], [(7, true), (9, false)]⟩ := by decide +kernel

/-- Violation 1: `detach` on a shared handle does not clear it, so its destructor
decrements again and the field is deleted while the other handle still refers to
it; destroying that one then touches a freed counter. -/
theorem _root_.SpatialOps.C15_detach_shared_releases_live_field :
    (∃ w, init.run [.new 7 true, .copy 0, .detach 1, .destroy 1] = .ok w ∧
      w.Referenced 7 ∧ 7 ∈ w.deleted ∧ ¬ w.ReleasedExactlyOnce) ∧
    init.run [.new 7 true, .copy 0, .detach 1, .destroy 1, .destroy 0] = .ub := by
  refine ⟨⟨⟨[some ⟨some 7, some 0, true⟩, none], [none], [7], [7], [(7, true)]⟩, by decide +kernel, ?_, by simp, ?_⟩,
    by decide +kernel⟩
  · exact ⟨⟨some 7, some 0, true⟩, by simp, rfl⟩
  · intro h
    have := (h 7 true (by simp)).1 ⟨⟨some 7, some 0, true⟩, by simp, rfl⟩
    simp at this

/-- Violation 2: assigning a handle to itself, when it is the only handle to its
field, is undefined behaviour, whatever the field. -/
theorem _root_.SpatialOps.C15_self_assignment_ub (f : Nat) (b : Bool) :
    init.run [.new f b, .assign 0 0] = .ub := by
  cases b <;> simp [run, step, init, handle, dropRef, restore, delete, setHandle, incr]

/-- Violation 3: copying or assigning from a default-constructed handle
dereferences a null counter. -/
theorem _root_.SpatialOps.C15_copy_of_null_ub :
    init.run [.dflt, .copy 0] = .ub ∧ init.run [.dflt, .dflt, .assign 0 1] = .ub := by
  decide +kernel

end SpatialOps.PtrWorld
