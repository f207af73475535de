import Verif.Field.Lemmas

/-!
# Every step of a history of field operations keeps the ownership invariant
-/

namespace SpatialOps

theorem Outcome.bind_eq_ub {α β : Type} {x : Outcome α} {f : α → Outcome β} :
    (x >>= f) = .ub ↔ x = .ub ∨ ∃ a, x = .ok a ∧ f a = .ub := by
  cases x <;> simp

theorem Outcome.assert_ne_ub {p : Prop} [Decidable p] : Outcome.assert p ≠ .ub := by
  unfold Outcome.assert; split <;> simp

theorem Outcome.throwIf_ne_ub {p : Prop} [Decidable p] : Outcome.throwIf p ≠ .ub := by
  unfold Outcome.throwIf; split <;> simp

theorem Window.make_ne_ub (a b c : IntVec) : Window.make a b c ≠ .ub := by
  intro h
  unfold Window.make at h
  simp [Outcome.bind_eq_ub, Outcome.assert_ne_ub] at h

theorem GhostData.copy_ne_ub (g : GhostData) : g.copy ≠ .ub := by
  intro h
  unfold GhostData.copy GhostData.checkValid at h
  simp [Outcome.bind_eq_ub, Outcome.assert_ne_ub] at h

namespace FieldGeo

theorem singleValueCheck_ne_ub (s : Bool) (w : Window) (g : GhostData) : singleValueCheck s w g ≠ .ub := by
  intro h
  unfold singleValueCheck at h
  simp [Outcome.bind_eq_ub, Outcome.throwIf_ne_ub] at h

theorem ctor_ne_ub (s : Bool) (w : Window) (bc : BcInfo) (g : GhostData) : ctor s w bc g ≠ .ub := by
  intro h
  unfold ctor at h
  simp [Outcome.bind_eq_ub, singleValueCheck_ne_ub, Window.make_ne_ub, GhostData.copy_ne_ub] at h

theorem windowCopy_ne_ub (s : Bool) (w : Window) (f : FieldGeo) : windowCopy s w f ≠ .ub := by
  intro h
  unfold windowCopy at h
  simp [Outcome.bind_eq_ub, singleValueCheck_ne_ub, Outcome.assert_ne_ub, GhostData.copy_ne_ub] at h

theorem copy_cases (f : FieldGeo) : f.copy = .ok f ∨ f.copy = .abort := by
  unfold copy GhostData.copy GhostData.checkValid Outcome.assert
  split <;> split <;> simp

end FieldGeo

namespace FieldWorld

theorem step_good {cuda : Bool} {w : FieldWorld} (hi : Inv cuda w) (o : Op) (hl : w.Legal o) :
    Good cuda (w.step cuda o) := by
  cases o with
  | create single win bc g user mt dev fresh =>
    exact create_good hi single win bc g user mt dev fresh hl (FieldGeo.ctor_ne_ub _ _ _ _)
  | copy h =>
    obtain ⟨f, hh⟩ := hl
    unfold step
    dsimp only
    rw [field_eq hh, Outcome.ok_bind]
    rcases FieldGeo.copy_cases f.geo with e | e <;> rw [e]
    · exact Or.inr ⟨_, _, rfl, inv_append_copy hi f f.geo⟩
    · exact Or.inl rfl
  | view single win h =>
    obtain ⟨f, hh⟩ := hl
    unfold step
    dsimp only
    rw [field_eq hh, Outcome.ok_bind]
    cases e : FieldGeo.windowCopy single win f.geo with
    | ok geo => exact Or.inr ⟨_, _, rfl, inv_append_copy hi f geo⟩
    | throws => exact Or.inr ⟨_, _, rfl, hi⟩
    | abort => exact Or.inl rfl
    | ub => exact absurd e (FieldGeo.windowCopy_ne_ub _ _ _)
  | addConsumer h mt dev fresh =>
    obtain ⟨⟨f, hh⟩, h1, h2⟩ := hl
    unfold step
    dsimp only
    rw [field_eq hh, Outcome.ok_bind]
    exact Or.inr (addConsumer_good hi hh mt dev fresh h1 h2)
  | removeConsumers h =>
    obtain ⟨f, hh⟩ := hl
    unfold step
    dsimp only
    rw [field_eq hh, Outcome.ok_bind]
    exact Or.inr (removeConsumers_good hi hh)
  | destroy h =>
    obtain ⟨f, hh⟩ := hl
    unfold step
    dsimp only
    rw [field_eq hh, Outcome.ok_bind]
    obtain ⟨w', e, hi', _⟩ := destroy_good hi hh
    exact Or.inr ⟨w', false, e, hi'⟩

theorem run_good {cuda : Bool} (os : List Op) : ∀ {w : FieldWorld}, Inv cuda w → w.LegalRun cuda os →
    w.run cuda os = .abort ∨ ∃ w', w.run cuda os = .ok w' ∧ Inv cuda w' := by
  induction os with
  | nil => intro w hi _; exact Or.inr ⟨w, rfl, hi⟩
  | cons o os ih =>
    intro w hi hl
    obtain ⟨h1, h2⟩ := hl
    unfold run
    rcases step_good hi o h1 with e | ⟨w', b, e, hi'⟩
    · rw [e]; exact Or.inl rfl
    · rw [e] at h2 ⊢
      exact ih hi' h2

theorem Inv.accounted {cuda : Bool} {w : FieldWorld} (hi : Inv cuda w) : Accounted w := by
  refine ⟨?_, hi.perm, hi.cnd, hi.gnd, hi.rnd⟩
  rintro a h (h1 | h1 | h1)
  · obtain ⟨f, e, _⟩ := (hi.cown a h).1 h1; exact ⟨f, e⟩
  · obtain ⟨f, e, _⟩ := (hi.gown a h).1 h1; exact ⟨f, e⟩
  · obtain ⟨f, e, _⟩ := (hi.rown a h).1 h1; exact ⟨f, e⟩

end FieldWorld
end SpatialOps
