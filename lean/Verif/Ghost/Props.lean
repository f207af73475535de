import Verif.Ghost.Spec
import Mathlib.Tactic.Linarith

/-!
# Properties C07, C08: ghost descriptors
-/

namespace SpatialOps
namespace GhostData

/-! ## Helper lemmas -/

theorem checkValid_ok {m p : IntVec} (h : IntVec.Le 0 m ∧ IntVec.Le 0 p) :
    checkValid m p = .ok () := Outcome.assert_true (by iv_omega)

theorem checkValid_abort {m p : IntVec} (h : ¬ (IntVec.Le 0 m ∧ IntVec.Le 0 p)) :
    checkValid m p = .abort := Outcome.assert_false (by iv_omega)

theorem ghostInfinite_iff (m p : IntVec) (b : Bool) :
    ghostInfinite m p = true ↔ AllHuge ⟨m, p, b⟩ := by
  simp only [ghostInfinite, vecInfinite, AllHuge, IntVec.Le, Bool.and_eq_true, decide_eq_true_eq]
  constructor <;> intro h <;> omega

theorem make_ok {m p : IntVec} (h : IntVec.Le 0 m ∧ IntVec.Le 0 p) :
    make m p = .ok ⟨m, p, ghostInfinite m p⟩ := by
  unfold make; rw [checkValid_ok h]; rfl

theorem copy_ok {g : GhostData} (h : g.Valid) : g.copy = .ok g := by
  unfold copy; rw [checkValid_ok h]; rfl

/-! ## C07 -/

/-- C07. Finite non-negative ghosts add componentwise. -/
theorem _root_.SpatialOps.C07_add_finite (a b : GhostData) (ha : a.Valid) (hb : b.Valid)
    (fa : a.isInf = false) (fb : b.isInf = false) :
    ∃ r, a.add b = .ok r ∧ r.minus = a.minus + b.minus ∧ r.plus = a.plus + b.plus := by
  have hv : IntVec.Le 0 (a.minus + b.minus) ∧ IntVec.Le 0 (a.plus + b.plus) := by
    unfold Valid at ha hb; iv_omega
  refine ⟨{ a with minus := a.minus + b.minus, plus := a.plus + b.plus }, ?_, rfl, rfl⟩
  unfold add
  rw [copy_ok ha, Outcome.ok_bind]
  unfold addAssign
  rw [fa, fb, checkValid_ok hv]
  simp only [Bool.false_eq_true, if_false, Outcome.ok_bind, Outcome.pure_eq]
  exact copy_ok hv

/-- C07. Subtraction: rejected with an exception exactly when the subtrahend is
infinite, by an assertion exactly when a count would go negative, and otherwise
componentwise. -/
theorem _root_.SpatialOps.C07_sub_cases (a b : GhostData) (ha : a.Valid) :
    (b.isInf = true → a.sub b = .throws) ∧
    (b.isInf = false → ¬ Le b a → a.sub b = .abort) ∧
    (b.isInf = false → Le b a →
      ∃ r, a.sub b = .ok r ∧ r.minus = a.minus - b.minus ∧ r.plus = a.plus - b.plus) := by
  unfold sub
  rw [copy_ok ha, Outcome.ok_bind]
  refine ⟨fun h => ?_, fun h hl => ?_, fun h hl => ?_⟩
  · unfold subAssign
    rw [Outcome.throwIf_true h]; rfl
  · unfold subAssign
    rw [Outcome.throwIf_false (by rw [h]; decide), Outcome.ok_bind, checkValid_abort]
    · rfl
    · unfold Le at hl; iv_omega
  · have hv : IntVec.Le 0 (a.minus - b.minus) ∧ IntVec.Le 0 (a.plus - b.plus) := by
      unfold Le at hl; iv_omega
    refine ⟨{ a with minus := a.minus - b.minus, plus := a.plus - b.plus }, ?_, rfl, rfl⟩
    unfold subAssign
    rw [Outcome.throwIf_false (by rw [h]; decide), Outcome.ok_bind, checkValid_ok hv]
    exact copy_ok hv

/-- C07. Adding then subtracting the same finite ghosts gives back the original
(counts and status). -/
theorem _root_.SpatialOps.C07_add_sub_cancel (a b : GhostData) (ha : a.Valid) (hb : b.Valid)
    (fa : a.isInf = false) (fb : b.isInf = false) :
    (a.add b >>= fun r => r.sub b) = .ok a := by
  have hv : IntVec.Le 0 (a.minus + b.minus) ∧ IntVec.Le 0 (a.plus + b.plus) := by
    unfold Valid at ha hb; iv_omega
  have e : a.add b = .ok { a with minus := a.minus + b.minus, plus := a.plus + b.plus } := by
    unfold add
    rw [copy_ok ha, Outcome.ok_bind]
    unfold addAssign
    rw [fa, fb, checkValid_ok hv]
    simp only [Bool.false_eq_true, if_false, Outcome.ok_bind, Outcome.pure_eq]
    exact copy_ok hv
  rw [e, Outcome.ok_bind]
  unfold sub
  rw [copy_ok (g := ⟨a.minus + b.minus, a.plus + b.plus, a.isInf⟩) hv, Outcome.ok_bind]
  unfold subAssign
  have e1 : a.minus + b.minus - b.minus = a.minus := by ext <;> simp
  have e2 : a.plus + b.plus - b.plus = a.plus := by ext <;> simp
  rw [Outcome.throwIf_false (by rw [fb]; decide), Outcome.ok_bind]
  dsimp only
  rw [e1, e2, checkValid_ok ha]
  exact copy_ok ha

/-- C07. Infinite ghosts absorb addition on either side. -/
theorem _root_.SpatialOps.C07_infinite_absorbs (a b : GhostData) (ha : a.Valid) (hb : b.Valid)
    (h : a.isInf = true ∨ b.isInf = true) :
    ∃ r, a.add b = .ok r ∧ r.isInf = true ∧ (r = a ∨ r = b) := by
  unfold add
  rw [copy_ok ha, Outcome.ok_bind]
  unfold addAssign
  cases fa : a.isInf with
  | true => exact ⟨a, by simp only [if_true, Outcome.ok_bind, copy_ok ha], fa, Or.inl rfl⟩
  | false =>
    have fb : b.isInf = true := by rcases h with h | h <;> simp_all
    refine ⟨b, ?_, fb, Or.inr rfl⟩
    rw [fb]
    simp only [Bool.false_eq_true, if_false, if_true, copy_ok hb, Outcome.ok_bind]

/-- C07. `min` of valid ghosts is their greatest lower bound, with the right
status. -/
theorem _root_.SpatialOps.C07_min_glb (a b : GhostData) (ha : a.Valid) (hb : b.Valid) :
    ∃ r, GhostData.min a b = .ok r ∧ Le r a ∧ Le r b ∧ r.FlagOk ∧
      ∀ c : GhostData, Le c a → Le c b → Le c r := by
  refine ⟨⟨a.minus.min b.minus, a.plus.min b.plus, _⟩, make_ok ?_, ?_, ?_, ?_, ?_⟩
  · unfold Valid at ha hb; unfold IntVec.min; iv_omega
  · unfold Le IntVec.min; iv_omega
  · unfold Le IntVec.min; iv_omega
  · exact ghostInfinite_iff _ _ _
  · intro c h1 h2
    unfold Le IntVec.min at *; iv_omega

/-- C07. Equality is equality of the six counts. -/
theorem _root_.SpatialOps.C07_eq_componentwise (a b : GhostData) :
    a.eqOp b = true ↔ a.minus = b.minus ∧ a.plus = b.plus := by
  simp [eqOp]

/-- C07. `point_to_ghost p` is the least valid descriptor that covers a shift by
`p`: it always succeeds, reaching `p` needs `-p ≤ minus` and `p ≤ plus`, and any
valid descriptor doing that is at least as large. -/
theorem _root_.SpatialOps.C07_point_to_ghost (p : IntVec) :
    ∃ r, pointToGhost p = .ok r ∧ r.Valid ∧ IntVec.Le (-p) r.minus ∧ IntVec.Le p r.plus ∧
      ∀ c : GhostData, c.Valid → IntVec.Le (-p) c.minus → IntVec.Le p c.plus → Le r c := by
  refine ⟨_, make_ok ?_, ?_, ?_, ?_, ?_⟩
  · iv_omega
  · unfold Valid; iv_omega
  · iv_omega
  · iv_omega
  · intro c h1 h2 h3
    unfold Le Valid at *; iv_omega

example : ∃ a b : GhostData, make ⟨1, 2, 0⟩ ⟨3, 0, 1⟩ = .ok a ∧ make ⟨0, 1, 4⟩ ⟨1, 1, 1⟩ = .ok b ∧
    a.Valid ∧ b.Valid ∧ a.isInf = false ∧ b.isInf = false ∧
    a.add b = .ok ⟨⟨1, 3, 4⟩, ⟨4, 1, 2⟩, false⟩ ∧ a.sub b = .abort := by
  refine ⟨⟨⟨1, 2, 0⟩, ⟨3, 0, 1⟩, false⟩, ⟨⟨0, 1, 4⟩, ⟨1, 1, 1⟩, false⟩, ?_⟩
  decide

/-! ## C08 -/

/-- C08 is false of the code: 9000 ghosts everywhere plus one ghost everywhere
has all counts at 9001 but is not treated as infinite. -/
theorem _root_.SpatialOps.C08_violated_by_add :
    ∃ a b r, makeUniform 9000 = .ok a ∧ makeUniform 1 = .ok b ∧ a.addAssign b = .ok r ∧
      r.AllHuge ∧ r.isInf = false :=
  ⟨⟨⟨9000, 9000, 9000⟩, ⟨9000, 9000, 9000⟩, false⟩, ⟨⟨1, 1, 1⟩, ⟨1, 1, 1⟩, false⟩,
   ⟨⟨9001, 9001, 9001⟩, ⟨9001, 9001, 9001⟩, false⟩, by decide⟩

/-- C08 is false of the code: subtracting one ghost from infinite ghosts of 9001
leaves 9000 counts that are still treated as infinite. -/
theorem _root_.SpatialOps.C08_violated_by_sub :
    ∃ a b r, makeUniform 9001 = .ok a ∧ makeUniform 1 = .ok b ∧ a.subAssign b = .ok r ∧
      ¬ r.AllHuge ∧ r.isInf = true :=
  ⟨⟨⟨9001, 9001, 9001⟩, ⟨9001, 9001, 9001⟩, true⟩, ⟨⟨1, 1, 1⟩, ⟨1, 1, 1⟩, false⟩,
   ⟨⟨9000, 9000, 9000⟩, ⟨9000, 9000, 9000⟩, true⟩, by decide⟩

theorem step_flagOk {g : GhostData} {o : Op} (hg : g.FlagOk) (hs : g.OpSafe o) {g' : GhostData}
    (h : g.step o = .ok g') : g'.FlagOk := by
  cases o with
  | setMinus v =>
    injection h with h; subst h
    exact ghostInfinite_iff _ _ _
  | setPlus v =>
    injection h with h; subst h
    exact ghostInfinite_iff _ _ _
  | assign k =>
    simp only [step, copy, checkValid] at h
    by_cases c : (0 ≤ k.minus.x ∧ 0 ≤ k.minus.y ∧ 0 ≤ k.minus.z ∧ 0 ≤ k.plus.x ∧ 0 ≤ k.plus.y ∧ 0 ≤ k.plus.z)
    · rw [Outcome.assert_true c] at h
      injection h with h; subst h; exact hs
    · rw [Outcome.assert_false c] at h; cases h
  | minWith k =>
    simp only [step, GhostData.min, make] at h
    by_cases c : IntVec.Le 0 (g.minus.min k.minus) ∧ IntVec.Le 0 (g.plus.min k.plus)
    · rw [checkValid_ok c] at h
      injection h with h; subst h
      exact ghostInfinite_iff _ _ _
    · rw [checkValid_abort c] at h; cases h
  | add k =>
    obtain ⟨hk, hs⟩ := hs
    simp only [step, addAssign] at h
    cases fg : g.isInf with
    | true =>
      rw [fg, if_pos rfl] at h
      injection h with h; subst h; exact hg
    | false =>
      rw [fg, if_neg (by decide)] at h
      cases fk : k.isInf with
      | true =>
        rw [fk, if_pos rfl] at h
        unfold copy at h
        by_cases c : IntVec.Le 0 k.minus ∧ IntVec.Le 0 k.plus
        · rw [checkValid_ok c] at h
          injection h with h; subst h; exact hk
        · rw [checkValid_abort c] at h; cases h
      | false =>
        rw [fk, if_neg (by decide)] at h
        by_cases c : IntVec.Le 0 (g.minus + k.minus) ∧ IntVec.Le 0 (g.plus + k.plus)
        · rw [checkValid_ok c] at h
          injection h with h; subst h
          have := hs fg fk
          unfold FlagOk AllHuge at *
          simp only at *
          simp [this]
        · rw [checkValid_abort c] at h; cases h
  | sub k =>
    obtain ⟨hk, hs⟩ := hs
    simp only [step, subAssign] at h
    cases fk : k.isInf with
    | true => rw [Outcome.throwIf_true fk] at h; cases h
    | false =>
      rw [Outcome.throwIf_false (by rw [fk]; decide), Outcome.ok_bind] at h
      by_cases c : IntVec.Le 0 (g.minus - k.minus) ∧ IntVec.Le 0 (g.plus - k.plus)
      · rw [checkValid_ok c] at h
        injection h with h; subst h
        have hn : ¬ g.AllHuge := fun hh => by rw [hg.2 hh] at hs; cases hs
        unfold FlagOk
        simp only [hs, Bool.false_eq_true, false_iff]
        unfold AllHuge Valid at *
        intro hc; apply hn; iv_omega
      · rw [checkValid_abort c] at h; cases h

/-- C08 (partial). Missing from the full claim: sums of finite ghosts that reach
`GHOST_MAX` on all six faces, and subtraction from infinite ghosts; both are
shown to break the claim above. For every other history the status is right. -/
theorem _root_.SpatialOps.C08_flag_partial (minus plus : IntVec) (g0 g : GhostData) (ops : List Op)
    (h0 : make minus plus = .ok g0) (hs : g0.RunSafe ops) (h : g0.run ops = .ok g) :
    g.isInf = true ↔ g.AllHuge := by
  have hb : g0.FlagOk := by
    unfold make at h0
    by_cases c : IntVec.Le 0 minus ∧ IntVec.Le 0 plus
    · rw [checkValid_ok c] at h0
      injection h0 with h0; subst h0
      exact ghostInfinite_iff _ _ _
    · rw [checkValid_abort c] at h0; cases h0
  clear h0
  induction ops generalizing g0 with
  | nil => injection h with h; subst h; exact hb
  | cons o os ih =>
    simp only [run] at h
    cases hst : g0.step o with
    | ok g1 =>
      rw [hst] at h
      have h2 := hs.2
      rw [hst] at h2
      exact ih g1 h2 h (step_flagOk hb hs.1 hst)
    | abort => rw [hst] at h; cases h
    | throws => rw [hst] at h; cases h
    | ub => rw [hst] at h; cases h

/-- A safe history that goes through infinite and back to finite. -/
example : ∃ g0 g, make ⟨1, 1, 1⟩ ⟨2, 2, 2⟩ = .ok g0 ∧
    g0.run [.add ⟨⟨9001, 9001, 9001⟩, ⟨9001, 9001, 9001⟩, true⟩, .minWith ⟨⟨3, 3, 3⟩, ⟨4, 4, 4⟩, false⟩,
      .sub ⟨⟨1, 0, 1⟩, ⟨2, 2, 2⟩, false⟩, .setPlus ⟨7, 7, 7⟩] = .ok g ∧
    g = ⟨⟨2, 3, 2⟩, ⟨7, 7, 7⟩, false⟩ ∧
    g0.RunSafe [.add ⟨⟨9001, 9001, 9001⟩, ⟨9001, 9001, 9001⟩, true⟩, .minWith ⟨⟨3, 3, 3⟩, ⟨4, 4, 4⟩, false⟩,
      .sub ⟨⟨1, 0, 1⟩, ⟨2, 2, 2⟩, false⟩, .setPlus ⟨7, 7, 7⟩] := by
  refine ⟨⟨⟨1, 1, 1⟩, ⟨2, 2, 2⟩, false⟩, ⟨⟨2, 3, 2⟩, ⟨7, 7, 7⟩, false⟩, ?_⟩
  decide

end GhostData
end SpatialOps
