import Verif.Iter.Spec
import Verif.Index.Lemmas

namespace SpatialOps
namespace It

/-- The state of a well-behaved iterator at cell `(x,y,z)`. -/
def canon (base : Int) (w : Window) (x y z : Int) : It :=
  { start base w with
    current := base + fortranPos w.npts w.offset + x + w.npts.x * (y + w.npts.y * z)
    count := x + w.extent.x * (y + w.extent.y * z)
    xIndex := x
    yIndex := y
    zIndex := z }

/-- `(x,y,z)` is a cell or the one-past-the-end position. -/
def Pos (w : Window) (x y z : Int) : Prop :=
  0 ≤ x ∧ x < w.extent.x ∧ 0 ≤ y ∧ y < w.extent.y ∧ 0 ≤ z ∧
    (z < w.extent.z ∨ (z = w.extent.z ∧ x = 0 ∧ y = 0))

theorem start_eq (base : Int) (w : Window) : start base w = canon base w 0 0 0 := by
  unfold canon start fortranPos
  simp only [It.mk.injEq, and_true]
  constructor
  · ring
  · ring

theorem Pos.count_le {w : Window} {x y z : Int} (h : Pos w x y z) :
    0 ≤ x + w.extent.x * (y + w.extent.y * z) ∧
    x + w.extent.x * (y + w.extent.y * z) ≤ w.extent.x * w.extent.y * w.extent.z := by
  obtain ⟨h1, h2, h3, h4, h5, h6⟩ := h
  rcases h6 with h6 | ⟨h6, h7, h8⟩
  · have := fortranPos_bound (d := w.extent) (c := ⟨x, y, z⟩) ⟨⟨h1, h3, h5⟩, ⟨h2, h4, h6⟩⟩
    unfold fortranPos at this
    dsimp only at this
    omega
  · subst h7; subst h8; subst h6
    have : 0 + w.extent.x * (0 + w.extent.y * w.extent.z) = w.extent.x * w.extent.y * w.extent.z := by
      ring
    rw [this]
    exact ⟨mul_nonneg (mul_nonneg (by omega) (by omega)) h5, le_refl _⟩

theorem Pos.lt_iff {w : Window} {x y z : Int} (h : Pos w x y z) :
    x + w.extent.x * (y + w.extent.y * z) < w.extent.x * w.extent.y * w.extent.z ↔
      z < w.extent.z := by
  obtain ⟨h1, h2, h3, h4, h5, h6⟩ := h
  constructor
  · intro hlt
    rcases h6 with h6 | ⟨h6, h7, h8⟩
    · exact h6
    · subst h7; subst h8; subst h6
      have : 0 + w.extent.x * (0 + w.extent.y * w.extent.z) = w.extent.x * w.extent.y * w.extent.z := by
        ring
      omega
  · intro hz
    have := fortranPos_bound (d := w.extent) (c := ⟨x, y, z⟩) ⟨⟨h1, h3, h5⟩, ⟨h2, h4, hz⟩⟩
    exact this.2

/-- Every position in `[0,N]` has coordinates. -/
theorem exists_pos {w : Window} (h0 : 0 < w.extent.x) (h1 : 0 < w.extent.y) (h2 : 0 < w.extent.z)
    {k : Int} (hk0 : 0 ≤ k) (hk : k ≤ w.extent.x * w.extent.y * w.extent.z) :
    ∃ x y z, Pos w x y z ∧ k = x + w.extent.x * (y + w.extent.y * z) := by
  rcases Int.lt_or_eq_of_le hk with hlt | heq
  · obtain ⟨x, y, z, a1, a2, a3, a4, a5, a6, e⟩ := fortran_surj h0 h1 hk0 hlt
    exact ⟨x, y, z, ⟨a1, a2, a3, a4, a5, Or.inl a6⟩, e⟩
  · exact ⟨0, 0, w.extent.z, ⟨by omega, h0, by omega, h1, by omega, Or.inr ⟨rfl, rfl, rfl⟩⟩, by
      rw [heq]; ring⟩

theorem pos_unique {w : Window} {x y z x' y' z' : Int} (h : Pos w x y z) (h' : Pos w x' y' z')
    (e : x + w.extent.x * (y + w.extent.y * z) = x' + w.extent.x * (y' + w.extent.y * z')) :
    x = x' ∧ y = y' ∧ z = z' := by
  obtain ⟨h1, h2, h3, h4, h5, h6⟩ := h
  obtain ⟨g1, g2, g3, g4, g5, g6⟩ := h'
  have A := fortran_div (z := z) h1 h2 h3 h4
  have B := fortran_div (z := z') g1 g2 g3 g4
  rw [e] at A
  exact ⟨by rw [← A.2.1, B.2.1], by rw [← A.2.2.2, B.2.2.2], by rw [← A.2.2.1, B.2.2.1]⟩

theorem inc_canon {base : Int} {w : Window} {x y z : Int} (h : Pos w x y z) (hz : z < w.extent.z) :
    ∃ x' y' z', Pos w x' y' z' ∧ (canon base w x y z).inc = canon base w x' y' z' ∧
      x' + w.extent.x * (y' + w.extent.y * z') = x + w.extent.x * (y + w.extent.y * z) + 1 := by
  obtain ⟨h1, h2, h3, h4, h5, h6⟩ := h
  by_cases c1 : x + 1 = w.extent.x
  · by_cases c2 : y + 1 = w.extent.y
    · refine ⟨0, 0, z + 1, ⟨by omega, by omega, by omega, by omega, by omega, by omega⟩, ?_, ?_⟩
      · unfold inc canon start
        simp only [c1, c2, if_true, It.mk.injEq, and_true]
        constructor
        · have : x = w.extent.x - 1 := by omega
          subst this
          have : y = w.extent.y - 1 := by omega
          subst this
          ring
        · have : x = w.extent.x - 1 := by omega
          subst this
          have : y = w.extent.y - 1 := by omega
          subst this
          ring
      · have : x = w.extent.x - 1 := by omega
        subst this
        have : y = w.extent.y - 1 := by omega
        subst this
        ring
    · refine ⟨0, y + 1, z, ⟨by omega, by omega, by omega, by omega, by omega, by omega⟩, ?_, ?_⟩
      · unfold inc canon start
        simp only [c1, c2, if_true, if_false, It.mk.injEq, and_true]
        constructor
        · have : x = w.extent.x - 1 := by omega
          subst this; ring
        · have : x = w.extent.x - 1 := by omega
          subst this; ring
      · have : x = w.extent.x - 1 := by omega
        subst this; ring
  · refine ⟨x + 1, y, z, ⟨by omega, by omega, by omega, by omega, by omega, by omega⟩, ?_, by ring⟩
    unfold inc canon start
    simp only [c1, if_false, It.mk.injEq, and_true]
    constructor <;> ring

theorem dec_canon {base : Int} {w : Window} {x y z : Int} (h : Pos w x y z)
    (hk : 1 ≤ x + w.extent.x * (y + w.extent.y * z)) :
    ∃ x' y' z', Pos w x' y' z' ∧ (canon base w x y z).dec = canon base w x' y' z' ∧
      x' + w.extent.x * (y' + w.extent.y * z') = x + w.extent.x * (y + w.extent.y * z) - 1 := by
  obtain ⟨h1, h2, h3, h4, h5, h6⟩ := h
  by_cases c1 : x - 1 = -1
  · have hx : x = 0 := by omega
    subst hx
    by_cases c2 : y - 1 = -1
    · have hy : y = 0 := by omega
      subst hy
      have hz : 1 ≤ z := by
        by_contra hn
        have : z = 0 := by omega
        subst this
        simp at hk
      refine ⟨w.extent.x - 1, w.extent.y - 1, z - 1,
        ⟨by omega, by omega, by omega, by omega, by omega, by omega⟩, ?_, by ring⟩
      unfold dec canon start
      simp only [c1, if_true, It.mk.injEq, and_true]
      constructor <;> ring
    · refine ⟨w.extent.x - 1, y - 1, z,
        ⟨by omega, by omega, by omega, by omega, by omega, by omega⟩, ?_, by ring⟩
      unfold dec canon start
      simp only [c1, c2, if_true, if_false, It.mk.injEq, and_true]
      constructor <;> ring
  · refine ⟨x - 1, y, z, ⟨by omega, by omega, by omega, by omega, by omega, by omega⟩, ?_, by ring⟩
    unfold dec canon start
    simp only [c1, if_false, It.mk.injEq, and_true]
    constructor <;> ring

theorem add_canon {base : Int} {w : Window} (he : w.Nonempty) {x y z : Int} (h : Pos w x y z)
    (n : Int)
    (hk0 : 0 ≤ x + w.extent.x * (y + w.extent.y * z) + n)
    (hk : x + w.extent.x * (y + w.extent.y * z) + n ≤ w.extent.x * w.extent.y * w.extent.z) :
    ∃ x' y' z', Pos w x' y' z' ∧ (canon base w x y z).addAssign n = .ok (canon base w x' y' z') ∧
      x' + w.extent.x * (y' + w.extent.y * z') = x + w.extent.x * (y + w.extent.y * z) + n := by
  obtain ⟨e0, e1, e2⟩ := he
  simp only [IntVec.zero_x, IntVec.zero_y, IntVec.zero_z] at e0 e1 e2
  have hc := h.count_le
  have hp := h
  obtain ⟨h1, h2, h3, h4, h5, h6⟩ := h
  by_cases small : (0 < n ∧ n < w.extent.x - x) ∨ (n < 0 ∧ -n < x)
  · -- the position cannot be the end unless n < 0 and 0 < x, which end excludes
    refine ⟨x + n, y, z, ?_, ?_, by ring⟩
    · refine ⟨by omega, by omega, h3, h4, h5, ?_⟩
      rcases h6 with h6 | ⟨h6, h7, h8⟩
      · exact Or.inl h6
      · exfalso
        subst h7; subst h8; subst h6
        have : 0 + w.extent.x * (0 + w.extent.y * w.extent.z) =
          w.extent.x * w.extent.y * w.extent.z := by ring
        omega
    · unfold addAssign canon start
      dsimp only
      rw [if_pos small]
      simp only [Outcome.ok.injEq, It.mk.injEq, and_true]
      constructor <;> ring
  · obtain ⟨x', y', z', hp', e⟩ := exists_pos e0 e1 e2 hk0 hk
    refine ⟨x', y', z', hp', ?_, e.symm⟩
    have A := fortran_div (z := z) h1 h2 h3 h4
    have hp2 := hp'
    obtain ⟨g1, g2, g3, g4, g5, g6⟩ := hp'
    have B := fortran_div (z := z') g1 g2 g3 g4
    have hne : w.extent.x ≠ 0 ∧ w.extent.x * w.extent.y ≠ 0 := by
      constructor
      · omega
      · exact (mul_pos e0 e1).ne'
    unfold addAssign canon start
    dsimp only
    rw [if_neg small, Outcome.ubUnless_true hne, Outcome.ok_bind, Outcome.pure_eq, e]
    have hk0' : 0 ≤ x' + w.extent.x * (y' + w.extent.y * z') := by omega
    rw [Int.tdiv_eq_ediv_of_nonneg hk0', Int.tdiv_eq_ediv_of_nonneg hc.1,
      Int.tdiv_eq_ediv_of_nonneg hk0', Int.tdiv_eq_ediv_of_nonneg hc.1,
      Int.tmod_eq_emod_of_nonneg hk0', Int.tmod_eq_emod_of_nonneg hk0',
      Int.tdiv_eq_ediv_of_nonneg (Int.emod_nonneg _ hne.2), B.2.2.2, B.2.1, B.2.2.1, B.1, A.1, A.2.2.1]
    simp only [Outcome.ok.injEq, It.mk.injEq, and_true]
    have en : n = x' + w.extent.x * (y' + w.extent.y * z') - (x + w.extent.x * (y + w.extent.y * z)) := by
      omega
    rw [en]
    ring

theorem step_canon {base : Int} {w : Window} (he : w.Nonempty) {x y z : Int} (h : Pos w x y z)
    (o : Op)
    (hk0 : 0 ≤ x + w.extent.x * (y + w.extent.y * z) + o.delta)
    (hk : x + w.extent.x * (y + w.extent.y * z) + o.delta ≤ w.extent.x * w.extent.y * w.extent.z) :
    ∃ x' y' z', Pos w x' y' z' ∧ (canon base w x y z).step o = .ok (canon base w x' y' z') ∧
      x' + w.extent.x * (y' + w.extent.y * z') = x + w.extent.x * (y + w.extent.y * z) + o.delta := by
  cases o with
  | inc =>
    have hz : z < w.extent.z := h.lt_iff.1 (by simp only [Op.delta] at hk; omega)
    obtain ⟨x', y', z', a, b, c⟩ := inc_canon (base := base) h hz
    exact ⟨x', y', z', a, by simp only [step, b], c⟩
  | dec =>
    obtain ⟨x', y', z', a, b, c⟩ := dec_canon (base := base) h (by simp only [Op.delta] at hk0; omega)
    exact ⟨x', y', z', a, by simp only [step, b], by simp only [Op.delta]; omega⟩
  | add n => exact add_canon he h n hk0 hk
  | sub n => exact add_canon he h (-n) hk0 hk

theorem run_canon {base : Int} {w : Window} (he : w.Nonempty) (ops : List Op) :
    ∀ {x y z : Int}, Pos w x y z →
    StaysIn (w.extent.x * w.extent.y * w.extent.z) (x + w.extent.x * (y + w.extent.y * z)) ops →
    ∃ x' y' z', Pos w x' y' z' ∧ (canon base w x y z).run ops = .ok (canon base w x' y' z') ∧
      x' + w.extent.x * (y' + w.extent.y * z') =
        endPos (x + w.extent.x * (y + w.extent.y * z)) ops := by
  induction ops with
  | nil => intro x y z h _; exact ⟨x, y, z, h, rfl, rfl⟩
  | cons o os ih =>
    intro x y z h hs
    obtain ⟨⟨hs1, hs2⟩, hs3⟩ := hs
    obtain ⟨x', y', z', a, b, c⟩ := step_canon (base := base) he h o hs1 hs2
    rw [← c] at hs3
    obtain ⟨x2, y2, z2, a2, b2, c2⟩ := ih a hs3
    refine ⟨x2, y2, z2, a2, ?_, ?_⟩
    · simp only [run, b, Outcome.ok_bind, b2]
    · simp only [endPos, c2, c]

theorem deref_canon {base : Int} {w : Window} {x y z : Int} (h : Pos w x y z) :
    (canon base w x y z).deref =
      if z < w.extent.z then .ok (canon base w x y z).current else .throws := by
  obtain ⟨h1, h2, h3, h4, h5, h6⟩ := h
  unfold deref
  rw [Outcome.throwIf_false (by unfold canon start; simp only [not_not]; ring), Outcome.ok_bind]
  by_cases hz : z < w.extent.z
  · rw [Outcome.throwIf_false (by unfold canon start; simp only; omega), Outcome.ok_bind,
      Outcome.pure_eq, if_pos hz]
  · rw [Outcome.throwIf_true (by unfold canon start; simp only; omega), Outcome.throws_bind,
      if_neg hz]

theorem run_nil_append (i : It) (a b : List Op) :
    i.run (a ++ b) = i.run a >>= fun j => j.run b := by
  induction a generalizing i with
  | nil => rfl
  | cons o os ih =>
    simp only [List.cons_append, run]
    cases i.step o with
    | ok j => simp only [Outcome.ok_bind]; exact ih j
    | abort => rfl
    | throws => rfl
    | ub => rfl

end It
end SpatialOps
