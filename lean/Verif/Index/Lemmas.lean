import Verif.Index.Spec
import Mathlib.Tactic.Ring
import Mathlib.Tactic.Linarith
import Mathlib.Tactic.Positivity

namespace SpatialOps

/-- Mixed-radix decomposition: quotients and remainders of a fortran position. -/
theorem fortran_div {e0 e1 x y z : Int} (hx0 : 0 ≤ x) (hx : x < e0) (hy0 : 0 ≤ y) (hy : y < e1) :
    (x + e0 * (y + e1 * z)) / e0 = y + e1 * z ∧
    (x + e0 * (y + e1 * z)) % e0 = x ∧
    (x + e0 * (y + e1 * z)) / (e0 * e1) = z ∧
    (x + e0 * (y + e1 * z)) % (e0 * e1) / e0 = y := by
  have h0 : 0 < e0 := by omega
  have h1 : 0 < e1 := by omega
  have hd : (x + e0 * (y + e1 * z)) / e0 = y + e1 * z := by
    rw [Int.add_mul_ediv_left _ _ (by omega), Int.ediv_eq_zero_of_lt hx0 hx, zero_add]
  have hm : (x + e0 * (y + e1 * z)) % e0 = x := by
    rw [Int.add_mul_emod_self_left, Int.emod_eq_of_lt hx0 hx]
  have hlow0 : 0 ≤ x + e0 * y := by nlinarith [mul_nonneg h0.le hy0]
  have hlow : x + e0 * y < e0 * e1 := by nlinarith
  have hre : x + e0 * (y + e1 * z) = (x + e0 * y) + (e0 * e1) * z := by ring
  refine ⟨hd, hm, ?_, ?_⟩
  · rw [hre, Int.add_mul_ediv_left _ _ (by positivity), Int.ediv_eq_zero_of_lt hlow0 hlow, zero_add]
  · rw [hre, Int.add_mul_emod_self_left, Int.emod_eq_of_lt hlow0 hlow,
      Int.add_mul_ediv_left _ _ (by omega), Int.ediv_eq_zero_of_lt hx0 hx, zero_add]

/-- Every position below the number of points is the position of a cell. -/
theorem fortran_surj {e0 e1 e2 k : Int} (h0 : 0 < e0) (h1 : 0 < e1)
    (hk0 : 0 ≤ k) (hk : k < e0 * e1 * e2) :
    ∃ x y z, 0 ≤ x ∧ x < e0 ∧ 0 ≤ y ∧ y < e1 ∧ 0 ≤ z ∧ z < e2 ∧ k = x + e0 * (y + e1 * z) := by
  refine ⟨k % e0, k / e0 % e1, k / (e0 * e1), Int.emod_nonneg _ (by omega), Int.emod_lt_of_pos _ h0,
    Int.emod_nonneg _ (by omega), Int.emod_lt_of_pos _ h1, Int.ediv_nonneg hk0 (by positivity), ?_, ?_⟩
  · exact Int.ediv_lt_of_lt_mul (by positivity) (by nlinarith)
  · have a := Int.emod_add_mul_ediv k e0
    have b := Int.emod_add_mul_ediv (k / e0) e1
    have c : k / e0 / e1 = k / (e0 * e1) := Int.ediv_ediv_of_nonneg (by omega)
    rw [← c]
    rw [b, a]

theorem fortranPos_bound {d c : IntVec} (h : InBlock d c) :
    0 ≤ fortranPos d c ∧ fortranPos d c < d.x * d.y * d.z := by
  obtain ⟨⟨h1, h2, h3⟩, ⟨h4, h5, h6⟩⟩ := h
  simp only [IntVec.zero_x, IntVec.zero_y, IntVec.zero_z] at *
  unfold fortranPos
  have hy : 0 ≤ c.y + d.y * c.z := by
    have : 0 ≤ d.y * c.z := mul_nonneg (by omega) h3
    omega
  have hy2 : c.y + d.y * c.z + 1 ≤ d.y * d.z := by
    have : d.y * (c.z + 1) ≤ d.y * d.z := mul_le_mul_of_nonneg_left (by omega) (by omega)
    nlinarith
  constructor
  · have : 0 ≤ d.x * (c.y + d.y * c.z) := mul_nonneg (by omega) hy
    omega
  · have : d.x * (c.y + d.y * c.z + 1) ≤ d.x * (d.y * d.z) :=
      mul_le_mul_of_nonneg_left hy2 (by omega)
    nlinarith

theorem fortranPos_inj {d a b : IntVec} (ha : InBlock d a) (hb : InBlock d b)
    (h : fortranPos d a = fortranPos d b) : a = b := by
  obtain ⟨⟨h1, h2, h3⟩, ⟨h4, h5, h6⟩⟩ := ha
  obtain ⟨⟨g1, g2, g3⟩, ⟨g4, g5, g6⟩⟩ := hb
  simp only [IntVec.zero_x, IntVec.zero_y, IntVec.zero_z] at *
  have A := fortran_div (z := a.z) h1 h4 h2 h5
  have B := fortran_div (z := b.z) g1 g4 g2 g5
  unfold fortranPos at h
  rw [h] at A
  ext
  · rw [← A.2.1, B.2.1]
  · rw [← A.2.2.2, B.2.2.2]
  · rw [← A.2.2.1, B.2.2.1]

theorem ijkToFlat_eq_ok {d c : IntVec} (h : InBlock d c) :
    ijkToFlat d c = .ok (fortranPos d c) := by
  obtain ⟨⟨h1, h2, h3⟩, ⟨h4, h5, h6⟩⟩ := h
  unfold ijkToFlat
  rw [Outcome.assert_true ⟨h4, h5, h6⟩, Outcome.ok_bind, Outcome.assert_true ⟨h1, h2, h3⟩,
    Outcome.ok_bind, Outcome.pure_eq]
  unfold fortranPos
  congr 1; ring

theorem ijkToFlat_eq_abort {d c : IntVec} (h : ¬ InBlock d c) : ijkToFlat d c = .abort := by
  unfold ijkToFlat
  by_cases h1 : c.x < d.x ∧ c.y < d.y ∧ c.z < d.z
  · rw [Outcome.assert_true h1, Outcome.ok_bind, Outcome.assert_false, Outcome.abort_bind]
    intro h2
    exact h ⟨⟨h2.1, h2.2.1, h2.2.2⟩, h1⟩
  · rw [Outcome.assert_false h1, Outcome.abort_bind]

theorem fortranPos_lt_iff {d a b : IntVec} (ha : InBlock d a) (hb : InBlock d b) :
    fortranPos d a < fortranPos d b ↔ FortranLt a b := by
  have key : ∀ {u v : IntVec}, InBlock d u → InBlock d v → FortranLt u v →
      fortranPos d u < fortranPos d v := by
    intro u v hu hv h
    obtain ⟨⟨h1, h2, h3⟩, ⟨h4, h5, h6⟩⟩ := hu
    obtain ⟨⟨g1, g2, g3⟩, ⟨g4, g5, g6⟩⟩ := hv
    simp only [IntVec.zero_x, IntVec.zero_y, IntVec.zero_z] at *
    unfold fortranPos
    have hrow : u.y + d.y * u.z < v.y + d.y * v.z → 
        u.x + d.x * (u.y + d.y * u.z) < v.x + d.x * (v.y + d.y * v.z) := by
      intro hlt
      have : d.x * (u.y + d.y * u.z + 1) ≤ d.x * (v.y + d.y * v.z) :=
        mul_le_mul_of_nonneg_left (by omega) (by omega)
      nlinarith
    rcases h with h | ⟨hz, h | ⟨hy, hx⟩⟩
    · apply hrow
      have : d.y * (u.z + 1) ≤ d.y * v.z := mul_le_mul_of_nonneg_left (by omega) (by omega)
      nlinarith
    · apply hrow; rw [hz]; omega
    · rw [hz, hy]; omega
  constructor
  · intro h
    by_contra hn
    have : FortranLt b a ∨ a = b := by
      unfold FortranLt at *
      by_cases e : a = b
      · exact Or.inr e
      · left
        have : ¬ (a.x = b.x ∧ a.y = b.y ∧ a.z = b.z) := fun ⟨p, q, r⟩ => e (IntVec.ext p q r)
        omega
    rcases this with hh | hh
    · have := key hb ha hh; omega
    · subst hh; omega
  · exact key ha hb

namespace Window

theorem flatIndex_eq_ok {w : Window} (hw : w.Fits) {loc : IntVec} (hl : InBlock w.extent loc) :
    w.flatIndex loc = .ok (fortranPos w.npts (w.offset + loc)) ∧
    InBlock w.npts (w.offset + loc) := by
  obtain ⟨⟨a1, a2, a3⟩, ⟨b1, b2, b3⟩, ⟨c1, c2, c3⟩, ⟨d1, d2, d3⟩⟩ := hw
  obtain ⟨⟨h1, h2, h3⟩, ⟨h4, h5, h6⟩⟩ := hl
  simp only [IntVec.zero_x, IntVec.zero_y, IntVec.zero_z, IntVec.add_x, IntVec.add_y,
    IntVec.add_z] at *
  have hin : InBlock w.npts (w.offset + loc) := by
    refine ⟨⟨?_, ?_, ?_⟩, ⟨?_, ?_, ?_⟩⟩ <;> simp only [IntVec.zero_x, IntVec.zero_y, IntVec.zero_z,
      IntVec.add_x, IntVec.add_y, IntVec.add_z] <;> omega
  refine ⟨?_, hin⟩
  unfold flatIndex
  rw [Outcome.assert_true (by omega), Outcome.ok_bind, Outcome.assert_true (by omega),
    Outcome.ok_bind, Outcome.assert_true (by omega), Outcome.ok_bind]
  have e : (⟨if 1 < w.npts.x then loc.x + w.offset.x else 0,
     if 1 < w.npts.y then loc.y + w.offset.y else 0,
     if 1 < w.npts.z then loc.z + w.offset.z else 0⟩ : IntVec) = w.offset + loc := by
    ext <;> simp only [IntVec.add_x, IntVec.add_y, IntVec.add_z] <;> split <;> omega
  rw [e]
  exact ijkToFlat_eq_ok hin

/-- One direction of refine, in interval form. -/
theorem refine1_tiles {offset extent split : Int} (hs : 0 < split) (he : split ≤ extent) (c : Int) :
    (offset ≤ c ∧ c < offset + extent) ↔
    ∃ l, 0 ≤ l ∧ l < split ∧ refineOffset1 offset extent split l ≤ c ∧
      c < refineOffset1 offset extent split l + refineExtent1 extent split l := by
  unfold refineOffset1 refineExtent1
  rw [Int.tdiv_eq_ediv_of_nonneg (by omega), Int.tmod_eq_emod_of_nonneg (by omega)]
  have hdm := Int.emod_add_mul_ediv extent split
  have hr0 := Int.emod_nonneg extent (show split ≠ 0 by omega)
  have hr := Int.emod_lt_of_pos extent hs
  have hq1 : 1 ≤ extent / split := by
    rw [Int.le_ediv_iff_mul_le hs]; omega
  generalize extent / split = q at *
  generalize extent % split = r at *
  constructor
  · rintro ⟨h1, h2⟩
    by_cases hc : c - offset < (q + 1) * r
    · refine ⟨(c - offset) / (q + 1), Int.ediv_nonneg (by omega) (by omega), ?_, ?_, ?_⟩
      · have : (c - offset) / (q + 1) < r := Int.ediv_lt_of_lt_mul (by omega) (by nlinarith)
        omega
      all_goals
        have hl : (c - offset) / (q + 1) < r := Int.ediv_lt_of_lt_mul (by omega) (by nlinarith)
        have e := Int.emod_add_mul_ediv (c - offset) (q + 1)
        have e0 := Int.emod_nonneg (c - offset) (show q + 1 ≠ 0 by omega)
        have e1 := Int.emod_lt_of_pos (c - offset) (show 0 < q + 1 by omega)
        rw [if_pos hl]
        generalize (c - offset) / (q + 1) = l at *
        try rw [if_pos hl]
        nlinarith
    · refine ⟨(c - offset - r) / q, Int.ediv_nonneg (by nlinarith) (by omega), ?_, ?_, ?_⟩
      · exact Int.ediv_lt_of_lt_mul (by omega) (by nlinarith)
      all_goals
        have hl : r ≤ (c - offset - r) / q := by
          rw [Int.le_ediv_iff_mul_le (by omega)]; nlinarith
        have e := Int.emod_add_mul_ediv (c - offset - r) q
        have e0 := Int.emod_nonneg (c - offset - r) (show q ≠ 0 by omega)
        have e1 := Int.emod_lt_of_pos (c - offset - r) (show 0 < q by omega)
        rw [if_neg (by omega)]
        generalize (c - offset - r) / q = l at *
        try rw [if_neg (by omega)]
        nlinarith
  · rintro ⟨l, hl0, hl, h1, h2⟩
    have hA : 0 ≤ q * l := mul_nonneg (by omega) hl0
    have hB : q * (l + 1) ≤ q * split := mul_le_mul_of_nonneg_left (by omega) (by omega)
    constructor
    · split at h1 <;> omega
    · have : split * q = q * split := by ring
      have h3 : q * (l + 1) = q * l + q := by ring
      split at h2 <;> split at h1 <;> omega

theorem refine1_disjoint {offset extent split : Int} (hs : 0 < split) (he : split ≤ extent)
    {l m c : Int} (hl : 0 ≤ l ∧ l < split) (_hm : 0 ≤ m ∧ m < split)
    (h1 : refineOffset1 offset extent split l ≤ c ∧
      c < refineOffset1 offset extent split l + refineExtent1 extent split l)
    (h2 : refineOffset1 offset extent split m ≤ c ∧
      c < refineOffset1 offset extent split m + refineExtent1 extent split m) : l = m := by
  unfold refineOffset1 refineExtent1 at *
  rw [Int.tdiv_eq_ediv_of_nonneg (by omega), Int.tmod_eq_emod_of_nonneg (by omega)] at h1 h2
  have hq1 : 1 ≤ extent / split := by
    rw [Int.le_ediv_iff_mul_le hs]; omega
  have hr0 := Int.emod_nonneg extent (show split ≠ 0 by omega)
  generalize extent / split = q at *
  generalize extent % split = r at *
  have key : ∀ {l m : Int}, l < m →
      offset + q * l + (if l < r then l else r) + (q + (if l < r then 1 else 0))
        ≤ offset + q * m + (if m < r then m else r) := by
    intro l m hlm
    have : q * (l + 1) ≤ q * m := mul_le_mul_of_nonneg_left (by omega) (by omega)
    have h3 : q * (l + 1) = q * l + q := by ring
    split <;> split <;> omega
  rcases Int.lt_trichotomy l m with h | h | h
  · have := key h; omega
  · exact h
  · have := key h; omega

theorem refine1_pos {offset extent split l : Int} (hs : 0 < split) (he : split ≤ extent)
    (hl0 : 0 ≤ l) (hl : l < split) :
    extent / split ≤ refineExtent1 extent split l ∧
    refineExtent1 extent split l ≤ extent / split + 1 ∧
    1 ≤ refineExtent1 extent split l ∧
    offset ≤ refineOffset1 offset extent split l ∧
    refineOffset1 offset extent split l + refineExtent1 extent split l ≤ offset + extent := by
  have hT := (refine1_tiles (offset := offset) hs he
    (refineOffset1 offset extent split l + refineExtent1 extent split l - 1)).2
  have hT0 := (refine1_tiles (offset := offset) hs he (refineOffset1 offset extent split l)).2
  have hq1 : 1 ≤ extent / split := by
    rw [Int.le_ediv_iff_mul_le hs]; omega
  have hx : extent / split ≤ refineExtent1 extent split l ∧
      refineExtent1 extent split l ≤ extent / split + 1 := by
    unfold refineExtent1
    rw [Int.tdiv_eq_ediv_of_nonneg (by omega)]
    split <;> omega
  have a := hT ⟨l, hl0, hl, by omega, by omega⟩
  have b := hT0 ⟨l, hl0, hl, by omega, by omega⟩
  omega

end Window
end SpatialOps
