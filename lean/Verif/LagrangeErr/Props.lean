import Verif.LagrangeErr.Lemmas
import Mathlib.Analysis.SpecialFunctions.Trigonometric.Deriv

/-!
# C80: the error of Lagrange interpolation and differentiation
-/

namespace SpatialOps
namespace Lagr

open Polynomial Set

/-- The window read for `x`: the coefficients of both functions belong to the points `base`, ..., `base + order`. -/
theorem window_of {xs : List ℝ} (hs : xs.Pairwise (· < ·)) (f : ℝ → ℝ) (d : Int) (x : ℝ) (order : Nat) (h1 : 1 ≤ order)
    (hn : order < xs.length) :
    ∃ base, base + (order + 1) ≤ xs.length ∧
      (∃ cs, interpCoefs xs x order = .ok (cs, (List.range (order + 1)).map fun j => ((base + j : Nat) : Int))) ∧
      (⟨xs, xs.map f, d⟩ : Table ℝ).interpolate x order =
        .ok ((Lagrange.interpolate ((xs.drop base).take (order + 1)).toFinset id f).eval x) ∧
      (⟨xs, xs.map f, d⟩ : Table ℝ).derivative x order =
        .ok ((derivative (Lagrange.interpolate ((xs.drop base).take (order + 1)).toFinset id f)).eval x) := by
  obtain ⟨base, c1, -, -, c4, c5⟩ := coefs_ok hs x order h1 hn
  obtain ⟨s1, s2⟩ := sum_interpolate (window_nodup hs base (order + 1)) f x
  refine ⟨base, c1, ⟨_, c4⟩, ?_, ?_⟩
  · unfold Table.interpolate
    dsimp only
    rw [c4, Outcome.ok_bind, combine_ok rfl c1, s1]
  · unfold Table.derivative
    dsimp only
    rw [c5, Outcome.ok_bind, combine_ok rfl c1, s2]

theorem window_card {xs : List ℝ} (hs : xs.Pairwise (· < ·)) {base order : Nat} (hn : base + (order + 1) ≤ xs.length) :
    ((xs.drop base).take (order + 1)).toFinset.card = order + 1 := by
  rw [List.toFinset_card_of_nodup (window_nodup hs _ _)]
  simp
  omega

theorem window_eq {xs : List ℝ} {base order : Nat} (hn : base + (order + 1) ≤ xs.length) :
    (xs.drop base).take (order + 1) = (List.range (order + 1)).map fun j => xs.getD (base + j) 0 := by
  apply List.ext_getElem
  · simp; omega
  · intro i h1 h2
    simp only [List.length_map, List.length_range] at h2
    simp only [List.getElem_take, List.getElem_drop, List.getElem_map, List.getElem_range]
    rw [List.getD_eq_getElem?_getD, List.getElem?_eq_getElem (by omega)]
    rfl

theorem window_prod {xs : List ℝ} (hs : xs.Pairwise (· < ·)) {base order : Nat} (hn : base + (order + 1) ≤ xs.length) (φ : ℝ → ℝ) :
    ∏ s ∈ ((xs.drop base).take (order + 1)).toFinset, φ s = ∏ j ∈ Finset.range (order + 1), φ (xs.getD (base + j) 0) := by
  rw [List.prod_toFinset _ (window_nodup hs _ _), window_eq hn, List.map_map]
  generalize order + 1 = k
  induction k with
  | zero => simp
  | succ k ih => simp only [List.range_succ, List.map_append, List.prod_append, Finset.prod_range_succ, ih]; simp

/-- C80. For a table of the values of a smooth function `f` at strictly increasing points, `LagrangeInterpolant::value` and
`LagrangeDerivative::value` use `order + 1` consecutive points. On any interval that contains these points and `x`, and on
which the derivative of `f` of order `order + 1` is bounded by `M`, the interpolated value differs from `f x` by at most
`M / (order + 1)!` times the product of the distances of `x` from the points used, and the derivative differs from that of
`f` by at most `M / order!` times the length of the interval to the power `order`. -/
theorem _root_.SpatialOps.C80_error (xs : List ℝ) (hs : xs.Pairwise (· < ·)) (order : Nat) (h1 : 1 ≤ order)
    (hn : order < xs.length) (f : ℝ → ℝ) (d : Int) (x : ℝ) :
    ∃ t v w base cs, Table.make xs (xs.map f) d = .ok t ∧ t.interpolate x order = .ok v ∧ t.derivative x order = .ok w ∧
      base + order < xs.length ∧
      interpCoefs xs x order = .ok (cs, (List.range (order + 1)).map fun j => ((base + j : Nat) : Int)) ∧
      ∀ (D : ℕ → ℝ → ℝ) (a b M : ℝ), Derivatives f D (order + 1) a b → (∀ s, a ≤ s → s ≤ b → |D (order + 1) s| ≤ M) →
        a ≤ x → x ≤ b → (∀ j ≤ order, a ≤ xs.getD (base + j) 0 ∧ xs.getD (base + j) 0 ≤ b) →
        |v - f x| ≤ M / (order + 1).factorial * ∏ j ∈ Finset.range (order + 1), |x - xs.getD (base + j) 0| ∧
        |w - D 1 x| ≤ M / order.factorial * (b - a) ^ order := by
  obtain ⟨base, c1, ⟨cs, c2⟩, c3, c4⟩ := window_of hs f d x order h1 hn
  refine ⟨⟨xs, xs.map f, d⟩, _, _, base, cs, ?_, c3, c4, by omega, c2, ?_⟩
  · unfold Table.make
    rw [Outcome.assert_true (by simp)]
    rfl
  · intro D a b M hD hM hax hxb hin
    have := interpolation_error (window_card hs c1) hD hM (S := ((xs.drop base).take (order + 1)).toFinset)
      (by
        intro s hs'
        rw [List.mem_toFinset, window_eq c1, List.mem_map] at hs'
        obtain ⟨j, hj, rfl⟩ := hs'
        rw [List.mem_range] at hj
        exact hin j (by omega)) ⟨hax, hxb⟩
    rw [window_prod hs c1] at this
    exact this

/-- C80. Linear interpolation between two neighbouring points of the table is wrong by at most an eighth of the square of
their distance times the bound on the second derivative between them; the slope by at most their distance times that
bound. -/
theorem _root_.SpatialOps.C80_linear (xs : List ℝ) (hs : xs.Pairwise (· < ·)) (f : ℝ → ℝ) (d : Int) (j : Nat)
    (hj : j + 1 < xs.length) (x : ℝ) (hlo : xs[j] < x) (hhi : x ≤ xs[j + 1]) (D : ℕ → ℝ → ℝ) (M : ℝ)
    (hD : Derivatives f D 2 xs[j] xs[j + 1]) (hM : ∀ s, xs[j] ≤ s → s ≤ xs[j + 1] → |D 2 s| ≤ M) :
    ∃ t v w, Table.make xs (xs.map f) d = .ok t ∧ t.interpolate x 1 = .ok v ∧ t.derivative x 1 = .ok w ∧
      |v - f x| ≤ M / 8 * (xs[j + 1] - xs[j]) ^ 2 ∧ |w - D 1 x| ≤ M * (xs[j + 1] - xs[j]) := by
  obtain ⟨t, v, w, base, cs, e1, e2, e3, e4, e5, e6⟩ := C80_error xs hs 1 le_rfl (by omega) f d x
  obtain ⟨base', cs', ds', -, -, -, f1, -, f2⟩ := C41_window xs hs 1 le_rfl (by omega) x
  have hb : base' = base := by
    rw [f1] at e5
    injection e5 with e5
    have := congrArg Prod.snd e5
    simp [List.range_succ] at this
    omega
  have hbj : base = j := by
    have := f2 j hj hlo hhi
    omega
  subst hbj
  have g0 : xs.getD (base + 0) 0 = xs[base] := by
    rw [List.getD_eq_getElem?_getD, Nat.add_zero, List.getElem?_eq_getElem (by omega)]; rfl
  have g1 : xs.getD (base + 1) 0 = xs[base + 1] := by
    rw [List.getD_eq_getElem?_getD, List.getElem?_eq_getElem (by omega)]; rfl
  obtain ⟨b1, b2⟩ := e6 D _ _ M hD hM hlo.le hhi (by
    intro i hi
    rcases (by omega : i = 0 ∨ i = 1) with rfl | rfl
    · rw [g0]; exact ⟨le_rfl, hlo.le.trans hhi⟩
    · rw [g1]; exact ⟨hlo.le.trans hhi, le_rfl⟩)
  refine ⟨t, v, w, e1, e2, e3, b1.trans ?_, ?_⟩
  · rw [Finset.prod_range_succ, Finset.prod_range_one, g0, g1]
    have hM0 : 0 ≤ M := (abs_nonneg _).trans (hM x hlo.le hhi)
    rw [abs_of_pos (sub_pos.2 hlo), abs_sub_comm, abs_of_nonneg (sub_nonneg.2 hhi)]
    set A := x - xs[base] with hA
    set B := xs[base + 1] - x with hB
    rw [show xs[base + 1] - xs[base] = A + B by rw [hA, hB]; ring]
    have : ((1 + 1).factorial : ℝ) = 2 := by norm_num [Nat.factorial]
    rw [this]
    nlinarith [mul_nonneg hM0 (sq_nonneg (A - B))]
  · simpa using b2

/-- Non-vacuity: a table of the sine at `0, 1/2, 1`; at `3/4` the linear interpolant is within `1/32` of the sine and the
slope within `1/2` of the cosine. -/
example : ∃ t v w, Table.make [0, 1 / 2, 1] ([0, 1 / 2, 1].map Real.sin) 1 = .ok t ∧ t.interpolate (3 / 4) 1 = .ok v ∧
    t.derivative (3 / 4) 1 = .ok w ∧ |v - Real.sin (3 / 4)| ≤ 1 / 32 ∧ |w - Real.cos (3 / 4)| ≤ 1 / 2 := by
  obtain ⟨t, v, w, h1, h2, h3, h4, h5⟩ := C80_linear [0, 1 / 2, 1] (by norm_num) Real.sin 1 1 (by simp) (3 / 4)
    (by norm_num) (by norm_num) (fun k => if k = 0 then Real.sin else if k = 1 then Real.cos else fun s => -Real.sin s) 1
    ⟨by simp, by
      intro k hk s _ _
      rcases (by omega : k = 0 ∨ k = 1) with rfl | rfl
      · simpa using Real.hasDerivAt_sin s
      · simpa using Real.hasDerivAt_cos s⟩
    (by
      intro s _ _
      simpa using Real.abs_sin_le_one s)
  refine ⟨t, v, w, h1, h2, h3, h4.trans ?_, ?_⟩
  · norm_num
  · refine (by simpa using h5 : |w - Real.cos (3 / 4)| ≤ 1 - 2⁻¹).trans (by norm_num)

end Lagr
end SpatialOps
