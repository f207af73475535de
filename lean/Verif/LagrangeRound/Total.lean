import Verif.LagrangeRound.Props
import Verif.LagrangeErr.Props

/-!
# Property C107: the total error of a table of a smooth function
-/

namespace SpatialOps
namespace LagrangeRound

open Round Lagr Polynomial

variable {u : ℝ} {rnd : ℝ → ℝ}

/-- The polynomial through the values of `f` at the points, with the classical error. -/
theorem through {pts : Nat → ℝ} {order : Nat} (hinj : Set.InjOn pts (Finset.range (order + 1))) {f : ℝ → ℝ} {D : ℕ → ℝ → ℝ} {a b M : ℝ}
    (hD : Derivatives f D (order + 1) a b) (hM : ∀ t, a ≤ t → t ≤ b → |D (order + 1) t| ≤ M) (hin : ∀ j ≤ order, a ≤ pts j ∧ pts j ≤ b) {x : ℝ}
    (hx : a ≤ x ∧ x ≤ b) :
    |(Lagrange.interpolate (Finset.range (order + 1)) pts (fun j => f (pts j))).eval x - f x| ≤
      M / (order + 1).factorial * ∏ j ∈ Finset.range (order + 1), |x - pts j| ∧
    |(derivative (Lagrange.interpolate (Finset.range (order + 1)) pts (fun j => f (pts j)))).eval x - D 1 x| ≤
      M / order.factorial * (b - a) ^ order := by
  have hc : ((Finset.range (order + 1)).image pts).card = order + 1 := by rw [Finset.card_image_of_injOn hinj, Finset.card_range]
  have e : Lagrange.interpolate (Finset.range (order + 1)) pts (fun j => f (pts j)) =
      Lagrange.interpolate ((Finset.range (order + 1)).image pts) id f := by
    symm
    apply Lagrange.eq_interpolate_of_eval_eq _ hinj
    · have := Lagrange.degree_interpolate_lt (s := (Finset.range (order + 1)).image pts) (v := id) f (fun _ _ _ _ h => h)
      rw [Finset.card_range]
      rwa [hc] at this
    · intro j hj
      exact Lagrange.eval_interpolate_at_node (v := id) f (fun _ _ _ _ h => h) (Finset.mem_image_of_mem _ hj)
  rw [e]
  have := interpolation_error hc hD hM (fun s hs => by
    obtain ⟨j, hj, rfl⟩ := Finset.mem_image.1 hs
    exact hin j (by have := Finset.mem_range.1 hj; omega)) (x := x) hx
  rwa [Finset.prod_image hinj] at this

/-- C107. A table that holds, in floating point, the values of a smooth function up to errors of `eps`. The error of the value computed is at most the classical
one, plus the error of the data and that of the roundings, both amplified by the sum of the weights; likewise the derivative. -/
theorem _root_.SpatialOps.C107_total_error (hf : Format u rnd) (hu : u < 1) (xs ys : List (Fl rnd)) (hs : xs.Pairwise (fun p q => p.val < q.val))
    (hl : xs.length = ys.length) (order : Nat) (h1 : 1 ≤ order) (hn : order < xs.length) (d : Int) (x : Fl rnd) (f : ℝ → ℝ) (eps : ℝ)
    (hy : ∀ j (hj : j < xs.length), |ys[j].val - f xs[j].val| ≤ eps) :
    ∃ t v s base, Table.make xs ys d = .ok t ∧ t.interpolate x order = .ok v ∧ t.derivative x order = .ok s ∧ base + order < xs.length ∧
      (∀ j (hj : j + 1 < xs.length), xs[j].val < x.val → x.val ≤ xs[j + 1].val → base ≤ j ∧ j + 1 ≤ base + order) ∧
      ∀ (D : ℕ → ℝ → ℝ) (a b M B : ℝ), Derivatives f D (order + 1) a b → (∀ t, a ≤ t → t ≤ b → |D (order + 1) t| ≤ M) →
        (∀ t, a ≤ t → t ≤ b → |f t| ≤ B) → a ≤ x.val → x.val ≤ b → (∀ j ≤ order, a ≤ pointsFrom xs base j ∧ pointsFrom xs base j ≤ b) →
        |v.val - f x.val| ≤ M / (order + 1).factorial * ∏ j ∈ Finset.range (order + 1), |x.val - pointsFrom xs base j| +
          (eps + growth u (5 * order + 2) * (B + eps)) * ∑ j ∈ Finset.range (order + 1), |weight (pointsFrom xs base) (order + 1) j x.val| ∧
        |s.val - D 1 x.val| ≤ M / order.factorial * (b - a) ^ order +
          (eps + growth u (6 * order + 1) * (B + eps)) * ∑ j ∈ Finset.range (order + 1), slopeSize (pointsFrom xs base) (order + 1) j x.val := by
  obtain ⟨t, P, base, v, s, m1, m2, m3, m4, m5, m6, m7, m8, m9⟩ := C107_close_to_polynomial hf hu xs ys hs hl order h1 hn d x
  refine ⟨t, v, s, base, m1, m6, m7, m3, m5, ?_⟩
  intro D a b M B hD hM hB hax hxb hin
  have ex : ∀ j ≤ order, ∃ h : base + j < xs.length, pointsFrom xs base j = xs[base + j].val := fun j hj =>
    ⟨by omega, by simp [pointsFrom, List.getElem?_eq_getElem (show base + j < xs.length by omega)]⟩
  have ey : ∀ j ≤ order, ∃ h : base + j < ys.length, pointsFrom ys base j = ys[base + j].val := fun j hj =>
    ⟨by omega, by simp [pointsFrom, List.getElem?_eq_getElem (show base + j < ys.length by omega)]⟩
  have hinj : Set.InjOn (pointsFrom xs base) (Finset.range (order + 1)) := by
    intro i hi j hj h
    have hi := Finset.mem_range.1 hi
    have hj := Finset.mem_range.1 hj
    obtain ⟨a1, a2⟩ := ex i (by omega)
    obtain ⟨b1, b2⟩ := ex j (by omega)
    rw [a2, b2] at h
    by_contra hne
    rcases Nat.lt_or_gt_of_ne hne with hlt | hlt
    · exact absurd h (List.pairwise_iff_getElem.1 hs _ _ a1 b1 (by omega)).ne
    · exact absurd h (List.pairwise_iff_getElem.1 hs _ _ b1 a1 (by omega)).ne'
  have hdata : ∀ j ∈ Finset.range (order + 1), |pointsFrom ys base j - f (pointsFrom xs base j)| ≤ eps := by
    intro j hj
    have hj := Finset.mem_range.1 hj
    obtain ⟨a1, a2⟩ := ex j (by omega)
    obtain ⟨b1, b2⟩ := ey j (by omega)
    rw [a2, b2]
    exact hy _ a1
  have hsize : ∀ j ∈ Finset.range (order + 1), |pointsFrom ys base j| ≤ B + eps := by
    intro j hj
    have hj' := Finset.mem_range.1 hj
    have i1 := hin j (by omega)
    have := abs_add_le (f (pointsFrom xs base j)) (pointsFrom ys base j - f (pointsFrom xs base j))
    rw [show f (pointsFrom xs base j) + (pointsFrom ys base j - f (pointsFrom xs base j)) = pointsFrom ys base j by ring] at this
    exact this.trans (add_le_add (hB _ i1.1 i1.2) (hdata j hj))
  have hP : P = Lagrange.interpolate (Finset.range (order + 1)) (pointsFrom xs base) (pointsFrom ys base) := by
    apply Lagrange.eq_interpolate_of_eval_eq _ hinj
    · rw [Finset.card_range]
      exact lt_of_le_of_lt degree_le_natDegree (by exact_mod_cast Nat.lt_succ_of_le m2)
    · intro j hj
      exact m4 j (by have := Finset.mem_range.1 hj; omega)
  obtain ⟨q1, q2⟩ := through hinj hD hM hin ⟨hax, hxb⟩
  have g0 : ∀ k, 0 ≤ growth u k := by
    intro k
    rw [growth_eq hu]
    exact grow_nonneg (wider hf hu).nonneg k
  have sn : ∀ j, 0 ≤ slopeSize (pointsFrom xs base) (order + 1) j x.val := fun j =>
    div_nonneg (Finset.sum_nonneg fun _ _ => Finset.prod_nonneg fun _ _ => abs_nonneg _) (Finset.prod_nonneg fun _ _ => abs_nonneg _)
  -- a sum with weights, the data changed
  have change : ∀ (W S : Nat → ℝ), (∀ j, |W j| ≤ S j) →
      |∑ j ∈ Finset.range (order + 1), pointsFrom ys base j * W j - ∑ j ∈ Finset.range (order + 1), f (pointsFrom xs base j) * W j| ≤
        eps * ∑ j ∈ Finset.range (order + 1), S j := by
    intro W S hW
    rw [← Finset.sum_sub_distrib, Finset.mul_sum]
    refine (Finset.abs_sum_le_sum_abs _ _).trans (Finset.sum_le_sum fun j hj => ?_)
    rw [← sub_mul, abs_mul]
    exact mul_le_mul (hdata j hj) (hW j) (abs_nonneg _) ((abs_nonneg _).trans (hdata j hj))
  have most : ∀ S : Nat → ℝ, (∀ j, 0 ≤ S j) →
      ∑ j ∈ Finset.range (order + 1), |pointsFrom ys base j| * S j ≤ (B + eps) * ∑ j ∈ Finset.range (order + 1), S j := by
    intro S hS
    rw [Finset.mul_sum]
    exact Finset.sum_le_sum fun j hj => mul_le_mul_of_nonneg_right (hsize j hj) (hS j)
  constructor
  · have c := change (fun j => weight (pointsFrom xs base) (order + 1) j x.val) _ fun j => le_rfl
    have e1 : ∀ r : Nat → ℝ, (Lagrange.interpolate (Finset.range (order + 1)) (pointsFrom xs base) r).eval x.val =
        ∑ j ∈ Finset.range (order + 1), r j * weight (pointsFrom xs base) (order + 1) j x.val := by
      intro r
      rw [Lagrange.interpolate_apply, eval_finsetSum]
      simp only [eval_mul, eval_C, basis_weight]
    rw [hP, e1] at m8
    rw [e1] at q1
    have hm := mul_le_mul_of_nonneg_left (most (fun j => |weight (pointsFrom xs base) (order + 1) j x.val|) fun j => abs_nonneg _)
      (g0 (5 * order + 2))
    have t1 := abs_sub_le v.val (∑ j ∈ Finset.range (order + 1), pointsFrom ys base j * weight (pointsFrom xs base) (order + 1) j x.val) (f x.val)
    have t2 := abs_sub_le (∑ j ∈ Finset.range (order + 1), pointsFrom ys base j * weight (pointsFrom xs base) (order + 1) j x.val)
      (∑ j ∈ Finset.range (order + 1), f (pointsFrom xs base j) * weight (pointsFrom xs base) (order + 1) j x.val) (f x.val)
    linarith
  · have c := change (fun j => (derivative (Lagrange.basis (Finset.range (order + 1)) (pointsFrom xs base) j)).eval x.val)
      (fun j => slopeSize (pointsFrom xs base) (order + 1) j x.val) fun j => by
        rw [derivative_basis, abs_mul, abs_inv, Finset.abs_prod, ← div_eq_mul_inv]
        unfold slopeSize
        refine div_le_div_of_nonneg_right ((Finset.abs_sum_le_sum_abs _ _).trans (le_of_eq ?_)) (Finset.prod_nonneg fun _ _ => abs_nonneg _)
        exact Finset.sum_congr rfl fun k _ => Finset.abs_prod _ _
    have e1 : ∀ r : Nat → ℝ, (derivative (Lagrange.interpolate (Finset.range (order + 1)) (pointsFrom xs base) r)).eval x.val =
        ∑ j ∈ Finset.range (order + 1), r j * (derivative (Lagrange.basis (Finset.range (order + 1)) (pointsFrom xs base) j)).eval x.val := by
      intro r
      rw [Lagrange.interpolate_apply, derivative_sum, eval_finsetSum]
      simp only [derivative_C_mul, eval_mul, eval_C]
    rw [hP, e1] at m9
    rw [e1] at q2
    have hm := mul_le_mul_of_nonneg_left (most (fun j => slopeSize (pointsFrom xs base) (order + 1) j x.val) sn) (g0 (6 * order + 1))
    have t1 := abs_sub_le s.val (∑ j ∈ Finset.range (order + 1), pointsFrom ys base j *
      (derivative (Lagrange.basis (Finset.range (order + 1)) (pointsFrom xs base) j)).eval x.val) (D 1 x.val)
    have t2 := abs_sub_le (∑ j ∈ Finset.range (order + 1), pointsFrom ys base j *
      (derivative (Lagrange.basis (Finset.range (order + 1)) (pointsFrom xs base) j)).eval x.val)
      (∑ j ∈ Finset.range (order + 1), f (pointsFrom xs base j) *
        (derivative (Lagrange.basis (Finset.range (order + 1)) (pointsFrom xs base) j)).eval x.val) (D 1 x.val)
    linarith

/-- C107. A table of a smooth function, linear interpolation between the two points around `x`, which are `h` apart: the error of the value is at most `h² M / 8`
plus the error of the data, which is not amplified, plus that of seven roundings; the error of the slope is at most `h M` plus the errors of data and roundings
times `2 / h`. -/
theorem _root_.SpatialOps.C107_total_error_linear (hf : Format u rnd) (hu : u < 1) (xs ys : List (Fl rnd)) (hs : xs.Pairwise (fun p q => p.val < q.val))
    (hl : xs.length = ys.length) (d : Int) (x : Fl rnd) (f : ℝ → ℝ) (eps : ℝ) (hy : ∀ j (hj : j < xs.length), |ys[j].val - f xs[j].val| ≤ eps)
    (j : Nat) (hj : j + 1 < xs.length) (hlo : xs[j].val < x.val) (hhi : x.val ≤ xs[j + 1].val) (D : ℕ → ℝ → ℝ) (M B : ℝ)
    (hD : Derivatives f D 2 xs[j].val xs[j + 1].val) (hM : ∀ t, xs[j].val ≤ t → t ≤ xs[j + 1].val → |D 2 t| ≤ M)
    (hB : ∀ t, xs[j].val ≤ t → t ≤ xs[j + 1].val → |f t| ≤ B) :
    ∃ t v s, Table.make xs ys d = .ok t ∧ t.interpolate x 1 = .ok v ∧ t.derivative x 1 = .ok s ∧
      |v.val - f x.val| ≤ M / 8 * (xs[j + 1].val - xs[j].val) ^ 2 + (eps + growth u 7 * (B + eps)) ∧
      |s.val - D 1 x.val| ≤ M * (xs[j + 1].val - xs[j].val) + (eps + growth u 7 * (B + eps)) * (2 / (xs[j + 1].val - xs[j].val)) := by
  obtain ⟨t, v, s, base, m1, m2, m3, m4, m5, m6⟩ := C107_total_error hf hu xs ys hs hl 1 le_rfl (by omega) d x f eps hy
  have hbj := m5 j hj hlo hhi
  have hbase : base = j := by omega
  subst hbase
  have ex0 : pointsFrom xs base 0 = xs[base].val := by simp [pointsFrom, List.getElem?_eq_getElem (show base < xs.length by omega)]
  have ex1 : pointsFrom xs base 1 = xs[base + 1].val := by simp [pointsFrom, List.getElem?_eq_getElem hj]
  have hd : 0 < xs[base + 1].val - xs[base].val := sub_pos.2 (hlo.trans_le hhi)
  obtain ⟨n1, n2⟩ := m6 D _ _ M B hD hM hB hlo.le hhi (by
    intro i hi
    rcases (by omega : i = 0 ∨ i = 1) with rfl | rfl
    · rw [ex0]; exact ⟨le_rfl, hlo.le.trans hhi⟩
    · rw [ex1]; exact ⟨hlo.le.trans hhi, le_rfl⟩)
  have w0 : weight (pointsFrom xs base) (1 + 1) 0 x.val = (x.val - xs[base + 1].val) / (xs[base].val - xs[base + 1].val) := by
    unfold weight
    rw [show (Finset.range (1 + 1)).erase 0 = {1} by decide, Finset.prod_singleton, ex0, ex1]
  have w1 : weight (pointsFrom xs base) (1 + 1) 1 x.val = (x.val - xs[base].val) / (xs[base + 1].val - xs[base].val) := by
    unfold weight
    rw [show (Finset.range (1 + 1)).erase 1 = {0} by decide, Finset.prod_singleton, ex0, ex1]
  have v0 : slopeSize (pointsFrom xs base) (1 + 1) 0 x.val = 1 / (xs[base + 1].val - xs[base].val) := by
    unfold slopeSize
    rw [show (Finset.range (1 + 1)).erase 0 = {1} by decide, Finset.prod_singleton, Finset.sum_singleton, show ({1} : Finset Nat).erase 1 = ∅ by decide,
      Finset.prod_empty, ex0, ex1, abs_sub_comm, abs_of_pos hd]
  have v1 : slopeSize (pointsFrom xs base) (1 + 1) 1 x.val = 1 / (xs[base + 1].val - xs[base].val) := by
    unfold slopeSize
    rw [show (Finset.range (1 + 1)).erase 1 = {0} by decide, Finset.prod_singleton, Finset.sum_singleton, show ({0} : Finset Nat).erase 0 = ∅ by decide,
      Finset.prod_empty, ex0, ex1, abs_of_pos hd]
  refine ⟨t, v, s, m1, m2, m3, ?_, ?_⟩
  · rw [Finset.prod_range_succ, Finset.prod_range_one, ex0, ex1, Finset.sum_range_succ, Finset.sum_range_one, w0, w1, abs_div, abs_div,
      abs_sub_comm x.val xs[base + 1].val, abs_sub_comm xs[base].val, abs_of_pos hd, abs_of_nonneg (sub_nonneg.2 hhi), abs_of_pos (sub_pos.2 hlo),
      ← add_div, show xs[base + 1].val - x.val + (x.val - xs[base].val) = xs[base + 1].val - xs[base].val by ring, div_self hd.ne', mul_one] at n1
    refine n1.trans (add_le_add ?_ le_rfl)
    have hM0 : 0 ≤ M := (abs_nonneg _).trans (hM x.val hlo.le hhi)
    set p := x.val - xs[base].val with hp
    set q := xs[base + 1].val - x.val with hq
    rw [show xs[base + 1].val - xs[base].val = p + q by rw [hp, hq]; ring]
    have : ((1 + 1).factorial : ℝ) = 2 := by norm_num [Nat.factorial]
    rw [this]
    nlinarith [mul_nonneg hM0 (sq_nonneg (p - q))]
  · rw [Finset.sum_range_succ, Finset.sum_range_one, v0, v1, ← add_div, one_add_one_eq_two, Nat.factorial_one, Nat.cast_one, div_one, pow_one] at n2
    exact n2

/-! ## Example -/

namespace LagrangeTotalEx

/-- `double`, with unbounded exponents. -/
noncomputable abbrev R : ℝ → ℝ := roundEven 53

/-- The sine, rounded, at 0, 1/2 and 1. -/
noncomputable def xs : List (Fl R) := [⟨0⟩, ⟨1 / 2⟩, ⟨1⟩]
noncomputable def ys : List (Fl R) := xs.map fun p => ⟨R (Real.sin p.val)⟩

end LagrangeTotalEx

open LagrangeTotalEx in
/-- Example: a table of the sine in `double`. At 3/4 the value computed is within 1/32 and fifteen digits of the sine. -/
example : ∃ t v s, Table.make xs ys 1 = .ok t ∧ t.interpolate ⟨3 / 4⟩ 1 = .ok v ∧ t.derivative ⟨3 / 4⟩ 1 = .ok s ∧
    |v.val - Real.sin (3 / 4)| ≤ 1 / 32 + 1 / 10 ^ 14 ∧ |s.val - Real.cos (3 / 4)| ≤ 1 / 2 + 1 / 10 ^ 14 := by
  have hf : Format ((2 : ℝ) ^ (-53 : Int)) R := C77_nearest_even_is_format 53 (by norm_num)
  obtain ⟨t, v, s, h1, h2, h3, h4, h5⟩ := C107_total_error_linear hf (by norm_num) xs ys (by norm_num [xs]) (by simp [ys]) 1 ⟨3 / 4⟩ Real.sin
    ((2 : ℝ) ^ (-53 : Int)) (fun j hj => by
      have e : ys[j]'(by simpa [ys] using hj) = ⟨R (Real.sin xs[j].val)⟩ := by simp [ys]
      rw [e]
      exact (hf.close _).trans (mul_le_of_le_one_right hf.nonneg (Real.abs_sin_le_one _)))
    1 (by simp [xs]) (by norm_num [xs]) (by norm_num [xs]) (fun k => if k = 0 then Real.sin else if k = 1 then Real.cos else fun s => -Real.sin s) 1 1
    ⟨by simp, by
      intro k hk s _ _
      rcases (by omega : k = 0 ∨ k = 1) with rfl | rfl
      · simpa using Real.hasDerivAt_sin s
      · simpa using Real.hasDerivAt_cos s⟩
    (by
      intro s _ _
      simpa using Real.abs_sin_le_one s)
    (fun s _ _ => Real.abs_sin_le_one s)
  refine ⟨t, v, s, h1, h2, h3, h4.trans ?_, ?_⟩
  · norm_num [xs, growth]
  · refine (by simpa using h5 : |s.val - Real.cos (3 / 4)| ≤ _).trans ?_
    norm_num [xs, growth]

end LagrangeRound
end SpatialOps
