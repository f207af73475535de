import Verif.LagrangeErr.Spec
import Verif.Lagrange.Props
import Mathlib.Analysis.Calculus.LocalExtr.Rolle
import Mathlib.Analysis.Calculus.Deriv.Polynomial
import Mathlib.Data.Finset.Sort

/-!
# The error of polynomial interpolation
-/

namespace SpatialOps
namespace Lagr

open Polynomial Set

/-- Between zeros of a function lie zeros of its derivative. -/
theorem rolle_step {g g' : ℝ → ℝ} {a b : ℝ} (hg : ∀ t ∈ Icc a b, HasDerivAt g (g' t) t) {n : ℕ} {z : ℕ → ℝ}
    (hz : ∀ i < n, z i < z (i + 1)) (hin : ∀ i ≤ n, z i ∈ Icc a b) (h0 : ∀ i ≤ n, g (z i) = 0) :
    ∃ y : ℕ → ℝ, ∀ i < n, z i < y i ∧ y i < z (i + 1) ∧ g' (y i) = 0 := by
  have h : ∀ i, ∃ y, i < n → z i < y ∧ y < z (i + 1) ∧ g' y = 0 := by
    intro i
    by_cases hi : i < n
    · have h1 := hin i hi.le
      have h2 := hin (i + 1) hi
      have hs : ∀ t ∈ Icc (z i) (z (i + 1)), t ∈ Icc a b := fun t ht => ⟨h1.1.trans ht.1, ht.2.trans h2.2⟩
      obtain ⟨y, hy, hy0⟩ := exists_hasDerivAt_eq_zero (hz i hi)
        (fun t ht => (hg t (hs t ht)).continuousAt.continuousWithinAt)
        ((h0 i hi.le).trans (h0 (i + 1) hi).symm) (fun t ht => hg t (hs t (Ioo_subset_Icc_self ht)))
      exact ⟨y, fun _ => ⟨hy.1, hy.2, hy0⟩⟩
    · exact ⟨0, fun h => absurd h hi⟩
  choose y hy using h
  exact ⟨y, hy⟩

/-- A function with `n + 1` zeros: its `n`-th derivative has a zero. -/
theorem rolle_iter {a b : ℝ} : (n : ℕ) → (E : ℕ → ℝ → ℝ) → (z : ℕ → ℝ) →
    (∀ k < n, ∀ t ∈ Icc a b, HasDerivAt (E k) (E (k + 1) t) t) →
    (∀ i < n, z i < z (i + 1)) → (∀ i ≤ n, z i ∈ Icc a b) → (∀ i ≤ n, E 0 (z i) = 0) → ∃ ξ ∈ Icc a b, E n ξ = 0
  | 0, E, z, _, _, hin, h0 => ⟨z 0, hin 0 le_rfl, h0 0 le_rfl⟩
  | n + 1, E, z, hE, hz, hin, h0 => by
    obtain ⟨y, hy⟩ := rolle_step (hE 0 (by omega)) hz hin h0
    refine rolle_iter n (fun k => E (k + 1)) y (fun k hk => hE (k + 1) (by omega)) ?_ ?_ ?_
    · intro i hi
      exact (hy i (by omega)).2.1.trans (hy (i + 1) (by omega)).1
    · intro i hi
      have := hy i (by omega)
      exact ⟨(hin i (by omega)).1.trans this.1.le, this.2.1.le.trans (hin (i + 1) (by omega)).2⟩
    · intro i hi
      exact (hy i (by omega)).2.2

/-- The same for a finite set of zeros. -/
theorem rolle_set {a b : ℝ} {n : ℕ} {E : ℕ → ℝ → ℝ} (hE : ∀ k < n, ∀ t ∈ Icc a b, HasDerivAt (E k) (E (k + 1) t) t)
    {S : Finset ℝ} (hc : S.card = n + 1) (hin : ∀ s ∈ S, s ∈ Icc a b) (h0 : ∀ s ∈ S, E 0 s = 0) :
    ∃ ξ ∈ Icc a b, E n ξ = 0 := by
  set z : ℕ → ℝ := fun i => if h : i < n + 1 then S.orderEmbOfFin hc ⟨i, h⟩ else 0 with hzd
  have hmem : ∀ i ≤ n, z i ∈ S := by
    intro i hi
    rw [hzd]
    dsimp only
    rw [dif_pos (by omega)]
    exact S.orderEmbOfFin_mem hc _
  refine rolle_iter n E z hE ?_ (fun i hi => hin _ (hmem i hi)) (fun i hi => h0 _ (hmem i hi))
  intro i hi
  rw [hzd]
  dsimp only
  rw [dif_pos (by omega), dif_pos (by omega)]
  exact (S.orderEmbOfFin hc).strictMono (by simp [Fin.lt_def])

/-- The iterated derivatives of a polynomial. -/
theorem poly_derivs (P : ℝ[X]) (k : ℕ) (t : ℝ) :
    HasDerivAt (fun t => (derivative^[k] P).eval t) ((derivative^[k + 1] P).eval t) t := by
  rw [Function.iterate_succ_apply']
  exact (derivative^[k] P).hasDerivAt t

/-- The product of `t - z` over the set. -/
noncomputable def nodes (S : Finset ℝ) : ℝ[X] := ∏ s ∈ S, (X - C s)

theorem nodes_eval (S : Finset ℝ) (x : ℝ) : (nodes S).eval x = ∏ s ∈ S, (x - s) := by
  unfold nodes; rw [eval_prod]; simp

theorem nodes_deriv (S : Finset ℝ) (t : ℝ) : (derivative^[S.card] (nodes S)).eval t = (S.card).factorial := by
  have hm : (nodes S).Monic := monic_prod_of_monic _ _ fun s _ => monic_X_sub_C s
  have hd : (nodes S).natDegree = S.card := by
    unfold nodes
    rw [natDegree_prod_of_monic _ _ fun s _ => monic_X_sub_C s]
    simp
  have h0 : (derivative^[S.card] (nodes S)).natDegree = 0 := by
    have := natDegree_iterate_derivative (nodes S) S.card
    omega
  rw [eq_C_of_natDegree_eq_zero h0, eval_C, coeff_iterate_derivative, zero_add, Nat.descFactorial_self]
  have : (nodes S).coeff S.card = 1 := by rw [← hd]; exact hm
  rw [this]
  simp

/-- A function with `n` zeros is as small as its `n`-th derivative and the distances to the zeros make it. -/
theorem zeros_bound {a b M : ℝ} {S : Finset ℝ} {g : ℕ → ℝ → ℝ}
    (hg : ∀ k < S.card, ∀ t ∈ Icc a b, HasDerivAt (g k) (g (k + 1) t) t) (hin : ∀ s ∈ S, s ∈ Icc a b)
    (h0 : ∀ s ∈ S, g 0 s = 0) (hM : ∀ t ∈ Icc a b, |g S.card t| ≤ M) {x : ℝ} (hx : x ∈ Icc a b) :
    |g 0 x| ≤ M / (S.card).factorial * ∏ s ∈ S, |x - s| := by
  by_cases hxS : x ∈ S
  · rw [h0 x hxS, abs_zero, Finset.prod_eq_zero hxS (by simp), mul_zero]
  · have hW : (nodes S).eval x ≠ 0 := by
      rw [nodes_eval, Finset.prod_ne_zero_iff]
      intro s hs
      rw [sub_ne_zero]
      rintro rfl
      exact hxS hs
    set c := g 0 x / (nodes S).eval x with hc
    have hcard : (insert x S).card = S.card + 1 := Finset.card_insert_of_notMem hxS
    obtain ⟨ξ, hξ, e⟩ := rolle_set (E := fun k t => g k t - c * (derivative^[k] (nodes S)).eval t) (n := S.card)
      (a := a) (b := b) (fun k hk t ht => (hg k hk t ht).sub ((poly_derivs (nodes S) k t).const_mul c)) hcard
      (by
        intro s hs
        rcases Finset.mem_insert.1 hs with rfl | hs
        · exact hx
        · exact hin s hs)
      (by
        intro s hs
        rw [Function.iterate_zero_apply]
        rcases Finset.mem_insert.1 hs with rfl | hs
        · rw [hc]; field_simp; ring
        · rw [h0 s hs, nodes_eval, Finset.prod_eq_zero hs (by simp)]; ring)
    rw [nodes_deriv] at e
    have hfac : (0 : ℝ) < (S.card).factorial := by exact_mod_cast Nat.factorial_pos _
    have e2 : g 0 x = g S.card ξ / (S.card).factorial * (nodes S).eval x := by
      have : c = g S.card ξ / (S.card).factorial := by field_simp; linarith
      rw [← this, hc]
      field_simp
    rw [e2, abs_mul, abs_div, abs_of_pos hfac, nodes_eval, Finset.abs_prod]
    have := hM ξ hξ
    gcongr

/-- The error of the interpolation polynomial and of its derivative. -/
theorem interpolation_error {S : Finset ℝ} {order : ℕ} (hc : S.card = order + 1) {f : ℝ → ℝ} {D : ℕ → ℝ → ℝ} {a b M : ℝ}
    (hD : Derivatives f D (order + 1) a b) (hM : ∀ t, a ≤ t → t ≤ b → |D (order + 1) t| ≤ M)
    (hin : ∀ s ∈ S, s ∈ Icc a b) {x : ℝ} (hx : x ∈ Icc a b) :
    |(Lagrange.interpolate S id f).eval x - f x| ≤ M / (order + 1).factorial * ∏ s ∈ S, |x - s| ∧
    |(derivative (Lagrange.interpolate S id f)).eval x - D 1 x| ≤ M / order.factorial * (b - a) ^ order := by
  set P := Lagrange.interpolate S id f with hP
  have hdeg : P.degree < (order + 1 : ℕ) := by
    rw [← hc]
    exact Lagrange.degree_interpolate_lt _ (fun _ _ _ _ h => h)
  have hPz : derivative^[order + 1] P = 0 := iterate_derivative_eq_zero_of_degree_lt hdeg
  have hnode : ∀ s ∈ S, P.eval s = f s := by
    intro s hs
    exact Lagrange.eval_interpolate_at_node (v := id) f (fun _ _ _ _ h => h) hs
  set g : ℕ → ℝ → ℝ := fun k t => D k t - (derivative^[k] P).eval t with hgd
  have hg : ∀ k < order + 1, ∀ t ∈ Icc a b, HasDerivAt (g k) (g (k + 1) t) t :=
    fun k hk t ht => (hD.next k hk t ht.1 ht.2).sub (poly_derivs P k t)
  have hg0 : ∀ s ∈ S, g 0 s = 0 := by
    intro s hs
    rw [hgd]
    dsimp only
    rw [hD.first, Function.iterate_zero_apply, hnode s hs, sub_self]
  have hgM : ∀ t ∈ Icc a b, |g (order + 1) t| ≤ M := by
    intro t ht
    rw [hgd]
    dsimp only
    rw [hPz]
    simpa using hM t ht.1 ht.2
  constructor
  · have := zeros_bound (S := S) (g := g) (by rw [hc]; exact hg) hin hg0 (by rw [hc]; exact hgM) hx
    rw [hc] at this
    rw [abs_sub_comm]
    simpa [hgd, hD.first] using this
  · set z : ℕ → ℝ := fun i => if h : i < order + 1 then S.orderEmbOfFin hc ⟨i, h⟩ else 0 with hzd
    have hmem : ∀ i ≤ order, z i ∈ S := by
      intro i hi
      rw [hzd]
      dsimp only
      rw [dif_pos (by omega)]
      exact S.orderEmbOfFin_mem hc _
    have hzlt : ∀ i < order, z i < z (i + 1) := by
      intro i hi
      rw [hzd]
      dsimp only
      rw [dif_pos (by omega), dif_pos (by omega)]
      exact (S.orderEmbOfFin hc).strictMono (by simp [Fin.lt_def])
    obtain ⟨y, hy⟩ := rolle_step (hg 0 (by omega)) hzlt (fun i hi => hin _ (hmem i hi)) (fun i hi => hg0 _ (hmem i hi))
    have hylt : ∀ i j, i < j → j < order → y i < y j := by
      intro i j hij
      induction j, hij using Nat.le_induction with
      | base => intro hj; exact (hy i (by omega)).2.1.trans (hy (i + 1) hj).1
      | succ j hij ih =>
        intro hj
        exact (ih (by omega)).trans ((hy j (by omega)).2.1.trans (hy (j + 1) hj).1)
    set Y := (Finset.range order).image y with hY
    have hYc : Y.card = order := by
      rw [hY, Finset.card_image_of_injOn, Finset.card_range]
      intro i hi j hj hij
      simp only [Finset.coe_range, mem_Iio] at hi hj
      rcases Nat.lt_trichotomy i j with h | h | h
      · exact absurd hij (hylt i j h hj).ne
      · exact h
      · exact absurd hij (hylt j i h hi).ne'
    have hYin : ∀ s ∈ Y, s ∈ Icc a b := by
      intro s hs
      obtain ⟨i, hi, rfl⟩ := Finset.mem_image.1 hs
      rw [Finset.mem_range] at hi
      exact ⟨(hin _ (hmem i hi.le)).1.trans (hy i hi).1.le, (hy i hi).2.1.le.trans (hin _ (hmem (i + 1) hi)).2⟩
    have := zeros_bound (S := Y) (g := fun k => g (k + 1)) (a := a) (b := b) (M := M)
      (by rw [hYc]; exact fun k hk => hg (k + 1) (by omega)) hYin
      (by
        intro s hs
        obtain ⟨i, hi, rfl⟩ := Finset.mem_image.1 hs
        rw [Finset.mem_range] at hi
        exact (hy i hi).2.2)
      (by rw [hYc]; exact hgM) hx
    rw [hYc] at this
    have e : |(derivative P).eval x - D 1 x| = |g 1 x| := by
      rw [abs_sub_comm, hgd]
      rfl
    rw [e]
    refine this.trans ?_
    have hM0 : 0 ≤ M := (abs_nonneg _).trans (hgM x hx)
    refine mul_le_mul_of_nonneg_left ?_ (by positivity)
    calc ∏ s ∈ Y, |x - s| ≤ ∏ _s ∈ Y, (b - a) := by
          refine Finset.prod_le_prod (fun s _ => abs_nonneg _) fun s hs => ?_
          have := hYin s hs
          rw [abs_le]
          constructor <;> linarith [this.1, this.2, hx.1, hx.2]
      _ = (b - a) ^ order := by rw [Finset.prod_const, hYc]

end Lagr
end SpatialOps
