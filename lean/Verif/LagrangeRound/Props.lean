import Verif.LagrangeRound.Lemmas
import Verif.Round.Even
import Verif.Round.Props
import Verif.ParticleRound.Props
import Mathlib.LinearAlgebra.Lagrange

/-!
# Property C107: Lagrange interpolation in floating point
-/

namespace SpatialOps
namespace LagrangeRound

open Round Lagr Polynomial
open ParticleRound (roundEven_kept)

section
variable {K : Type} [Field K] [LinearOrder K] [IsStrictOrderedRing K] {u : K} {rnd : K → K}

/-! ## The coefficients -/

theorem ok_pair {A : Type} {r : Bool × A} {t : Bool} (h : r.1 = t) : Outcome.ok r = .ok (t, r.2) := by rw [← h]

/-- What the loops work on: `order + 1` points of a table in order. -/
structure Window (xs : List (Fl rnd)) (order base : Nat) (b : Bounds) : Prop where
  sorted : xs.Pairwise (fun p q => p.val < q.val)
  many : 1 ≤ order
  start : b.ilo - b.nlo + 1 = base
  count : b.count = order + 1
  fits : base + (order + 1) ≤ xs.length

section
variable {xs : List (Fl rnd)} {order base : Nat} {b : Bounds}

omit [IsStrictOrderedRing K] in
theorem Window.inj (w : Window xs order base b) {i j : Nat} (hi : i < order + 1) (hj : j < order + 1) :
    xs.getD (base + i) 0 = xs.getD (base + j) 0 ↔ i = j := by
  constructor
  · intro h
    have h1 := w.fits
    have e : ∀ k, k < order + 1 → xs.getD (base + k) 0 = xs[base + k]?.getD 0 := fun k _ => by simp
    rw [e i hi, e j hj, List.getElem?_eq_getElem (by omega), List.getElem?_eq_getElem (by omega)] at h
    simp only [Option.getD_some] at h
    have hs := List.pairwise_iff_getElem.1 w.sorted
    rcases Nat.lt_trichotomy i j with a | a | a
    · have := hs (base + i) (base + j) (by omega) (by omega) (by omega)
      rw [h] at this
      exact absurd this (lt_irrefl _)
    · exact a
    · have := hs (base + j) (base + i) (by omega) (by omega) (by omega)
      rw [h] at this
      exact absurd this (lt_irrefl _)
  · rintro rfl
    rfl

/-- One interpolation coefficient. -/
theorem interp_err (hf : Format u rnd) (h1 : u < 1) (w : Window xs order base b) (x : Fl rnd) (j : Nat) (hj : j < order + 1) :
    ∃ c : Fl rnd, interpCoef xs x b (xs.getD (base + j) 0) = .ok (true, c) ∧
      Err (u / (1 - u)) (4 * order) c.val (weight (pointsFrom xs base) (order + 1) j x.val)
        |weight (pointsFrom xs base) (order + 1) j x.val| := by
  have hv := wider hf h1
  unfold interpCoef
  rw [w.start, w.count, forPts_ok _ _ _ w.fits, range_window w.fits]
  have key := fold_prod hv id (fun _ _ => rfl) (fun k z Z S h => h.rounded hv) (fun i => xs.getD (base + i) 0)
    (fun xi => xs.getD (base + j) 0 ≠ xi) (fun i => i ≠ j)
    (fun xi => (x - xi) / (xs.getD (base + j) 0 - xi))
    (fun i => (x.val - pointsFrom xs base i) / (pointsFrom xs base j - pointsFrom xs base i)) 3 (List.range (order + 1))
    (by
      intro i hi
      rw [ne_comm, ne_eq, w.inj (List.mem_range.1 hi) hj])
    (by
      intro i hi hne
      have a1 := (Err.self (u := u / (1 - u)) (x.val - pointsFrom xs base i)).rounded hv
      have a2 := inv_rounded hf h1 (Err.self (u := u / (1 - u)) (pointsFrom xs base j - pointsFrom xs base i)⁻¹)
      have a3 := (a1.mul hv.nonneg a2).rounded hv
      rw [← div_eq_mul_inv, ← div_eq_mul_inv, ← abs_mul, ← div_eq_mul_inv] at a3
      exact a3)
    (false, 1) 0 1 |1| (Err.self 1)
  obtain ⟨r1, r2⟩ := key
  refine ⟨_, ok_pair ?_, ?_⟩
  · rw [r1, Bool.false_or, List.any_eq_true]
    by_cases h0 : j = 0
    · exact ⟨1, by simp; exact w.many, by simp; omega⟩
    · exact ⟨0, by simp, by simp; omega⟩
  · rw [(filter_one (order + 1) j hj _).1, (filter_one (order + 1) j hj (fun i => |_|)).1, (filter_one (K := K) (order + 1) j hj (fun _ => 0)).2.2,
      Nat.add_sub_cancel, Nat.zero_add, one_mul, abs_one, one_mul, ← Finset.abs_prod] at r2
    exact r2

/-- The denominator of a coefficient of the derivative. -/
theorem den_err (hf : Format u rnd) (h1 : u < 1) (w : Window xs order base b) (j : Nat) (hj : j < order + 1) :
    ∃ c : Fl rnd, derivDen xs b (xs.getD (base + j) 0) = .ok (true, c) ∧
      Err (u / (1 - u)) (2 * order) c.val⁻¹ (∏ i ∈ (Finset.range (order + 1)).erase j, (pointsFrom xs base j - pointsFrom xs base i))⁻¹
        (∏ i ∈ (Finset.range (order + 1)).erase j, |pointsFrom xs base j - pointsFrom xs base i|)⁻¹ := by
  have hv := wider hf h1
  unfold derivDen
  rw [w.start, w.count, forPts_ok _ _ _ w.fits, range_window w.fits]
  have key := fold_prod hv (fun z => z⁻¹) (fun _ _ => mul_inv _ _) (fun k z Z S h => inv_rounded hf h1 h) (fun i => xs.getD (base + i) 0)
    (fun xi => xi ≠ xs.getD (base + j) 0) (fun i => i ≠ j)
    (fun xi => xs.getD (base + j) 0 - xi)
    (fun i => (pointsFrom xs base j - pointsFrom xs base i)⁻¹) 1 (List.range (order + 1))
    (by
      intro i hi
      rw [ne_eq, w.inj (List.mem_range.1 hi) hj])
    (by
      intro i hi hne
      exact inv_rounded hf h1 (Err.self (u := u / (1 - u)) (pointsFrom xs base j - pointsFrom xs base i)⁻¹))
    (false, 1) 0 1 |1| (by
      show Err _ 0 (1 : K)⁻¹ 1 |1|
      rw [inv_one]
      exact Err.self 1)
  obtain ⟨r1, r2⟩ := key
  refine ⟨_, ok_pair ?_, ?_⟩
  · rw [r1, Bool.false_or, List.any_eq_true]
    by_cases h0 : j = 0
    · exact ⟨1, by simp; exact w.many, by simp; omega⟩
    · exact ⟨0, by simp, by simp; omega⟩
  · rw [(filter_one (order + 1) j hj _).1, (filter_one (order + 1) j hj (fun i => |_|)).1, (filter_one (K := K) (order + 1) j hj (fun _ => 0)).2.2,
      Nat.add_sub_cancel, Nat.zero_add, one_mul, abs_one, one_mul, Finset.prod_inv_distrib] at r2
    simp only [abs_inv, Finset.prod_inv_distrib] at r2
    exact r2

/-- The numerator of a coefficient of the derivative. -/
theorem num_err (hf : Format u rnd) (w : Window xs order base b) (x : Fl rnd) (j : Nat) (hj : j < order + 1) :
    ∃ c : Fl rnd, derivNum xs x order b (xs.getD (base + j) 0) = .ok c ∧
      Err u (3 * order - 2) c.val
        (∑ k ∈ (Finset.range (order + 1)).erase j, ∏ i ∈ ((Finset.range (order + 1)).erase j).erase k, (x.val - pointsFrom xs base i))
        (∑ k ∈ (Finset.range (order + 1)).erase j, ∏ i ∈ ((Finset.range (order + 1)).erase j).erase k, |x.val - pointsFrom xs base i|) := by
  unfold derivNum
  rw [w.start, w.count]
  have inner : ∀ k, k < order + 1 → k ≠ j → ∃ t : Fl rnd, forPts xs (fun (s : Bool × Fl rnd) xi =>
      if xi = xs.getD (base + j) 0 ∨ xi = xs.getD (base + k) 0 then s else (true, s.2 * (x - xi)))
      (order + 1) (base : Int) (false, 1) = .ok (decide (2 ≤ order), t) ∧
      Err u (2 * (order - 1)) t.val (∏ i ∈ ((Finset.range (order + 1)).erase j).erase k, (x.val - pointsFrom xs base i))
        (∏ i ∈ ((Finset.range (order + 1)).erase j).erase k, |x.val - pointsFrom xs base i|) := by
    intro k hk hkj
    rw [forPts_ok _ _ _ w.fits, range_window w.fits]
    have e : (fun (s : Bool × Fl rnd) xi => if xi = xs.getD (base + j) 0 ∨ xi = xs.getD (base + k) 0 then s else (true, s.2 * (x - xi))) =
        fun s xi => if ¬ (xi = xs.getD (base + j) 0 ∨ xi = xs.getD (base + k) 0) then (true, s.2 * (x - xi)) else s := by
      funext s xi
      rw [ite_not]
    rw [e]
    obtain ⟨r1, r2⟩ := fold_prod hf id (fun _ _ => rfl) (fun k z Z S h => h.rounded hf) (fun i => xs.getD (base + i) 0)
      (fun xi => ¬ (xi = xs.getD (base + j) 0 ∨ xi = xs.getD (base + k) 0)) (fun i => ¬ (i = j ∨ i = k))
      (fun xi => x - xi) (fun i => x.val - pointsFrom xs base i) 1 (List.range (order + 1))
      (by
        intro i hi
        rw [w.inj (List.mem_range.1 hi) hj, w.inj (List.mem_range.1 hi) hk])
      (by
        intro i hi hne
        exact (Err.self (u := u) (x.val - pointsFrom xs base i)).rounded hf)
      (false, 1) 0 1 |1| (Err.self 1)
    refine ⟨_, ok_pair ?_, ?_⟩
    · rw [r1, Bool.false_or, Bool.eq_iff_iff, List.any_eq_true, decide_eq_true_eq]
      constructor
      · rintro ⟨i, hi, hp⟩
        have hi := List.mem_range.1 hi
        have hp := of_decide_eq_true hp
        omega
      · intro h2
        have : ∃ i, i < 3 ∧ i ≠ j ∧ i ≠ k := by
          by_cases a : 0 ≠ j ∧ 0 ≠ k
          · exact ⟨0, by omega, a.1, a.2⟩
          · by_cases a' : 1 ≠ j ∧ 1 ≠ k
            · exact ⟨1, by omega, a'.1, a'.2⟩
            · exact ⟨2, by omega, by omega, by omega⟩
        obtain ⟨i, i1, i2, i3⟩ := this
        exact ⟨i, List.mem_range.2 (by omega), decide_eq_true (by omega)⟩
    · rw [(filter_two (order + 1) j k hj hk hkj _).1, (filter_two (order + 1) j k hj hk hkj (fun i => |_|)).1,
        (filter_two (K := K) (order + 1) j k hj hk hkj (fun _ => 0)).2,
        show order + 1 - 2 = order - 1 by omega, Nat.zero_add, one_mul, abs_one, one_mul] at r2
      exact r2
  rcases Nat.lt_or_ge 1 order with h2 | h2
  · have body : ∀ s : Fl rnd, ∀ a ∈ (xs.drop base).take (order + 1), (fun (num : Fl rnd) xj =>
        if xj = xs.getD (base + j) 0 then Outcome.ok num
        else do
          let t ← forPts xs (fun (s : Bool × Fl rnd) xi => if xi = xs.getD (base + j) 0 ∨ xi = xj then s else (true, s.2 * (x - xi)))
            (order + 1) (base : Int) (false, (1 : Fl rnd))
          if t.1 then return num + t.2 else return num) s a =
        .ok ((fun num xj => if xj = xs.getD (base + j) 0 then num else num +
          (((xs.drop base).take (order + 1)).foldl (fun (s : Bool × Fl rnd) xi => if xi = xs.getD (base + j) 0 ∨ xi = xj then s else
            (true, s.2 * (x - xi))) (false, 1)).2) s a) := by
      intro s a ha
      dsimp only
      split_ifs with hak
      · rfl
      · rw [range_window w.fits] at ha
        obtain ⟨k, hk, rfl⟩ := List.mem_map.1 ha
        have hk := List.mem_range.1 hk
        have hkj : k ≠ j := fun h => hak (by rw [h])
        obtain ⟨t, t1, -⟩ := inner k hk hkj
        rw [t1, Outcome.ok_bind, if_pos (show decide (2 ≤ order) = true from decide_eq_true h2)]
        rw [forPts_ok _ _ _ w.fits] at t1
        injection t1 with t1
        rw [t1]
        rfl
    rw [forPtsM_ok _ _ _ _ w.fits body, if_neg (by omega)]
    refine ⟨_, rfl, ?_⟩
    rw [range_window w.fits]
    have key := fold_sum hf (fun i => xs.getD (base + i) 0) (fun xj => xj = xs.getD (base + j) 0) (fun k => k = j)
      (fun xj => (((List.range (order + 1)).map fun i => xs.getD (base + i) 0).foldl
        (fun (s : Bool × Fl rnd) xi => if xi = xs.getD (base + j) 0 ∨ xi = xj then s else (true, s.2 * (x - xi))) (false, 1)).2)
      (fun k => ∏ i ∈ ((Finset.range (order + 1)).erase j).erase k, (x.val - pointsFrom xs base i))
      (fun k => ∏ i ∈ ((Finset.range (order + 1)).erase j).erase k, |x.val - pointsFrom xs base i|) (2 * (order - 1))
      (List.range (order + 1)) (fun i hi => w.inj (List.mem_range.1 hi) hj) (by
        intro k hk hkj
        obtain ⟨t, t1, t2⟩ := inner k (List.mem_range.1 hk) hkj
        rw [forPts_ok _ _ _ w.fits, range_window w.fits] at t1
        injection t1 with t1
        rw [t1]
        exact t2) 0 (2 * (order - 1)) le_rfl 0 0 ((show Err u 0 (0 : Fl rnd).val 0 0 from ⟨by
          show |(0 : K) - 0| ≤ _
          simp, by simp⟩).mono hf.nonneg (Nat.zero_le _))
    have f1 := filter_one (order + 1) j hj (fun k => ∏ i ∈ ((Finset.range (order + 1)).erase j).erase k, (x.val - pointsFrom xs base i))
    have f2 := filter_one (order + 1) j hj (fun k => ∏ i ∈ ((Finset.range (order + 1)).erase j).erase k, |x.val - pointsFrom xs base i|)
    simp only [ne_eq] at f1 f2
    rw [f1.2.1, f2.2.1, f1.2.2, zero_add, zero_add, show 2 * (order - 1) + (order + 1 - 1) = 3 * order - 2 by omega] at key
    exact key
  · have ho : order = 1 := by have := w.many; omega
    subst ho
    rw [forPtsM_ok _ (fun num _ => num) _ _ w.fits]
    · refine ⟨_, rfl, ?_⟩
      have fold_id : ∀ (l : List (Fl rnd)) (a : Fl rnd), l.foldl (fun num _ => num) a = a := by
        intro l
        induction l with
        | nil => intro a; rfl
        | cons c l ih => intro a; rw [List.foldl_cons, ih]
      rw [fold_id, if_pos (by norm_num)]
      have hc : ((Finset.range (1 + 1)).erase j).card = 1 := by
        rw [Finset.card_erase_of_mem (by simpa using hj), Finset.card_range]
      obtain ⟨k, hk⟩ := Finset.card_eq_one.1 hc
      rw [hk]
      simp only [Finset.sum_singleton, Finset.erase_singleton, Finset.prod_empty]
      exact (show Err u 0 (1 : K) 1 1 from ⟨by simp [grow], by simp⟩).mono hf.nonneg (Nat.zero_le _)
    · intro num a ha
      split_ifs with hak
      · rfl
      · rw [range_window w.fits] at ha
        obtain ⟨k, hk, rfl⟩ := List.mem_map.1 ha
        obtain ⟨t, t1, -⟩ := inner k (List.mem_range.1 hk) (fun h => hak (by rw [h]))
        rw [t1, Outcome.ok_bind, if_neg (by simp)]
        rfl

end

/-! ## The values -/

omit [IsStrictOrderedRing K] in
/-- The window of a table that is long enough. -/
theorem window_ok {xs : List (Fl rnd)} (hs : xs.Pairwise (fun p q => p.val < q.val)) (x : Fl rnd) (order : Nat) (h1 : 1 ≤ order)
    (hn : order < xs.length) :
    ∃ (b : Bounds) (base : Nat), getBounds xs x order = .ok b ∧ Window xs order base b ∧ (base : Int) ≤ below xs x ∧
      (below xs x + 1 < xs.length → below xs x + 1 < base + (order + 1)) := by
  obtain ⟨b, base, g1, g2, g3, g4, g5, g6⟩ := getBounds_ok xs x order h1 hn
  exact ⟨b, base, g1, ⟨hs, h1, g2, g3, g4⟩, g5, g6⟩

omit [Field K] [IsStrictOrderedRing K] in
/-- The index of the point below. -/
theorem below_eq {xs : List (Fl rnd)} (hs : xs.Pairwise (fun p q => p.val < q.val)) {x : Fl rnd} {j : Nat} (hj : j + 1 < xs.length)
    (hlo : xs[j].val < x.val) (hhi : x.val ≤ xs[j + 1].val) : below xs x = j := by
  have : lowerBound xs x = j + 1 := by
    unfold lowerBound
    have e : xs = xs.take (j + 1) ++ xs.drop (j + 1) := (List.take_append_drop _ _).symm
    have hs' := List.pairwise_iff_getElem.1 hs
    have h1 : ∀ a ∈ xs.take (j + 1), decide (a < x) = true := by
      intro a ha
      obtain ⟨i, hi, rfl⟩ := List.mem_iff_getElem.1 ha
      simp only [List.length_take] at hi
      rw [List.getElem_take, decide_eq_true_eq]
      show xs[i].val < x.val
      rcases Nat.lt_or_ge i j with h | h
      · exact (hs' i j (by omega) (by omega) h).trans hlo
      · have : i = j := by omega
        subst this
        exact hlo
    conv_lhs => rw [e]
    rw [List.takeWhile_append_of_pos h1, List.drop_eq_getElem_cons hj, List.takeWhile_cons_of_neg]
    · simp; omega
    · rw [decide_eq_true_eq]
      exact not_lt.2 hhi
  unfold below
  rw [this]
  dsimp only
  rw [if_neg (by push_cast; omega)]
  push_cast
  omega

omit [LinearOrder K] [IsStrictOrderedRing K] in
/-- The derivative of a basis polynomial. -/
theorem derivative_basis (s : Finset Nat) (v : Nat → K) (a : Nat) (x : K) :
    (derivative (Lagrange.basis s v a)).eval x =
      (∑ c ∈ s.erase a, ∏ b ∈ (s.erase a).erase c, (x - v b)) * (∏ b ∈ s.erase a, (v a - v b))⁻¹ := by
  have e : Lagrange.basis s v a = C (∏ b ∈ s.erase a, (v a - v b)⁻¹) * Lagrange.nodal (s.erase a) v := by
    unfold Lagrange.basis Lagrange.basisDivisor Lagrange.nodal
    rw [Finset.prod_mul_distrib, map_prod]
  rw [e, derivative_C_mul, Lagrange.derivative_nodal, eval_C_mul, eval_finsetSum, Finset.prod_inv_distrib, mul_comm]
  congr 1
  apply Finset.sum_congr rfl
  intro c _
  rw [Lagrange.eval_nodal]

omit [LinearOrder K] [IsStrictOrderedRing K] in
theorem basis_weight (n : Nat) (v : Nat → K) (j : Nat) (x : K) : (Lagrange.basis (Finset.range n) v j).eval x = weight v n j x := by
  unfold Lagrange.basis Lagrange.basisDivisor weight
  rw [eval_prod]
  apply Finset.prod_congr rfl
  intro c _
  simp [div_eq_inv_mul]

omit [LinearOrder K] [IsStrictOrderedRing K] in
theorem range_sum (n : Nat) (g : Nat → K) : ((List.range' 0 n).map g).sum = ∑ j ∈ Finset.range n, g j := by
  rw [← List.range_eq_range', Finset.sum_range, ← List.sum_ofFn]
  congr 1
  apply List.ext_getElem <;> simp

/-- The weighted sum. -/
theorem combine_err (hf : Format u rnd) (ys : List (Fl rnd)) (base order : Nat) (c : Nat → Fl rnd) (C T : Nat → K) (m : Nat)
    (hl : base + (order + 1) ≤ ys.length) (hc : ∀ j, j < order + 1 → Err u m (c j).val (C j) (T j)) :
    ∃ r : Fl rnd, combine ys ((List.range' 0 (order + 1)).map c, (List.range' 0 (order + 1)).map fun j => ((base + j : Nat) : Int)) = .ok r ∧
      |r.val - ∑ j ∈ Finset.range (order + 1), pointsFrom ys base j * C j| ≤
        grow u (m + order + 2) * ∑ j ∈ Finset.range (order + 1), |pointsFrom ys base j| * T j := by
  obtain ⟨r, r1, r2⟩ := weigh_err hf ys base c C T m (order + 1) 0 (by omega) (fun j _ h => hc j (by omega)) 0 (m + 1) le_rfl 0 0
    ((show Err u 0 (0 : Fl rnd).val 0 0 from ⟨by show |(0 : K) - 0| ≤ _; simp, by simp⟩).mono hf.nonneg (Nat.zero_le _))
  refine ⟨r, ?_, ?_⟩
  · rw [← r1]
    rfl
  · rw [zero_add, zero_add, range_sum, range_sum, show m + 1 + (order + 1) = m + order + 2 by ring] at r2
    exact r2.1

/-! ## C107 -/

/-- C107. A table of strictly increasing points, of at least `order + 1` points, and any `x`. The value and the derivative computed are, up to rounding
errors, those of a polynomial through `order + 1` neighbouring points of the table, among them the two around `x`. The error is relative to the sizes of
the terms of the sums. -/
theorem _root_.SpatialOps.C107_close_to_polynomial (hf : Format u rnd) (hu : u < 1) (xs ys : List (Fl rnd))
    (hs : xs.Pairwise (fun p q => p.val < q.val)) (hl : xs.length = ys.length) (order : Nat) (h1 : 1 ≤ order) (hn : order < xs.length) (d : Int)
    (x : Fl rnd) :
    ∃ (t : Table (Fl rnd)) (P : K[X]) (base : Nat) (v s : Fl rnd), Table.make xs ys d = .ok t ∧
      P.natDegree ≤ order ∧ base + order < xs.length ∧ (∀ j ≤ order, P.eval (pointsFrom xs base j) = pointsFrom ys base j) ∧
      (∀ j (hj : j + 1 < xs.length), xs[j].val < x.val → x.val ≤ xs[j + 1].val → base ≤ j ∧ j + 1 ≤ base + order) ∧
      t.interpolate x order = .ok v ∧ t.derivative x order = .ok s ∧
      |v.val - P.eval x.val| ≤ growth u (5 * order + 2) *
        ∑ j ∈ Finset.range (order + 1), |pointsFrom ys base j| * |weight (pointsFrom xs base) (order + 1) j x.val| ∧
      |s.val - (derivative P).eval x.val| ≤ growth u (6 * order + 1) *
        ∑ j ∈ Finset.range (order + 1), |pointsFrom ys base j| * slopeSize (pointsFrom xs base) (order + 1) j x.val := by
  have hv := wider hf hu
  obtain ⟨b, base, g1, w, g5, g6⟩ := window_ok hs x order h1 hn
  have hfit := w.fits
  have hinj : Set.InjOn (pointsFrom xs base) (Finset.range (order + 1)) := by
    intro i hi j hj h
    have hi := Finset.mem_range.1 hi
    have hj := Finset.mem_range.1 hj
    exact (w.inj hi hj).1 (Fl.ext h)
  have hi : ∀ j, ∃ c : Fl rnd, j < order + 1 → interpCoef xs x b (xs.getD (base + j) 0) = .ok (true, c) ∧
      Err (u / (1 - u)) (4 * order) c.val (weight (pointsFrom xs base) (order + 1) j x.val)
        |weight (pointsFrom xs base) (order + 1) j x.val| := by
    intro j
    by_cases hj : j < order + 1
    · obtain ⟨c, hc⟩ := interp_err hf hu w x j hj
      exact ⟨c, fun _ => hc⟩
    · exact ⟨0, fun h => absurd h hj⟩
  have hd : ∀ j, ∃ c : Fl rnd, j < order + 1 → (do
        let den ← derivDen xs b (xs.getD (base + j) 0)
        let num ← derivNum xs x order b (xs.getD (base + j) 0)
        return (den.1, num / den.2)) = Outcome.ok (true, c) ∧
      Err (u / (1 - u)) (5 * order - 1) c.val ((derivative (Lagrange.basis (Finset.range (order + 1)) (pointsFrom xs base) j)).eval x.val)
        (slopeSize (pointsFrom xs base) (order + 1) j x.val) := by
    intro j
    by_cases hj : j < order + 1
    · obtain ⟨c1, a1, a2⟩ := den_err hf hu w j hj
      obtain ⟨c2, b1, b2⟩ := num_err hv w x j hj
      refine ⟨c2 / c1, fun _ => ⟨?_, ?_⟩⟩
      · rw [a1, Outcome.ok_bind, b1, Outcome.ok_bind]
        rfl
      · have := (b2.mul hv.nonneg a2).rounded hv
        rw [show 3 * order - 2 + 2 * order + 1 = 5 * order - 1 by omega, ← div_eq_mul_inv] at this
        rw [derivative_basis]
        unfold slopeSize
        rw [div_eq_mul_inv _ (∏ _ ∈ _, _)]
        exact this
    · exact ⟨0, fun h => absurd h hj⟩
  choose ci hci using hi
  choose cd hcd using hd
  obtain ⟨v, v1, v2⟩ := combine_err hv ys base order ci _ _ (4 * order) (by omega) fun j hj => (hci j hj).2
  obtain ⟨s, s1, s2⟩ := combine_err hv ys base order cd _ _ (5 * order - 1) (by omega) fun j hj => (hcd j hj).2
  refine ⟨⟨xs, ys, d⟩, Lagrange.interpolate (Finset.range (order + 1)) (pointsFrom xs base) (pointsFrom ys base), base, v, s, ?_, ?_, by omega, ?_, ?_,
    ?_, ?_, ?_, ?_⟩
  · unfold Table.make
    rw [Outcome.assert_true hl]
    rfl
  · have := Lagrange.degree_interpolate_lt (pointsFrom ys base) hinj
    rw [Finset.card_range] at this
    by_cases h0 : Lagrange.interpolate (Finset.range (order + 1)) (pointsFrom xs base) (pointsFrom ys base) = 0
    · rw [h0]
      simp
    · exact Nat.lt_succ_iff.1 ((natDegree_lt_iff_degree_lt h0).2 this)
  · intro j hj
    exact Lagrange.eval_interpolate_at_node _ hinj (Finset.mem_range.2 (by omega))
  · intro j hj a1 a2
    have hb := below_eq hs hj a1 a2
    rw [hb] at g5 g6
    have := g6 (by omega)
    omega
  · unfold Table.interpolate interpCoefs
    dsimp only
    rw [g1, Outcome.ok_bind, w.start, show ((order : Int) + 1).toNat = order + 1 by omega]
    rw [show (0 : Int) = ((0 : Nat) : Int) from rfl, kLoop_idx _ ci base (order + 1) 0 (by omega) (fun j _ hj => (hci j (by omega)).1), Outcome.ok_bind]
    exact v1
  · unfold Table.derivative derivCoefs
    dsimp only
    rw [g1, Outcome.ok_bind, w.start, show ((order : Int) + 1).toNat = order + 1 by omega]
    rw [show (0 : Int) = ((0 : Nat) : Int) from rfl, kLoop_idx _ cd base (order + 1) 0 (by omega) (fun j _ hj => (hcd j (by omega)).1), Outcome.ok_bind]
    exact s1
  · rw [growth_eq hu, Lagrange.interpolate_apply, eval_finsetSum]
    simp only [eval_mul, eval_C, basis_weight]
    rw [show 5 * order + 2 = 4 * order + order + 2 by ring]
    exact v2
  · rw [growth_eq hu, Lagrange.interpolate_apply, derivative_sum, eval_finsetSum]
    simp only [derivative_C_mul, eval_mul, eval_C]
    rw [show 6 * order + 1 = 5 * order - 1 + order + 2 by omega]
    exact s2

/-- C107. Linear interpolation between the two points around `x`: the error is at most that of seven operations, relative to the larger of the two
values, however close the points are to each other and to `x`. -/
theorem _root_.SpatialOps.C107_linear (hf : Format u rnd) (hu : u < 1) (xs ys : List (Fl rnd)) (hs : xs.Pairwise (fun p q => p.val < q.val))
    (hl : xs.length = ys.length) (d : Int) (x : Fl rnd) (j : Nat) (hj : j + 1 < xs.length) (hlo : xs[j].val < x.val) (hhi : x.val ≤ xs[j + 1].val)
    (B : K) (h0 : |ys[j].val| ≤ B) (h1 : |ys[j + 1].val| ≤ B) :
    ∃ t v, Table.make xs ys d = .ok t ∧ t.interpolate x 1 = .ok v ∧
      |v.val - (ys[j].val + (ys[j + 1].val - ys[j].val) * ((x.val - xs[j].val) / (xs[j + 1].val - xs[j].val)))| ≤ growth u 7 * B := by
  obtain ⟨t, P, base, v, s, m1, m2, m3, m4, m5, m6, -, m8, -⟩ := C107_close_to_polynomial hf hu xs ys hs hl 1 le_rfl (by omega) d x
  refine ⟨t, v, m1, m6, ?_⟩
  have hbj := m5 j hj hlo hhi
  have hbase : base = j := by omega
  subst hbase
  have ex0 : pointsFrom xs base 0 = xs[base].val := by simp [pointsFrom, List.getElem?_eq_getElem (show base < xs.length by omega)]
  have ex1 : pointsFrom xs base 1 = xs[base + 1].val := by simp [pointsFrom, List.getElem?_eq_getElem hj]
  have ey0 : pointsFrom ys base 0 = ys[base].val := by simp [pointsFrom, List.getElem?_eq_getElem (show base < ys.length by omega)]
  have ey1 : pointsFrom ys base 1 = ys[base + 1].val := by simp [pointsFrom, List.getElem?_eq_getElem (show base + 1 < ys.length by omega)]
  have p0 := m4 0 (by omega)
  have p1 := m4 1 le_rfl
  rw [ex0, ey0] at p0
  rw [ex1, ey1] at p1
  have hlt := List.pairwise_iff_getElem.1 hs base (base + 1) (by omega) hj (by omega)
  have hd : 0 < xs[base + 1].val - xs[base].val := sub_pos.2 hlt
  obtain ⟨a, b, rfl⟩ := exists_eq_X_add_C_of_natDegree_le_one m2
  simp only [eval_add, eval_mul, eval_C, eval_X] at p0 p1 m8
  have e1 : a * x.val + b = ys[base].val + (ys[base + 1].val - ys[base].val) * ((x.val - xs[base].val) / (xs[base + 1].val - xs[base].val)) := by
    rw [← p0, ← p1]
    field_simp
    ring
  rw [← e1]
  refine m8.trans (mul_le_mul_of_nonneg_left ?_ (by rw [growth_eq hu]; exact grow_nonneg (wider hf hu).nonneg _))
  have w0 : weight (pointsFrom xs base) (1 + 1) 0 x.val = (x.val - xs[base + 1].val) / (xs[base].val - xs[base + 1].val) := by
    unfold weight
    rw [show (Finset.range (1 + 1)).erase 0 = {1} by decide, Finset.prod_singleton, ex0, ex1]
  have w1 : weight (pointsFrom xs base) (1 + 1) 1 x.val = (x.val - xs[base].val) / (xs[base + 1].val - xs[base].val) := by
    unfold weight
    rw [show (Finset.range (1 + 1)).erase 1 = {0} by decide, Finset.prod_singleton, ex0, ex1]
  rw [Finset.sum_range_succ, Finset.sum_range_one, w0, w1, ey0, ey1, abs_div, abs_div, abs_sub_comm x.val, abs_sub_comm xs[base].val, abs_of_pos hd,
    abs_of_nonneg (sub_nonneg.2 hhi), abs_of_pos (sub_pos.2 hlo)]
  have k0 : 0 ≤ (xs[base + 1].val - x.val) / (xs[base + 1].val - xs[base].val) := div_nonneg (sub_nonneg.2 hhi) hd.le
  have k1 : 0 ≤ (x.val - xs[base].val) / (xs[base + 1].val - xs[base].val) := div_nonneg (sub_pos.2 hlo).le hd.le
  have k2 : (xs[base + 1].val - x.val) / (xs[base + 1].val - xs[base].val) + (x.val - xs[base].val) / (xs[base + 1].val - xs[base].val) = 1 := by
    field_simp
    ring
  calc _ ≤ B * ((xs[base + 1].val - x.val) / (xs[base + 1].val - xs[base].val)) + B * ((x.val - xs[base].val) / (xs[base + 1].val - xs[base].val)) :=
        add_le_add (mul_le_mul_of_nonneg_right h0 k0) (mul_le_mul_of_nonneg_right h1 k1)
    _ = B := by rw [← mul_add, k2, mul_one]

/-! ### At the points -/

omit [Field K] [IsStrictOrderedRing K] in
theorem lowerBound_first : (l : List (Fl rnd)) → (h : 0 < l.length) → lowerBound l l[0] = 0
  | a :: l, _ => by
    unfold lowerBound
    rw [List.getElem_cons_zero, List.takeWhile_cons_of_neg]
    · rfl
    · rw [decide_eq_true_eq]
      exact lt_irrefl a.val

omit [LinearOrder K] [IsStrictOrderedRing K] in
theorem zero_val : (0 : Fl rnd).val = 0 := rfl

theorem mul_zero' (hf : Format u rnd) (a : Fl rnd) : a * 0 = 0 := by
  apply Fl.ext
  rw [val_mul, zero_val, mul_zero, rnd_zero hf]

theorem zero_mul' (hf : Format u rnd) (a : Fl rnd) : 0 * a = 0 := by
  apply Fl.ext
  rw [val_mul, zero_val, zero_mul, rnd_zero hf]

omit [LinearOrder K] [IsStrictOrderedRing K] in
theorem fold_same (q : Fl rnd → Prop) [DecidablePred q] (f : Fl rnd → Fl rnd) (c : Fl rnd) :
    (l : List (Fl rnd)) → (∀ a ∈ l, q a → c * f a = c) → (s : Bool × Fl rnd) → s.2 = c →
    (l.foldl (fun s xi => if q xi then (true, s.2 * f xi) else s) s).2 = c
  | [], _, _, hs => hs
  | a :: l, h, s, hs => by
    rw [List.foldl_cons]
    apply fold_same q f c l fun b hb => h b (by simp [hb])
    split_ifs with ha
    · rw [hs]
      exact h a (by simp) ha
    · exact hs

theorem fold_zero (hf : Format u rnd) (q : Fl rnd → Prop) [DecidablePred q] (f : Fl rnd → Fl rnd) (a : Fl rnd) (hq : q a) (h0 : f a = 0) :
    (l : List (Fl rnd)) → a ∈ l → (s : Bool × Fl rnd) → (l.foldl (fun s xi => if q xi then (true, s.2 * f xi) else s) s).2 = 0
  | b :: l, h, s => by
    rw [List.foldl_cons]
    by_cases hb : a = b
    · subst hb
      rw [if_pos hq, h0, mul_zero' hf]
      exact fold_same q f 0 l (fun b _ _ => zero_mul' hf _) _ rfl
    · exact fold_zero hf q f a hq h0 l (by simpa [hb] using h) _

theorem weigh_node (hf : Format u rnd) (h1 : rnd 1 = 1) (ys : List (Fl rnd)) (hy : ∀ y ∈ ys, rnd y.val = y.val) (base i : Nat) (c : Nat → Fl rnd)
    (hc : ∀ j, c j = if j = i then 1 else 0) : (n k : Nat) → base + k + n ≤ ys.length → (val : Fl rnd) →
    val = (if i < k then ys.getD (base + i) 0 else 0) →
    weigh ys ((List.range' k n).map c) ((base + k : Nat) : Int) val = .ok (if i < k + n then ys.getD (base + i) 0 else 0)
  | 0, k, _, val, hv => by simp [weigh, hv]
  | n + 1, k, hl, val, hv => by
    rw [List.range'_succ, List.map_cons]
    unfold weigh
    rw [rd_ok (show base + k < ys.length by omega), Outcome.ok_bind]
    have e1 : ys.getD (base + k) 0 = ys[base + k] := by simp [List.getElem?_eq_getElem (show base + k < ys.length by omega)]
    have key : val + ys[base + k] * c k = if i < k + 1 then ys.getD (base + i) 0 else 0 := by
      rw [hc, hv]
      apply Fl.ext
      rcases Nat.lt_trichotomy i k with h | h | h
      · rw [if_pos h, if_neg (by omega), if_pos (by omega), mul_zero' hf, val_add, zero_val, add_zero]
        have e2 : ys.getD (base + i) 0 = ys[base + i] := by simp [List.getElem?_eq_getElem (show base + i < ys.length by omega)]
        rw [e2]
        exact hy _ (List.getElem_mem _)
      · subst h
        rw [if_neg (lt_irrefl _), if_pos rfl, if_pos (by omega), e1, val_add, val_mul, val_one, mul_one, zero_val, zero_add,
          hy _ (List.getElem_mem _), hy _ (List.getElem_mem _)]
      · rw [if_neg (by omega), if_neg (by omega), if_neg (by omega), mul_zero' hf, val_add, zero_val, add_zero, rnd_zero hf]
    rw [key]
    have := weigh_node hf h1 ys hy base i c hc n (k + 1) (by omega) _ rfl
    rw [show k + (n + 1) = k + 1 + n by ring, ← this]
    congr 1

/-- C107. At a point of the table the value computed is the value of the table: no rounding error is left. The values of the table and 1 are numbers of
the format. -/
theorem _root_.SpatialOps.C107_exact_at_points (hf : Format u rnd) (hu : u < 1) (hone : rnd 1 = 1) (xs ys : List (Fl rnd))
    (hs : xs.Pairwise (fun p q => p.val < q.val)) (hl : xs.length = ys.length) (hy : ∀ y ∈ ys, rnd y.val = y.val) (order : Nat) (h1 : 1 ≤ order)
    (hn : order < xs.length) (d : Int) (i : Nat) (hi : i < xs.length) :
    ∃ t, Table.make xs ys d = .ok t ∧ t.interpolate xs[i] order = .ok ys[i] := by
  refine ⟨⟨xs, ys, d⟩, ?_, ?_⟩
  · unfold Table.make
    rw [Outcome.assert_true hl]
    rfl
  obtain ⟨b, base, g1, w, g5, g6⟩ := window_ok hs xs[i] order h1 hn
  have hfit := w.fits
  -- the point is one of the window
  have hwin : base ≤ i ∧ i < base + (order + 1) := by
    have hb : below xs xs[i] = (i : Int) - 1 ∨ (below xs xs[i] = 0 ∧ i = 0) := by
      rcases Nat.eq_zero_or_pos i with h0 | h0
      · right
        subst h0
        refine ⟨?_, rfl⟩
        unfold below
        rw [lowerBound_first xs hi]
        simp
      · left
        obtain ⟨j, rfl⟩ : ∃ j, i = j + 1 := ⟨i - 1, by omega⟩
        rw [below_eq hs hi (List.pairwise_iff_getElem.1 hs j (j + 1) (by omega) hi (by omega)) le_rfl]
        push_cast
        omega
    rcases hb with hb | ⟨hb, h0⟩
    · rw [hb] at g5 g6
      have := g6 (by omega)
      omega
    · rw [hb] at g5
      omega
  obtain ⟨k, rfl⟩ : ∃ k, i = base + k := ⟨i - base, by omega⟩
  have ek : xs[base + k] = xs.getD (base + k) 0 := by simp [List.getElem?_eq_getElem hi]
  have ey : ys[base + k] = ys.getD (base + k) 0 := by simp [List.getElem?_eq_getElem (show base + k < ys.length by omega)]
  have hc : ∀ j, j < order + 1 → interpCoef xs xs[base + k] b (xs.getD (base + j) 0) = .ok (true, if j = k then 1 else 0) := by
    intro j hj
    obtain ⟨c, c1, -⟩ := interp_err hf hu w xs[base + k] j hj
    rw [c1]
    congr 2
    unfold interpCoef at c1
    rw [w.start, w.count, forPts_ok _ _ _ w.fits, range_window w.fits] at c1
    injection c1 with c1
    have c2 : _ = c := congrArg Prod.snd c1
    rw [← c2]
    split_ifs with hjk
    · subst hjk
      apply fold_same
      · intro a ha hne
        apply Fl.ext
        rw [← ek, val_mul, val_div, val_sub]
        have hd : xs[base + j].val - a.val ≠ 0 := by
          intro h
          exact hne (by rw [← ek]; exact Fl.ext (sub_eq_zero.1 h))
        rw [div_self (rnd_ne hf hu hd), hone, val_one, mul_one, hone]
      · rfl
    · refine fold_zero hf _ _ (xs.getD (base + k) 0) ?_ ?_ _ ?_ _
      · intro h
        exact hjk ((w.inj hj (by omega)).1 h)
      · apply Fl.ext
        rw [← ek, val_div, val_sub, sub_self, rnd_zero hf, zero_div, rnd_zero hf]
        rfl
      · exact List.mem_map.2 ⟨k, List.mem_range.2 (by omega), rfl⟩
  unfold Table.interpolate interpCoefs
  dsimp only
  rw [g1, Outcome.ok_bind, w.start, show ((order : Int) + 1).toNat = order + 1 by omega]
  rw [show (0 : Int) = ((0 : Nat) : Int) from rfl, kLoop_idx _ (fun j => if j = k then 1 else 0) base (order + 1) 0 (by omega) (fun j _ hj => hc j (by omega)),
    Outcome.ok_bind]
  have := weigh_node hf hone ys hy base k (fun j => if j = k then 1 else 0) (fun _ => rfl) (order + 1) 0 (by omega) 0 (by rw [if_neg (by omega)])
  rw [if_pos (by omega), ← ey] at this
  rw [← this]
  rfl

/-- C107. The value is not exact between the points, not even for constants: linear interpolation in `double` between the points 0 and 5 with value 3 gives
`3 + 2^-51` at 1. -/
theorem _root_.SpatialOps.C107_constant_not_kept [FloorRing K] (d : Int) :
    (⟨[⟨0⟩, ⟨5⟩], [⟨3⟩, ⟨3⟩], d⟩ : Table (Fl (K := K) (roundEven 53))).interpolate ⟨1⟩ 1 = .ok ⟨3 + 2 ^ (-51 : Int)⟩ := by
  have r1 : roundEven 53 (1 - 5 : K) = -4 := by
    rw [show (1 - 5 : K) = -((2 : K) ^ (2 : Int)) by norm_num, roundEven_neg, roundEven_two_pow (by norm_num)]
    norm_num
  have r2 : roundEven 53 (0 - 5 : K) = -5 := by
    rw [show (0 - 5 : K) = -5 by norm_num, roundEven_neg, roundEven_kept (by norm_num) ⟨5, 0, by norm_num, by norm_num⟩]
  have r3 : roundEven 53 (1 - 0 : K) = 1 := by
    rw [show (1 - 0 : K) = (2 : K) ^ (0 : Int) by norm_num, roundEven_two_pow (by norm_num)]
    norm_num
  have r4 : roundEven 53 (5 - 0 : K) = 5 := by
    rw [show (5 - 0 : K) = 5 by norm_num, roundEven_kept (by norm_num) ⟨5, 0, by norm_num, by norm_num⟩]
  have r5 : roundEven 53 (-4 / -5 : K) = 3602879701896397 * 2 ^ (-52 : Int) := by
    rw [roundEven_unit 53 (j := -53) (by norm_num [abs_of_pos]) (by norm_num [abs_of_pos]),
      nearestEven_of_lt (M := 7205759403792794) (by norm_num [abs_of_pos, abs_of_neg])]
    norm_num
  have r6 : roundEven 53 (1 / 5 : K) = 3602879701896397 * 2 ^ (-54 : Int) := by
    rw [roundEven_unit 53 (j := -55) (by norm_num [abs_of_pos]) (by norm_num [abs_of_pos]),
      nearestEven_of_lt (M := 7205759403792794) (by norm_num [abs_of_pos, abs_of_neg])]
    norm_num
  have r7 : roundEven 53 (3602879701896397 * 2 ^ (-52 : Int) : K) = 3602879701896397 * 2 ^ (-52 : Int) :=
    roundEven_kept (by norm_num) ⟨3602879701896397, -52, by norm_num, by norm_num⟩
  have r8 : roundEven 53 (3602879701896397 * 2 ^ (-54 : Int) : K) = 3602879701896397 * 2 ^ (-54 : Int) :=
    roundEven_kept (by norm_num) ⟨3602879701896397, -54, by norm_num, by norm_num⟩
  have r9 : roundEven 53 (3 * (3602879701896397 * 2 ^ (-52 : Int)) : K) = 5404319552844596 * 2 ^ (-51 : Int) := by
    rw [roundEven_unit 53 (j := -51) (by norm_num [abs_of_pos]) (by norm_num [abs_of_pos]),
      nearestEven_of_even (M := 5404319552844596) (by norm_num) (by norm_num [abs_of_pos, abs_of_neg])]
    norm_num
  have r10 : roundEven 53 (3 * (3602879701896397 * 2 ^ (-54 : Int)) : K) = 5404319552844596 * 2 ^ (-53 : Int) := by
    rw [roundEven_unit 53 (j := -53) (by norm_num [abs_of_pos]) (by norm_num [abs_of_pos]),
      nearestEven_of_even (M := 5404319552844596) (by norm_num) (by norm_num [abs_of_pos, abs_of_neg])]
    norm_num
  have r11 : roundEven 53 (5404319552844596 * 2 ^ (-51 : Int) : K) = 5404319552844596 * 2 ^ (-51 : Int) :=
    roundEven_kept (by norm_num) ⟨5404319552844596, -51, by norm_num, by norm_num⟩
  have r12 : roundEven 53 (5404319552844596 * 2 ^ (-51 : Int) + 5404319552844596 * 2 ^ (-53 : Int) : K) = 3 + 2 ^ (-51 : Int) := by
    rw [roundEven_kept (by norm_num) ⟨6755399441055745, -51, by norm_num, by norm_num⟩]
    norm_num
  have hb : getBounds ([⟨0⟩, ⟨5⟩] : List (Fl (K := K) (roundEven 53))) ⟨1⟩ 1 = .ok ⟨0, 1, 1⟩ := by
    have : lowerBound ([⟨0⟩, ⟨5⟩] : List (Fl (K := K) (roundEven 53))) ⟨1⟩ = 1 := by
      unfold lowerBound
      rw [List.takeWhile_cons_of_pos (by rw [decide_eq_true_eq]; exact zero_lt_one (α := K)),
        List.takeWhile_cons_of_neg (by rw [decide_eq_true_eq]; exact not_lt.2 (show (1 : K) ≤ 5 by norm_num))]
      rfl
    unfold getBounds below
    rw [this]
    rfl
  have n05 : (⟨0⟩ : Fl (K := K) (roundEven 53)) ≠ ⟨5⟩ := fun h => by
    have := congrArg Fl.val h
    norm_num at this
  have d0 : rd ([⟨0⟩, ⟨5⟩] : List (Fl (K := K) (roundEven 53))) 0 = .ok ⟨0⟩ := rd_ok (i := 0) (by simp)
  have d1 : rd ([⟨0⟩, ⟨5⟩] : List (Fl (K := K) (roundEven 53))) 1 = .ok ⟨5⟩ := rd_ok (i := 1) (by simp)
  have y0 : rd ([⟨3⟩, ⟨3⟩] : List (Fl (K := K) (roundEven 53))) 0 = .ok ⟨3⟩ := rd_ok (i := 0) (by simp)
  have y1 : rd ([⟨3⟩, ⟨3⟩] : List (Fl (K := K) (roundEven 53))) 1 = .ok ⟨3⟩ := rd_ok (i := 1) (by simp)
  have hc : (⟨0, 1, 1⟩ : Bounds).count = 2 := rfl
  have c0 : (1 : Fl (K := K) (roundEven 53)) * ((⟨1⟩ - ⟨5⟩) / (⟨0⟩ - ⟨5⟩)) = ⟨3602879701896397 * 2 ^ (-52 : Int)⟩ := by
    apply Fl.ext
    rw [val_mul, val_div, val_sub, val_sub, val_one]
    dsimp only
    rw [r1, r2, r5, one_mul, r7]
  have c1 : (1 : Fl (K := K) (roundEven 53)) * ((⟨1⟩ - ⟨0⟩) / (⟨5⟩ - ⟨0⟩)) = ⟨3602879701896397 * 2 ^ (-54 : Int)⟩ := by
    apply Fl.ext
    rw [val_mul, val_div, val_sub, val_sub, val_one]
    dsimp only
    rw [r3, r4, r6, one_mul, r8]
  unfold Table.interpolate interpCoefs
  dsimp only
  rw [hb, Outcome.ok_bind]
  simp only [show ((1 : Int) + 1).toNat = 2 from rfl, kLoop, interpCoef, forPts, hc, d0, d1, Outcome.ok_bind, Outcome.pure_eq, Int.zero_add, Int.add_zero,
    show (0 : Int) - 1 + 1 = 0 from rfl, ne_eq, not_true_eq_false, if_false, if_true, n05, n05.symm, not_false_eq_true, c0, c1, combine, weigh, y0, y1]
  congr 1
  apply Fl.ext
  rw [val_add, val_add, val_mul, val_mul, zero_val]
  dsimp only
  rw [r9, r10, zero_add, r11, r12]

end

/-! ## Examples -/

namespace LagrangeRoundEx

/-- `double`, with unbounded exponents. -/
abbrev R : ℚ → ℚ := roundEven 53

def xs : List (Fl R) := [⟨0⟩, ⟨1⟩, ⟨3⟩, ⟨7⟩]
def ys : List (Fl R) := [⟨1⟩, ⟨-2⟩, ⟨1 / 2⟩, ⟨3⟩]

end LagrangeRoundEx

open LagrangeRoundEx in
/-- Example: a table that meets the conditions of `C107_close_to_polynomial` and `C107_exact_at_points`, in `double`. -/
example : Format ((2 : ℚ) ^ (-53 : Int)) R ∧ (2 : ℚ) ^ (-53 : Int) < 1 ∧ R 1 = 1 ∧ xs.Pairwise (fun p q => p.val < q.val) ∧ xs.length = ys.length ∧
    (∀ y ∈ ys, R y.val = y.val) ∧ 3 < xs.length := by
  refine ⟨C77_nearest_even_is_format 53 (by norm_num), by norm_num, ?_, ?_, rfl, ?_, by decide⟩
  · exact roundEven_kept (by norm_num) ⟨1, 0, by norm_num, by norm_num⟩
  · simp [xs]
    norm_num
  · intro y hy
    simp only [ys, List.mem_cons, List.not_mem_nil, or_false] at hy
    rcases hy with rfl | rfl | rfl | rfl
    · exact roundEven_kept (by norm_num) ⟨1, 0, by norm_num, by norm_num⟩
    · exact roundEven_kept (by norm_num) ⟨-2, 0, by norm_num, by norm_num⟩
    · exact roundEven_kept (by norm_num) ⟨1, -1, by norm_num, by norm_num⟩
    · exact roundEven_kept (by norm_num) ⟨3, 0, by norm_num, by norm_num⟩

open LagrangeRoundEx in
/-- Example: a position between the second and the third point, for `C107_linear`. -/
example : xs[1].val < (⟨2⟩ : Fl R).val ∧ (⟨2⟩ : Fl R).val ≤ xs[2].val ∧ |ys[1].val| ≤ 2 ∧ |ys[2].val| ≤ 2 := by
  refine ⟨by norm_num [xs], by norm_num [xs], by norm_num [ys], by norm_num [ys, abs_of_pos]⟩

/-- Example: the bound of `C107_linear` is not the trivial one. -/
example : growth ((2 : ℚ) ^ (-53 : Int)) 7 < 1 / 10 ^ 15 := by
  unfold growth
  norm_num

end LagrangeRound
end SpatialOps
