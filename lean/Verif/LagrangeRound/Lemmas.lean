import Verif.LagrangeRound.Spec
import Verif.Lagrange.Lemmas
import Verif.Round.Lemmas
import Verif.Round.Ops

/-!
# Lemmas: Lagrange interpolation in floating point
-/

namespace SpatialOps
namespace LagrangeRound

open Round Lagr

section
variable {K : Type} [Field K] [LinearOrder K] [IsStrictOrderedRing K] {u : K} {rnd : K → K}

omit [LinearOrder K] [IsStrictOrderedRing K] in
theorem val_sub (a b : Fl rnd) : (a - b).val = rnd (a.val - b.val) := rfl

/-! ## Errors with divisions -/

theorem wider (hf : Format u rnd) (h1 : u < 1) : Format (u / (1 - u)) rnd where
  nonneg := div_nonneg hf.nonneg (sub_nonneg.2 h1.le)
  close x := (hf.close x).trans (mul_le_mul_of_nonneg_right (by
    rw [le_div_iff₀ (sub_pos.2 h1)]
    nlinarith [hf.nonneg, mul_nonneg hf.nonneg hf.nonneg]) (abs_nonneg x))
  half := hf.half

theorem growth_eq (h1 : u < 1) (k : Nat) : growth u k = grow (u / (1 - u)) k := by
  unfold growth grow
  have : (1 - u) ≠ 0 := (sub_pos.2 h1).ne'
  congr 2
  field_simp
  ring

theorem rnd_zero (hf : Format u rnd) : rnd 0 = 0 := by
  have := hf.close 0
  simpa using this

theorem rnd_ne (hf : Format u rnd) (h1 : u < 1) {z : K} (hz : z ≠ 0) : rnd z ≠ 0 := by
  intro h
  have := hf.close z
  rw [h, zero_sub, abs_neg] at this
  nlinarith [abs_pos.2 hz]

/-- Dividing by a rounded number. -/
theorem inv_rounded (hf : Format u rnd) (h1 : u < 1) {k : Nat} {z Z S : K} (h : Err (u / (1 - u)) k z⁻¹ Z S) :
    Err (u / (1 - u)) (k + 1) (rnd z)⁻¹ Z S := by
  have hv := (wider hf h1).nonneg
  by_cases hz : z = 0
  · subst hz
    rw [rnd_zero hf]
    exact h.mono hv (Nat.le_succ k)
  have hr := rnd_ne hf h1 hz
  have hq : Err (u / (1 - u)) 1 (z * (rnd z)⁻¹) 1 1 := by
    refine ⟨?_, by simp⟩
    have hc := hf.close z
    have e : z * (rnd z)⁻¹ - 1 = -((rnd z - z) * (rnd z)⁻¹) := by
      field_simp
      ring
    have hb : (1 - u) * |z| ≤ |rnd z| := by
      have := abs_sub_abs_le_abs_sub z (rnd z)
      rw [abs_sub_comm] at this
      linarith
    have hp := abs_pos.2 hr
    rw [e, abs_neg, abs_mul, abs_inv, mul_one]
    have : grow (u / (1 - u)) 1 = u / (1 - u) := by unfold grow; ring
    rw [this, ← div_eq_mul_inv, div_le_div_iff₀ hp (sub_pos.2 h1)]
    have h2 : |rnd z - z| * (1 - u) ≤ u * |z| * (1 - u) := mul_le_mul_of_nonneg_right hc (sub_nonneg.2 h1.le)
    have h3 : u * ((1 - u) * |z|) ≤ u * |rnd z| := mul_le_mul_of_nonneg_left hb hf.nonneg
    linarith
  have := h.mul hv hq
  rw [mul_one, mul_one, ← mul_assoc, inv_mul_cancel₀ hz, one_mul] at this
  exact this

/-! ## Loops over the points -/

omit [LinearOrder K] [IsStrictOrderedRing K] in
theorem range_window {xs : List (Fl rnd)} {base n : Nat} (h : base + n ≤ xs.length) :
    (xs.drop base).take n = (List.range n).map fun i => xs.getD (base + i) 0 := by
  apply List.ext_getElem
  · simp; omega
  · intro i h1 h2
    simp at h1 h2
    simp [List.getElem?_eq_getElem (show base + i < xs.length by omega)]

/-- A product over some of the points, or its inverse. -/
theorem fold_prod (hf : Format u rnd) (φ : K → K) (hm : ∀ a b, φ (a * b) = φ a * φ b)
    (hr : ∀ k z Z S, Err u k (φ z) Z S → Err u (k + 1) (φ (rnd z)) Z S)
    (W : Nat → Fl rnd) (q : Fl rnd → Prop) [DecidablePred q] (p : Nat → Prop) [DecidablePred p] (f : Fl rnd → Fl rnd) (F : Nat → K) (m : Nat) :
    (l : List Nat) → (∀ i ∈ l, q (W i) ↔ p i) → (∀ i ∈ l, p i → Err u m (φ (f (W i)).val) (F i) |F i|) →
    (s : Bool × Fl rnd) → (k : Nat) → (A S : K) → Err u k (φ s.2.val) A S →
    ((l.map W).foldl (fun s xi => if q xi then (true, s.2 * f xi) else s) s).1 = (s.1 || l.any fun i => decide (p i)) ∧
    Err u (k + (m + 1) * (l.filter fun i => decide (p i)).length)
      (φ ((l.map W).foldl (fun s xi => if q xi then (true, s.2 * f xi) else s) s).2.val)
      (A * ((l.filter fun i => decide (p i)).map F).prod) (S * ((l.filter fun i => decide (p i)).map fun i => |F i|).prod)
  | [], _, _, s, k, A, S, h => by simpa using h
  | i :: l, hq, he, s, k, A, S, h => by
    rw [List.map_cons, List.foldl_cons]
    by_cases hp : p i
    · rw [if_pos ((hq i (by simp)).2 hp)]
      have h1 : Err u (k + m + 1) (φ (s.2 * f (W i)).val) (A * F i) (S * |F i|) := by
        rw [val_mul]
        apply hr
        rw [hm]
        exact h.mul hf.nonneg (he i (by simp) hp)
      obtain ⟨r1, r2⟩ := fold_prod hf φ hm hr W q p f F m l (fun j hj => hq j (by simp [hj])) (fun j hj => he j (by simp [hj]))
        (true, s.2 * f (W i)) _ _ _ h1
      refine ⟨by rw [r1]; simp [hp], ?_⟩
      rw [List.filter_cons_of_pos (by simpa using hp), List.length_cons, List.map_cons, List.map_cons, List.prod_cons,
        List.prod_cons, ← mul_assoc, ← mul_assoc, show k + (m + 1) * ((l.filter fun i => decide (p i)).length + 1) =
          k + m + 1 + (m + 1) * (l.filter fun i => decide (p i)).length by ring]
      exact r2
    · rw [if_neg fun a => hp ((hq i (by simp)).1 a)]
      obtain ⟨r1, r2⟩ := fold_prod hf φ hm hr W q p f F m l (fun j hj => hq j (by simp [hj])) (fun j hj => he j (by simp [hj])) s k A S h
      refine ⟨by rw [r1]; simp [hp], ?_⟩
      rw [List.filter_cons_of_neg (by simpa using hp)]
      exact r2

/-- A sum over some of the points. -/
theorem fold_sum (hf : Format u rnd) (W : Nat → Fl rnd) (q : Fl rnd → Prop) [DecidablePred q] (p : Nat → Prop) [DecidablePred p]
    (f : Fl rnd → Fl rnd) (F T : Nat → K) (m : Nat) :
    (l : List Nat) → (∀ i ∈ l, q (W i) ↔ p i) → (∀ i ∈ l, ¬ p i → Err u m (f (W i)).val (F i) (T i)) →
    (s : Fl rnd) → (k : Nat) → m ≤ k → (A S : K) → Err u k s.val A S →
    Err u (k + (l.filter fun i => decide (¬ p i)).length) ((l.map W).foldl (fun s xi => if q xi then s else s + f xi) s).val
      (A + ((l.filter fun i => decide (¬ p i)).map F).sum) (S + ((l.filter fun i => decide (¬ p i)).map T).sum)
  | [], _, _, s, k, _, A, S, h => by simpa using h
  | i :: l, hq, he, s, k, hk, A, S, h => by
    rw [List.map_cons, List.foldl_cons]
    by_cases hp : p i
    · rw [if_pos ((hq i (by simp)).2 hp), List.filter_cons_of_neg (by simpa using hp)]
      exact fold_sum hf W q p f F T m l (fun j hj => hq j (by simp [hj])) (fun j hj => he j (by simp [hj])) s k hk A S h
    · rw [if_neg fun a => hp ((hq i (by simp)).1 a), List.filter_cons_of_pos (by simpa using hp), List.length_cons, List.map_cons,
        List.map_cons, List.sum_cons, List.sum_cons, ← add_assoc A, ← add_assoc S,
        show k + ((l.filter fun i => decide (¬ p i)).length + 1) = k + 1 + (l.filter fun i => decide (¬ p i)).length by ring]
      exact fold_sum hf W q p f F T m l (fun j hj => hq j (by simp [hj])) (fun j hj => he j (by simp [hj])) _ (k + 1) (by omega) _ _
        ((h.add ((he i (by simp) hp).mono hf.nonneg hk)).rounded hf)

theorem weigh_err (hf : Format u rnd) (ys : List (Fl rnd)) (base : Nat) (c : Nat → Fl rnd) (C T : Nat → K) (m : Nat) : (n k : Nat) →
    base + k + n ≤ ys.length → (∀ j, k ≤ j → j < k + n → Err u m (c j).val (C j) (T j)) →
    (val : Fl rnd) → (e : Nat) → m + 1 ≤ e → (A S : K) → Err u e val.val A S →
    ∃ r : Fl rnd, weigh ys ((List.range' k n).map c) ((base + k : Nat) : Int) val = .ok r ∧
      Err u (e + n) r.val (A + ((List.range' k n).map fun j => (ys.getD (base + j) 0).val * C j).sum)
        (S + ((List.range' k n).map fun j => |(ys.getD (base + j) 0).val| * T j).sum)
  | 0, k, _, _, val, e, _, A, S, h => by simpa [weigh] using h
  | n + 1, k, hl, hc, val, e, he, A, S, h => by
    rw [List.range'_succ, List.map_cons, List.map_cons, List.map_cons, List.sum_cons, List.sum_cons, ← add_assoc A, ← add_assoc S]
    unfold weigh
    rw [rd_ok (show base + k < ys.length by omega), Outcome.ok_bind]
    have e1 : ys.getD (base + k) 0 = ys[base + k] := by simp [List.getElem?_eq_getElem (show base + k < ys.length by omega)]
    rw [e1]
    have h1 : Err u (m + 1) (ys[base + k] * c k).val (ys[base + k].val * C k) (|ys[base + k].val| * T k) := by
      have := ((Err.self (u := u) ys[base + k].val).mul hf.nonneg (hc k le_rfl (by omega))).rounded hf
      rw [Nat.zero_add] at this
      exact this
    have h2 : Err u (e + 1) (val + ys[base + k] * c k).val (A + ys[base + k].val * C k) (S + |ys[base + k].val| * T k) :=
      (h.add (h1.mono hf.nonneg he)).rounded hf
    obtain ⟨r, r1, r2⟩ := weigh_err hf ys base c C T m n (k + 1) (by omega) (fun j a b => hc j (by omega) (by omega)) _ (e + 1) (by omega) _ _ h2
    refine ⟨r, ?_, ?_⟩
    · rw [← r1]
      congr 1
    · rw [show e + (n + 1) = e + 1 + n by ring]
      exact r2

omit [LinearOrder K] [IsStrictOrderedRing K] in
theorem kLoop_idx {xs : List (Fl rnd)} (coef : Fl rnd → Outcome (Bool × Fl rnd)) (c : Nat → Fl rnd) (base : Nat) : (n k : Nat) →
    base + k + n ≤ xs.length → (∀ j, k ≤ j → j < k + n → coef (xs.getD (base + j) 0) = .ok (true, c j)) →
    kLoop xs coef base n (k : Int) = .ok ((List.range' k n).map c, (List.range' k n).map fun j => ((base + j : Nat) : Int))
  | 0, k, _, _ => by simp [kLoop]
  | n + 1, k, h, hb => by
    have e1 : xs.getD (base + k) 0 = xs[base + k] := by simp [List.getElem?_eq_getElem (show base + k < xs.length by omega)]
    have h0 := hb k le_rfl (by omega)
    rw [e1] at h0
    unfold kLoop
    rw [show ((base : Int) + k) = ((base + k : Nat) : Int) by push_cast; rfl, rd_ok (by omega), Outcome.ok_bind, h0, Outcome.ok_bind]
    have := kLoop_idx (xs := xs) coef c base n (k + 1) (by omega) (fun j a b => hb j (by omega) (by omega))
    rw [show ((k : Int) + 1) = ((k + 1 : Nat) : Int) by push_cast; rfl, this, Outcome.ok_bind, List.range'_succ]
    simp only [if_true, Outcome.pure_eq, List.map_cons]
    congr 2
    congr 1
    push_cast
    omega

/-! ## Products over all points but one or two -/

omit [LinearOrder K] [IsStrictOrderedRing K] in
theorem filter_one (n j : Nat) (hj : j < n) (g : Nat → K) :
    (((List.range n).filter fun i => decide (i ≠ j)).map g).prod = ∏ i ∈ (Finset.range n).erase j, g i ∧
    (((List.range n).filter fun i => decide (i ≠ j)).map g).sum = ∑ i ∈ (Finset.range n).erase j, g i ∧
    ((List.range n).filter fun i => decide (i ≠ j)).length = n - 1 := by
  have hn : ((List.range n).filter fun i => decide (i ≠ j)).Nodup := List.nodup_range.filter _
  have e : ((List.range n).filter fun i => decide (i ≠ j)).toFinset = (Finset.range n).erase j := by
    ext i
    simp [and_comm]
  refine ⟨?_, ?_, ?_⟩
  · rw [← e, List.prod_toFinset _ hn]
  · rw [← e, List.sum_toFinset _ hn]
  · rw [← List.toFinset_card_of_nodup hn, e, Finset.card_erase_of_mem (by simpa using hj), Finset.card_range]

omit [LinearOrder K] [IsStrictOrderedRing K] in
theorem filter_two (n j k : Nat) (hj : j < n) (hk : k < n) (hkj : k ≠ j) (g : Nat → K) :
    (((List.range n).filter fun i => decide (¬ (i = j ∨ i = k))).map g).prod = ∏ i ∈ ((Finset.range n).erase j).erase k, g i ∧
    ((List.range n).filter fun i => decide (¬ (i = j ∨ i = k))).length = n - 2 := by
  have hn : ((List.range n).filter fun i => decide (¬ (i = j ∨ i = k))).Nodup := List.nodup_range.filter _
  have e : ((List.range n).filter fun i => decide (¬ (i = j ∨ i = k))).toFinset = ((Finset.range n).erase j).erase k := by
    ext i
    simp
    tauto
  refine ⟨?_, ?_⟩
  · rw [← e, List.prod_toFinset _ hn]
  · rw [← List.toFinset_card_of_nodup hn, e, Finset.card_erase_of_mem (by simp [hkj, hk]), Finset.card_erase_of_mem (by simpa using hj), Finset.card_range]
    omega

end
end LagrangeRound
end SpatialOps
