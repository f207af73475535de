import Verif.Lagrange.Model
import Mathlib.LinearAlgebra.Lagrange
import Mathlib.Algebra.BigOperators.Group.List.Lemmas

/-!
# Lemmas: Lagrange interpolation
-/

namespace SpatialOps
namespace Lagr

open Polynomial

section
variable {K : Type} [Zero K] [Sub K] [LT K] [DecidableLT K] [Fabs K]

omit [Sub K] [LT K] [DecidableLT K] [Fabs K] in
theorem rd_ok {xs : List K} {i : Nat} (h : i < xs.length) : rd xs (i : Int) = .ok xs[i] := by
  unfold rd
  rw [if_pos ⟨by omega, by omega⟩]
  simp [List.getElem?_eq_getElem h]

omit [Sub K] [LT K] [DecidableLT K] [Fabs K] in
theorem forPts_ok {S : Type} {xs : List K} (body : S → K → S) : (n i : Nat) → i + n ≤ xs.length → (s : S) →
    forPts xs body n (i : Int) s = .ok (((xs.drop i).take n).foldl body s)
  | 0, i, _, s => by simp [forPts]
  | n + 1, i, h, s => by
    unfold forPts
    rw [rd_ok (by omega), Outcome.ok_bind]
    have := forPts_ok (xs := xs) body n (i + 1) (by omega) (body s xs[i])
    rw [show ((i : Int) + 1) = ((i + 1 : Nat) : Int) by push_cast; rfl, this,
      List.drop_eq_getElem_cons (show i < xs.length by omega), List.take_succ_cons, List.foldl_cons]

omit [Sub K] [LT K] [DecidableLT K] [Fabs K] in
theorem forPtsM_ok {S : Type} {xs : List K} (body : S → K → Outcome S) (g : S → K → S) : (n i : Nat) → i + n ≤ xs.length →
    (∀ s, ∀ a ∈ (xs.drop i).take n, body s a = .ok (g s a)) → (s : S) →
    forPtsM xs body n (i : Int) s = .ok (((xs.drop i).take n).foldl g s)
  | 0, i, _, _, s => by simp [forPtsM]
  | n + 1, i, h, hb, s => by
    rw [List.drop_eq_getElem_cons (show i < xs.length by omega), List.take_succ_cons] at hb ⊢
    unfold forPtsM
    rw [rd_ok (by omega), Outcome.ok_bind, hb _ _ (by simp), Outcome.ok_bind]
    have := forPtsM_ok (xs := xs) body g n (i + 1) (by omega) (fun s a ha => hb s a (by simp [ha])) (g s xs[i])
    rw [show ((i : Int) + 1) = ((i + 1 : Nat) : Int) by push_cast; rfl, this, List.foldl_cons]

omit [Sub K] [LT K] [DecidableLT K] [Fabs K] in
theorem kLoop_ok {xs : List K} (coef : K → Outcome (Bool × K)) (c : K → K) (base : Nat) : (n k : Nat) →
    base + k + n ≤ xs.length → (∀ a ∈ (xs.drop (base + k)).take n, coef a = .ok (true, c a)) →
    kLoop xs coef base n (k : Int) = .ok (((xs.drop (base + k)).take n).map c, (List.range n).map fun j => ((base + k + j : Nat) : Int))
  | 0, k, _, _ => by simp [kLoop]
  | n + 1, k, h, hb => by
    rw [List.drop_eq_getElem_cons (show base + k < xs.length by omega), List.take_succ_cons] at hb ⊢
    unfold kLoop
    rw [show ((base : Int) + k) = ((base + k : Nat) : Int) by push_cast; rfl, rd_ok (by omega), Outcome.ok_bind,
      hb _ (by simp), Outcome.ok_bind]
    have := kLoop_ok (xs := xs) coef c base n (k + 1) (by omega) (fun a ha => hb a (List.mem_cons_of_mem _ ha))
    rw [show ((k : Int) + 1) = ((k + 1 : Nat) : Int) by push_cast; rfl, this, Outcome.ok_bind]
    simp only [if_true, Outcome.pure_eq, List.map_cons, List.range_succ_eq_map, List.map_map]
    congr 2
    congr 1
    · push_cast; omega
    · apply List.map_congr_left
      intro j _
      simp only [Function.comp, Nat.succ_eq_add_one]
      push_cast
      omega

/-! ## The window -/

theorem share_ok (xs : List K) (x : K) (order : Int) (h1 : 1 ≤ order) (ilo : Int) (h0 : 0 ≤ ilo) :
    ∃ n, share xs x order ilo = .ok n ∧ n.1 + n.2 = order + 1 ∧ 1 ≤ n.1 ∧ 1 ≤ n.2 := by
  unfold share
  dsimp only
  rw [Int.tdiv_eq_ediv_of_nonneg (by omega), Int.tmod_eq_emod_of_nonneg (by omega)]
  by_cases hm : (order + 1) % 2 ≠ 0
  · rw [if_pos hm]
    by_cases hn : ilo + 1 ≥ (xs.length : Int)
    · rw [if_pos hn]
      exact ⟨_, rfl, by dsimp only; omega, by dsimp only; omega, by dsimp only; omega⟩
    · rw [if_neg hn]
      obtain ⟨i, rfl⟩ := Int.eq_ofNat_of_zero_le h0
      rw [rd_ok (by omega), Outcome.ok_bind,
        show ((i : Int) + 1) = ((i + 1 : Nat) : Int) by push_cast; rfl, rd_ok (by omega), Outcome.ok_bind]
      split_ifs
      · exact ⟨_, rfl, by dsimp only; omega, by dsimp only; omega, by dsimp only; omega⟩
      · exact ⟨_, rfl, by dsimp only; omega, by dsimp only; omega, by dsimp only; omega⟩
  · rw [if_neg hm]
    exact ⟨_, rfl, by dsimp only; omega, by dsimp only; omega, by dsimp only; omega⟩

omit [Zero K] [Sub K] [Fabs K] in
theorem below_nonneg (xs : List K) (x : K) : 0 ≤ below xs x := by
  unfold below; dsimp only; split_ifs <;> omega

omit [Zero K] [Sub K] [Fabs K] in
theorem below_lt (xs : List K) (x : K) (h : 0 < xs.length) : below xs x < xs.length := by
  have : lowerBound xs x ≤ xs.length := by
    unfold lowerBound
    exact (List.takeWhile_prefix _).length_le
  unfold below
  dsimp only
  split_ifs <;> omega

/-- The window of a table that is long enough: `order + 1` points of the table, among them the
point below `x` and the next one. -/
theorem getBounds_ok (xs : List K) (x : K) (order : Nat) (h1 : 1 ≤ order) (hn : order < xs.length) :
    ∃ (b : Bounds) (base : Nat), getBounds xs x order = .ok b ∧ b.ilo - b.nlo + 1 = base ∧ b.count = order + 1 ∧
      base + (order + 1) ≤ xs.length ∧ (base : Int) ≤ below xs x ∧
      (below xs x + 1 < xs.length → below xs x + 1 < base + (order + 1)) := by
  have h0 := below_nonneg xs x
  have hl := below_lt xs x (by omega)
  obtain ⟨n, s1, s2, s3, s4⟩ := share_ok xs x order (by omega) _ h0
  have key : ∃ (base : Nat), below xs x - (adjust xs.length (below xs x) n).1 + 1 = base ∧
      below xs x + (adjust xs.length (below xs x) n).2 + 1 = base + (order + 1) ∧
      base + (order + 1) ≤ xs.length ∧ (base : Int) ≤ below xs x ∧
      (below xs x + 1 < xs.length → below xs x + 1 < base + (order + 1)) := by
    refine ⟨(below xs x - (adjust xs.length (below xs x) n).1 + 1).toNat, ?_⟩
    unfold adjust
    dsimp only
    generalize below xs x = il at *
    split_ifs <;> omega
  obtain ⟨base, k1, k2, k3⟩ := key
  refine ⟨⟨below xs x, (adjust xs.length (below xs x) n).1, (adjust xs.length (below xs x) n).2⟩, base, ?_, k1, ?_, k3⟩
  · unfold getBounds
    dsimp only
    rw [s1, Outcome.ok_bind]
    rfl
  · unfold Bounds.count
    dsimp only
    omega

/-- With too few points the window starts before the table. -/
theorem getBounds_short (xs : List K) (x : K) (order : Nat) (h1 : 1 ≤ order) (hn : xs.length ≤ order) :
    ∃ b, getBounds xs x order = .ok b ∧ b.ilo - b.nlo + 1 < 0 := by
  have h0 := below_nonneg xs x
  obtain ⟨n, s1, s2, s3, s4⟩ := share_ok xs x order (by omega) _ h0
  refine ⟨⟨below xs x, (adjust xs.length (below xs x) n).1, (adjust xs.length (below xs x) n).2⟩, ?_, ?_⟩
  · unfold getBounds
    dsimp only
    rw [s1, Outcome.ok_bind]
    rfl
  · unfold adjust
    dsimp only
    generalize below xs x = il at *
    split_ifs <;> omega

/-- A second element in a list without repetitions. -/
theorem other_mem {K : Type} [DecidableEq K] {w : List K} (hw : w.Nodup) (h2 : 2 ≤ w.length) (a : K) : ∃ b ∈ w, b ≠ a := by
  match w, h2 with
  | b :: c :: _, _ =>
    by_cases h : b = a
    · refine ⟨c, by simp, ?_⟩
      rintro rfl
      rw [h] at hw
      simp at hw
    · exact ⟨b, by simp, h⟩

/-- A third one. -/
theorem other2_mem {K : Type} [DecidableEq K] {w : List K} (hw : w.Nodup) (h2 : 3 ≤ w.length) (a c : K) : ∃ b ∈ w, ¬ (b = a ∨ b = c) := by
  have h : (w.toFinset.erase a).erase c ≠ ∅ := by
    intro h
    have h1 := congrArg Finset.card h
    have e1 := Finset.pred_card_le_card_erase (s := w.toFinset) (a := a)
    have e2 := Finset.pred_card_le_card_erase (s := w.toFinset.erase a) (a := c)
    rw [List.toFinset_card_of_nodup hw] at e1
    simp only [Finset.card_empty] at h1
    omega
  obtain ⟨b, hb⟩ := Finset.nonempty_iff_ne_empty.2 h
  simp at hb
  exact ⟨b, hb.2.2, by tauto⟩

end

section
variable {K : Type} [Field K] [LinearOrder K]

omit [LinearOrder K] in
theorem weigh_ok {ys : List K} : (cs : List K) → (i : Nat) → i + cs.length ≤ ys.length → (val : K) →
    weigh ys cs (i : Int) val = .ok (val + (List.zipWith (· * ·) (ys.drop i) cs).sum)
  | [], i, _, val => by simp [weigh]
  | c :: cs, i, h, val => by
    simp only [List.length_cons] at h
    unfold weigh
    rw [rd_ok (by omega), Outcome.ok_bind]
    have := weigh_ok (ys := ys) cs (i + 1) (by omega) (val + ys[i] * c)
    rw [show ((i : Int) + 1) = ((i + 1 : Nat) : Int) by push_cast; rfl, this,
      List.drop_eq_getElem_cons (show i < ys.length by omega)]
    simp only [List.zipWith_cons_cons, List.sum_cons, add_assoc]

/-! ## Products and sums -/

omit [LinearOrder K] in
theorem foldl_prod [DecidableEq K] (p : K → Prop) [DecidablePred p] (g : K → K) : (w : List K) → (h : Bool) → (a : K) →
    w.foldl (fun s xi => if p xi then (true, s.2 * g xi) else s) (h, a) =
      (h || w.any (fun b => decide (p b)), a * ((w.filter (fun b => decide (p b))).map g).prod)
  | [], h, a => by simp
  | b :: w, h, a => by
    rw [List.foldl_cons]
    by_cases hb : p b
    · rw [if_pos hb, foldl_prod p g w true (a * g b)]
      simp [hb, mul_assoc]
    · rw [if_neg hb, foldl_prod p g w h a]
      simp [hb]

theorem prod_erase {w : List K} (hw : w.Nodup) (g : K → K) (a : K) :
    ((w.filter (fun b => decide (b ≠ a))).map g).prod = ∏ b ∈ w.toFinset.erase a, g b := by
  rw [← List.prod_toFinset _ (hw.filter _), List.toFinset_filter]
  congr 1
  ext b
  simp [and_comm]

theorem prod_erase2 {w : List K} (hw : w.Nodup) (g : K → K) (a c : K) :
    ((w.filter (fun b => decide (¬ (b = a ∨ b = c)))).map g).prod = ∏ b ∈ (w.toFinset.erase a).erase c, g b := by
  rw [← List.prod_toFinset _ (hw.filter _), List.toFinset_filter]
  congr 1
  ext b
  simp
  tauto

/-- The coefficient of the derivative. -/
theorem derivative_basis (s : Finset K) (a x : K) :
    (derivative (Lagrange.basis s id a)).eval x =
      (∑ c ∈ s.erase a, ∏ b ∈ (s.erase a).erase c, (x - b)) / ∏ b ∈ s.erase a, (a - b) := by
  have e : Lagrange.basis s id a = C (∏ b ∈ s.erase a, (a - b)⁻¹) * Lagrange.nodal (s.erase a) id := by
    unfold Lagrange.basis Lagrange.basisDivisor Lagrange.nodal
    rw [Finset.prod_mul_distrib, map_prod]
    simp
  rw [e, derivative_C_mul, Lagrange.derivative_nodal, eval_C_mul, eval_finsetSum, Finset.prod_inv_distrib,
    div_eq_inv_mul]
  congr 1
  apply Finset.sum_congr rfl
  intro c _
  rw [Lagrange.eval_nodal]
  rfl

end

end Lagr
end SpatialOps
