import Verif.Lagrange.Lemmas
import Mathlib.Algebra.Order.Field.Rat
import Mathlib.Tactic.NormNum
import Mathlib.Tactic.ComputeDegree

/-!
# Properties C41, C42: Lagrange interpolation and differentiation
-/

namespace SpatialOps
namespace Lagr

open Polynomial

section
variable {K : Type} [Field K] [LinearOrder K]

/-! ## What the two functions compute -/

omit [Field K] in
theorem window_nodup {xs : List K} (hs : xs.Pairwise (· < ·)) (i n : Nat) : ((xs.drop i).take n).Nodup := by
  have h1 : xs.Nodup := hs.imp fun h => ne_of_lt h
  exact (h1.sublist (List.drop_sublist i xs)).sublist (List.take_sublist n _)

theorem interpCoef_ok {xs : List K} (hs : xs.Pairwise (· < ·)) (x : K) {b : Bounds} {base : Nat} {order : Nat} (h1 : 1 ≤ order)
    (hb : b.ilo - b.nlo + 1 = base) (hc : b.count = order + 1) (hn : base + (order + 1) ≤ xs.length) (xk : K) :
    interpCoef xs x b xk = .ok (true, (Lagrange.basis ((xs.drop base).take (order + 1)).toFinset id xk).eval x) := by
  have hw := window_nodup hs base (order + 1)
  unfold interpCoef
  rw [hb, hc, forPts_ok _ _ _ hn]
  generalize hW : (xs.drop base).take (order + 1) = w at *
  have hl : w.length = order + 1 := by rw [← hW]; simp; omega
  have hp := foldl_prod (K := K) (fun xi => xi ≠ xk) (fun xi => (x - xi) / (xk - xi)) w false 1
  have e : (fun (s : Bool × K) xi => if xk ≠ xi then (true, s.2 * ((x - xi) / (xk - xi))) else s) =
      fun s xi => if xi ≠ xk then (true, s.2 * ((x - xi) / (xk - xi))) else s := by
    funext s xi
    simp only [ne_eq, eq_comm]
  rw [e, hp, prod_erase hw]
  obtain ⟨c, hc, hne⟩ := other_mem hw (by omega) xk
  congr 2
  · rw [Bool.false_or, List.any_eq_true]
    exact ⟨c, hc, by simp [hne]⟩
  · rw [one_mul]
    unfold Lagrange.basis Lagrange.basisDivisor
    rw [eval_prod]
    apply Finset.prod_congr rfl
    intro c _
    simp [div_eq_inv_mul]

theorem derivDen_ok {xs : List K} (hs : xs.Pairwise (· < ·)) {b : Bounds} {base : Nat} {order : Nat} (h1 : 1 ≤ order)
    (hb : b.ilo - b.nlo + 1 = base) (hc : b.count = order + 1) (hn : base + (order + 1) ≤ xs.length) (xk : K) :
    derivDen xs b xk = .ok (true, ∏ c ∈ ((xs.drop base).take (order + 1)).toFinset.erase xk, (xk - c)) := by
  have hw := window_nodup hs base (order + 1)
  unfold derivDen
  rw [hb, hc, forPts_ok _ _ _ hn]
  generalize hW : (xs.drop base).take (order + 1) = w at *
  have hl : w.length = order + 1 := by rw [← hW]; simp; omega
  rw [foldl_prod (K := K) (fun xi => xi ≠ xk) (fun xi => (xk - xi)) w false 1, prod_erase hw]
  obtain ⟨c, hc, hne⟩ := other_mem hw (by omega) xk
  congr 2
  · rw [Bool.false_or, List.any_eq_true]
    exact ⟨c, hc, by simp [hne]⟩
  · rw [one_mul]

omit [LinearOrder K] in
theorem foldl_sum (p : K → Prop) [DecidablePred p] (g : K → K) : (w : List K) → (a : K) →
    w.foldl (fun s xi => if p xi then s else s + g xi) a = a + ((w.filter (fun b => decide (¬ p b))).map g).sum
  | [], a => by simp
  | b :: w, a => by
    rw [List.foldl_cons]
    by_cases hb : p b
    · rw [if_pos hb, foldl_sum p g w a]
      simp [hb]
    · rw [if_neg hb, foldl_sum p g w (a + g b)]
      simp [hb, add_assoc]

theorem sum_erase {w : List K} (hw : w.Nodup) (g : K → K) (a : K) :
    ((w.filter (fun b => decide (¬ b = a))).map g).sum = ∑ b ∈ w.toFinset.erase a, g b := by
  rw [← List.sum_toFinset _ (hw.filter _), List.toFinset_filter]
  congr 1
  ext b
  simp [and_comm]

theorem derivNum_ok {xs : List K} (hs : xs.Pairwise (· < ·)) (x : K) {b : Bounds} {base : Nat} {order : Nat} (h1 : 1 ≤ order)
    (hb : b.ilo - b.nlo + 1 = base) (hc : b.count = order + 1) (hn : base + (order + 1) ≤ xs.length) {xk : K}
    (hk : xk ∈ (xs.drop base).take (order + 1)) :
    derivNum xs x order b xk = .ok (∑ c ∈ ((xs.drop base).take (order + 1)).toFinset.erase xk,
      ∏ a ∈ (((xs.drop base).take (order + 1)).toFinset.erase xk).erase c, (x - a)) := by
  have hw := window_nodup hs base (order + 1)
  have hl : ((xs.drop base).take (order + 1)).length = order + 1 := by simp; omega
  unfold derivNum
  rw [hb, hc]
  have inner : ∀ xj, forPts xs (fun (s : Bool × K) xi => if xi = xk ∨ xi = xj then s else (true, s.2 * (x - xi)))
      (order + 1) (base : Int) (false, 1) =
      .ok (((xs.drop base).take (order + 1)).any (fun b => decide (¬ (b = xk ∨ b = xj))),
        ∏ a ∈ (((xs.drop base).take (order + 1)).toFinset.erase xk).erase xj, (x - a)) := by
    intro xj
    rw [forPts_ok _ _ _ hn]
    have e : (fun (s : Bool × K) xi => if xi = xk ∨ xi = xj then s else (true, s.2 * (x - xi))) =
        fun s xi => if ¬ (xi = xk ∨ xi = xj) then (true, s.2 * (x - xi)) else s := by
      funext s xi
      rw [ite_not]
    rw [e, foldl_prod (K := K) (fun xi => ¬ (xi = xk ∨ xi = xj)) (fun xi => (x - xi)), prod_erase2 hw]
    simp
  rcases Nat.lt_or_ge 1 order with h2 | h2
  · -- at least three points: every pass adds its product
    rw [forPtsM_ok _ (fun num xj => if xj = xk then num else num +
      ∏ a ∈ (((xs.drop base).take (order + 1)).toFinset.erase xk).erase xj, (x - a)) _ _ hn]
    · rw [foldl_sum (fun xj => xj = xk), sum_erase hw, if_neg (by omega), zero_add]
    · intro num xj hj
      by_cases h : xj = xk
      · rw [if_pos h, if_pos h]
      · rw [if_neg h, if_neg h, inner, Outcome.ok_bind, if_pos]
        · rfl
        · obtain ⟨c, hc, hne⟩ := other2_mem hw (by omega) xk xj
          rw [List.any_eq_true]
          exact ⟨c, hc, decide_eq_true hne⟩
  · -- two points: no pass adds anything, the sum starts at one
    have ho : order = 1 := by omega
    subst ho
    have hcard : (((xs.drop base).take (1 + 1)).toFinset.erase xk).card = 1 := by
      rw [Finset.card_erase_of_mem (List.mem_toFinset.2 hk), List.toFinset_card_of_nodup hw, hl]
    obtain ⟨c, hc1⟩ := Finset.card_eq_one.1 hcard
    have all : ∀ xj ∈ (xs.drop base).take (1 + 1), ¬ xj = xk → xj = c := by
      intro xj hj hne
      have : xj ∈ ((xs.drop base).take (1 + 1)).toFinset.erase xk :=
        Finset.mem_erase.2 ⟨hne, List.mem_toFinset.2 hj⟩
      rw [hc1] at this
      exact Finset.mem_singleton.1 this
    rw [forPtsM_ok _ (fun num _ => num) _ _ hn]
    · rw [hc1]
      simp
    · intro num xj hj
      by_cases h : xj = xk
      · rw [if_pos h]
      · rw [if_neg h, inner, Outcome.ok_bind, if_neg]
        · rfl
        · simp only [List.any_eq_true, decide_eq_true_eq, not_exists, not_and, not_not]
          intro a ha
          by_cases hk : a = xk
          · exact .inl hk
          · right; rw [all a ha hk, all xj hj h]

/-- The window, and what the coefficient functions return for it. -/
theorem coefs_ok_bounds {xs : List K} (hs : xs.Pairwise (· < ·)) (x : K) (order : Nat) (h1 : 1 ≤ order) (hn : order < xs.length) :
    ∃ (b : Bounds) (base : Nat), getBounds xs x order = .ok b ∧ b.ilo - b.nlo + 1 = base ∧ base + (order + 1) ≤ xs.length ∧ (base : Int) ≤ below xs x ∧
      (below xs x + 1 < xs.length → below xs x + 1 < base + (order + 1)) ∧
      interpCoefs xs x order = .ok (((xs.drop base).take (order + 1)).map fun a =>
          (Lagrange.basis ((xs.drop base).take (order + 1)).toFinset id a).eval x,
        (List.range (order + 1)).map fun j => ((base + j : Nat) : Int)) ∧
      derivCoefs xs x order = .ok (((xs.drop base).take (order + 1)).map fun a =>
          (derivative (Lagrange.basis ((xs.drop base).take (order + 1)).toFinset id a)).eval x,
        (List.range (order + 1)).map fun j => ((base + j : Nat) : Int)) := by
  obtain ⟨b, base, g1, g2, g3, g4, g5, g6⟩ := getBounds_ok xs x order h1 hn
  refine ⟨b, base, g1, g2, g4, g5, g6, ?_, ?_⟩
  · unfold interpCoefs
    rw [g1, Outcome.ok_bind, g2]
    exact kLoop_ok _ _ base (order + 1) 0 g4 fun a _ => interpCoef_ok hs x h1 g2 g3 g4 a
  · unfold derivCoefs
    rw [g1, Outcome.ok_bind, g2]
    refine kLoop_ok _ _ base (order + 1) 0 g4 fun a ha => ?_
    rw [derivDen_ok hs h1 g2 g3 g4 a, Outcome.ok_bind, derivNum_ok hs x h1 g2 g3 g4 ha, Outcome.ok_bind, derivative_basis]
    rfl

theorem coefs_ok {xs : List K} (hs : xs.Pairwise (· < ·)) (x : K) (order : Nat) (h1 : 1 ≤ order) (hn : order < xs.length) :
    ∃ base, base + (order + 1) ≤ xs.length ∧ (base : Int) ≤ below xs x ∧
      (below xs x + 1 < xs.length → below xs x + 1 < base + (order + 1)) ∧
      interpCoefs xs x order = .ok (((xs.drop base).take (order + 1)).map fun a =>
          (Lagrange.basis ((xs.drop base).take (order + 1)).toFinset id a).eval x,
        (List.range (order + 1)).map fun j => ((base + j : Nat) : Int)) ∧
      derivCoefs xs x order = .ok (((xs.drop base).take (order + 1)).map fun a =>
          (derivative (Lagrange.basis ((xs.drop base).take (order + 1)).toFinset id a)).eval x,
        (List.range (order + 1)).map fun j => ((base + j : Nat) : Int)) := by
  obtain ⟨b, base, -, -, h⟩ := coefs_ok_bounds hs x order h1 hn
  exact ⟨base, h⟩

omit [LinearOrder K] in
theorem combine_ok {xs ys : List K} {f : K → K} (hy : ys = xs.map f) {base order : Nat} (hn : base + (order + 1) ≤ xs.length)
    (c : K → K) : combine ys (((xs.drop base).take (order + 1)).map c, (List.range (order + 1)).map fun j => ((base + j : Nat) : Int)) =
      .ok (((xs.drop base).take (order + 1)).map fun a => f a * c a).sum := by
  have hl : ((xs.drop base).take (order + 1)).length = order + 1 := by simp; omega
  unfold combine
  rw [List.range_succ_eq_map]
  simp only [List.map_cons, Nat.add_zero]
  rw [weigh_ok _ _ (by rw [List.length_map, hl, hy, List.length_map]; exact hn), zero_add]
  congr 2
  subst hy
  rw [← List.map_drop]
  generalize xs.drop base = v
  clear hn hl
  generalize order + 1 = n
  induction v generalizing n with
  | nil => simp
  | cons a v ih =>
    cases n with
    | zero => simp
    | succ n =>
      simp only [List.map_cons, List.take_succ_cons, List.zipWith_cons_cons]
      rw [ih n]

/-- Data on a table without repetitions are values of a function. -/
theorem data_function {xs ys : List K} (hs : xs.Pairwise (· < ·)) (hl : xs.length = ys.length) :
    ∃ f : K → K, ys = xs.map f ∧ ∀ i (h : i < xs.length), f xs[i] = ys[i] := by
  have h1 : xs.Nodup := hs.imp fun h => ne_of_lt h
  have key : ∀ i (h : i < xs.length), ys.getD (xs.idxOf xs[i]) 0 = ys[i] := by
    intro i h
    rw [h1.idxOf_getElem i h]
    simp [List.getElem?_eq_getElem (show i < ys.length by omega)]
  refine ⟨fun a => ys.getD (xs.idxOf a) 0, ?_, key⟩
  apply List.ext_getElem
  · simp [hl]
  · intro i h2 h3
    rw [List.getElem_map, key]

theorem sum_interpolate {w : List K} (hw : w.Nodup) (f : K → K) (x : K) :
    (w.map fun a => f a * (Lagrange.basis w.toFinset id a).eval x).sum = (Lagrange.interpolate w.toFinset id f).eval x ∧
    (w.map fun a => f a * (derivative (Lagrange.basis w.toFinset id a)).eval x).sum =
      (derivative (Lagrange.interpolate w.toFinset id f)).eval x := by
  constructor
  · rw [← List.sum_toFinset _ hw, Lagrange.interpolate_apply, eval_finsetSum]
    simp
  · rw [← List.sum_toFinset _ hw, Lagrange.interpolate_apply, derivative_sum, eval_finsetSum]
    simp

/-- The value and the derivative are those of the interpolation polynomial on the window. -/
theorem value_ok {xs ys : List K} (hs : xs.Pairwise (· < ·)) {f : K → K} (hy : ys = xs.map f) (d : Int) (x : K) (order : Nat)
    (h1 : 1 ≤ order) (hn : order < xs.length) :
    ∃ base, base + (order + 1) ≤ xs.length ∧ (base : Int) ≤ below xs x ∧
      (below xs x + 1 < xs.length → below xs x + 1 < base + (order + 1)) ∧
      (⟨xs, ys, d⟩ : Table K).interpolate x order =
        .ok ((Lagrange.interpolate ((xs.drop base).take (order + 1)).toFinset id f).eval x) ∧
      (⟨xs, ys, d⟩ : Table K).derivative x order =
        .ok ((derivative (Lagrange.interpolate ((xs.drop base).take (order + 1)).toFinset id f)).eval x) := by
  obtain ⟨base, c1, c2, c3, c4, c5⟩ := coefs_ok hs x order h1 hn
  obtain ⟨s1, s2⟩ := sum_interpolate (window_nodup hs base (order + 1)) f x
  refine ⟨base, c1, c2, c3, ?_, ?_⟩
  · unfold Table.interpolate
    dsimp only
    rw [c4, Outcome.ok_bind, combine_ok hy c1, s1]
  · unfold Table.derivative
    dsimp only
    rw [c5, Outcome.ok_bind, combine_ok hy c1, s2]

theorem interpolate_poly {xs : List K} (hs : xs.Pairwise (· < ·)) {base order : Nat} (hn : base + (order + 1) ≤ xs.length)
    (P : K[X]) (hP : P.natDegree ≤ order) :
    Lagrange.interpolate ((xs.drop base).take (order + 1)).toFinset id (fun a => P.eval a) = P := by
  have hw := window_nodup hs base (order + 1)
  refine (Lagrange.eq_interpolate (v := id) (fun _ _ _ _ h => h) ?_).symm
  rw [List.toFinset_card_of_nodup hw, show ((xs.drop base).take (order + 1)).length = order + 1 by simp; omega]
  exact lt_of_le_of_lt Polynomial.degree_le_natDegree (by exact_mod_cast (by omega : P.natDegree < order + 1))

/-! ## C41 -/

/-- C41. A table of strictly increasing points with values of a polynomial of degree at most
`order`: the interpolant of this order is that polynomial, at every `x`, inside the table or
outside. -/
theorem _root_.SpatialOps.C41_exact_on_polynomials (xs : List K) (hs : xs.Pairwise (· < ·)) (order : Nat) (h1 : 1 ≤ order)
    (hn : order < xs.length) (P : K[X]) (hP : P.natDegree ≤ order) (d : Int) (x : K) :
    ∃ t, Table.make xs (xs.map P.eval) d = .ok t ∧ t.interpolate x order = .ok (P.eval x) := by
  refine ⟨⟨xs, xs.map P.eval, d⟩, ?_, ?_⟩
  · unfold Table.make
    rw [Outcome.assert_true (by simp)]
    rfl
  · obtain ⟨base, c1, -, -, c4, -⟩ := value_ok hs (f := fun a => P.eval a) rfl d x order h1 hn
    rw [c4, interpolate_poly hs c1 P hP]

/-- C41. The order given to the constructor is the default. -/
theorem _root_.SpatialOps.C41_default_order (xs : List K) (hs : xs.Pairwise (· < ·)) (order : Nat) (h1 : 1 ≤ order)
    (hn : order < xs.length) (P : K[X]) (hP : P.natDegree ≤ order) (x : K) :
    ∃ t, Table.make xs (xs.map P.eval) order = .ok t ∧ t.interpolateDefault x = .ok (P.eval x) ∧
      t.derivativeDefault x = .ok ((derivative P).eval x) := by
  refine ⟨⟨xs, xs.map P.eval, order⟩, ?_, ?_⟩
  · unfold Table.make
    rw [Outcome.assert_true (by simp)]
    rfl
  · obtain ⟨base, c1, -, -, c4, c5⟩ := value_ok hs (f := fun a => P.eval a) rfl order x order h1 hn
    unfold Table.interpolateDefault Table.derivativeDefault
    dsimp only
    rw [c4, c5, interpolate_poly hs c1 P hP]
    exact ⟨rfl, rfl⟩

/-- Example: the square on four points, second order. -/
example : ([0, 1, 3, 7] : List ℚ).Pairwise (· < ·) ∧ 2 < ([0, 1, 3, 7] : List ℚ).length ∧
    (X ^ 2 : ℚ[X]).natDegree ≤ 2 := by
  refine ⟨by norm_num, by decide, by simp⟩

omit [Field K] in
theorem below_eq {xs : List K} (hs : xs.Pairwise (· < ·)) {x : K} {j : Nat} (hj : j + 1 < xs.length)
    (h1 : xs[j] < x) (h2 : x ≤ xs[j + 1]) : below xs x = j := by
  have lb : lowerBound xs x = j + 1 := by
    unfold lowerBound
    have e : xs = xs.take (j + 1) ++ xs.drop (j + 1) := (List.take_append_drop _ _).symm
    rw [e, List.takeWhile_append_of_pos, List.drop_eq_getElem_cons hj, List.takeWhile_cons_of_neg (by simpa using h2)]
    · simp; omega
    · intro a ha
      obtain ⟨i, hi, rfl⟩ := List.getElem_of_mem ha
      rw [List.length_take] at hi
      rw [List.getElem_take]
      rcases Nat.lt_or_ge i j with h | h
      · simpa using lt_trans (List.pairwise_iff_getElem.1 hs i j (by omega) (by omega) h) h1
      · simpa [show i = j by omega] using h1
  unfold below
  dsimp only
  rw [lb, if_neg (by push_cast; omega)]
  push_cast
  omega

/-- C41. The coefficients belong to `order + 1` consecutive points of the table; when `x` is
between two neighbouring points, both are among them. -/
theorem _root_.SpatialOps.C41_window (xs : List K) (hs : xs.Pairwise (· < ·)) (order : Nat) (h1 : 1 ≤ order)
    (hn : order < xs.length) (x : K) :
    ∃ (base : Nat) (cs ds : List K), base + order < xs.length ∧ cs.length = order + 1 ∧ ds.length = order + 1 ∧
      interpCoefs xs x order = .ok (cs, (List.range (order + 1)).map fun j => ((base + j : Nat) : Int)) ∧
      derivCoefs xs x order = .ok (ds, (List.range (order + 1)).map fun j => ((base + j : Nat) : Int)) ∧
      ∀ j (hj : j + 1 < xs.length), xs[j] < x → x ≤ xs[j + 1] → base ≤ j ∧ j + 1 ≤ base + order := by
  obtain ⟨base, c1, c2, c3, c4, c5⟩ := coefs_ok hs x order h1 hn
  refine ⟨base, _, _, by omega, ?_, ?_, c4, c5, ?_⟩
  · simp; omega
  · simp; omega
  · intro j hj a1 a2
    rw [below_eq hs hj a1 a2] at c2 c3
    have := c3 (by omega)
    omega

/-- C41. The points are chosen around `x`, as far as the table allows: with `x` between points `j` and `j + 1`, an even number of
points has the middle of the window between those two, and an odd number has in its middle the one nearer to `x` (the lower one
when both are equally near); a window that would leave the table is moved back into it, no further than needed. -/
theorem _root_.SpatialOps.C41_centred [IsStrictOrderedRing K] (xs : List K) (hs : xs.Pairwise (· < ·)) (order : Nat) (h1 : 1 ≤ order)
    (hn : order < xs.length) (x : K) (j : Nat) (hj : j + 1 < xs.length) (hlo : xs[j] < x) (hhi : x ≤ xs[j + 1]) :
    ∃ (base : Nat) (cs ds : List K),
      interpCoefs xs x order = .ok (cs, (List.range (order + 1)).map fun i => ((base + i : Nat) : Int)) ∧
      derivCoefs xs x order = .ok (ds, (List.range (order + 1)).map fun i => ((base + i : Nat) : Int)) ∧
      ∀ (h : Nat) (start : Int),
        ((order = 2 * h + 1 ∧ start = j - h) ∨
         (order = 2 * h ∧ x - xs[j] ≤ xs[j + 1] - x ∧ start = j - h) ∨
         (order = 2 * h ∧ xs[j + 1] - x < x - xs[j] ∧ start = j + 1 - h)) →
        (base : Int) = max 0 (min start (xs.length - (order + 1))) := by
  obtain ⟨b, base, g1, g2, -, -, -, c4, c5⟩ := coefs_ok_bounds hs x order h1 hn
  refine ⟨base, _, _, c4, c5, fun h start hcase => ?_⟩
  have hb := below_eq hs hj hlo hhi
  have e1 : Fabs.fabs (xs[j] - x) = x - xs[j] := by show |xs[j] - x| = _; rw [abs_sub_comm, abs_of_pos (sub_pos.2 hlo)]
  have e2 : Fabs.fabs (xs[j + 1] - x) = xs[j + 1] - x := abs_of_nonneg (sub_nonneg.2 hhi)
  unfold getBounds share at g1
  dsimp only at g1
  rw [hb] at g1
  have hj' : ¬ ((j : Int) + 1 ≥ xs.length) := by omega
  have r1 : rd xs (j : Int) = .ok xs[j] := rd_ok (by omega)
  have r2 : rd xs ((j : Int) + 1) = .ok xs[j + 1] := by
    rw [show ((j : Int) + 1) = ((j + 1 : Nat) : Int) by push_cast; rfl]
    exact rd_ok hj
  rw [if_neg hj', r1, Outcome.ok_bind, r2, Outcome.ok_bind, e1, e2, Int.tmod_eq_emod_of_nonneg (by omega),
    Int.tdiv_eq_ediv_of_nonneg (by omega)] at g1
  have key : ∀ n : Int × Int, b = ⟨j, (adjust xs.length j n).1, (adjust xs.length j n).2⟩ → n.1 + n.2 = order + 1 →
      start = j - n.1 + 1 → (base : Int) = max 0 (min start (xs.length - (order + 1))) := by
    intro n hbn hsum hst
    subst hbn
    unfold adjust at g2
    dsimp only at g2
    split_ifs at g2 <;> simp only at * <;> omega
  rcases hcase with ⟨ho, hst⟩ | ⟨ho, hle, hst⟩ | ⟨ho, hlt, hst⟩
  · rw [if_neg (by omega)] at g1
    injection g1 with g1
    exact key _ g1.symm (by dsimp only; omega) (by dsimp only; omega)
  · rw [if_pos (by omega), if_neg (not_lt.2 hle)] at g1
    injection g1 with g1
    exact key _ g1.symm (by dsimp only; omega) (by dsimp only; omega)
  · rw [if_pos (by omega), if_pos hlt] at g1
    injection g1 with g1
    exact key _ g1.symm (by dsimp only; omega) (by dsimp only; omega)

/-- Example: in `0, 1, 3, 7`, `x = 5/2` is nearer to 3, so the parabola goes through 1, 3 and 7. -/
example : ∃ (cs ds : List ℚ), interpCoefs ([0, 1, 3, 7] : List ℚ) (5 / 2) (2 : Nat) = .ok (cs, [1, 2, 3]) ∧
    derivCoefs ([0, 1, 3, 7] : List ℚ) (5 / 2) (2 : Nat) = .ok (ds, [1, 2, 3]) := by
  obtain ⟨base, cs, ds, h1, h2, h3⟩ := _root_.SpatialOps.C41_centred ([0, 1, 3, 7] : List ℚ) (by norm_num) 2 (by decide)
    (by decide) (5 / 2) 1 (by decide) (by norm_num) (by norm_num)
  have := h3 1 1 (.inr (.inr ⟨rfl, by norm_num, rfl⟩))
  have hb : base = 1 := by simp at this; omega
  subst hb
  exact ⟨cs, ds, h1, h2⟩

/-- C41. At a point of the table the interpolant gives the tabulated value, whatever the data. -/
theorem _root_.SpatialOps.C41_exact_at_nodes (xs ys : List K) (hs : xs.Pairwise (· < ·)) (hl : xs.length = ys.length) (order : Nat)
    (h1 : 1 ≤ order) (hn : order < xs.length) (d : Int) (i : Nat) (hi : i < xs.length) :
    ∃ t, Table.make xs ys d = .ok t ∧ t.interpolate xs[i] order = .ok ys[i] := by
  refine ⟨⟨xs, ys, d⟩, ?_, ?_⟩
  · unfold Table.make
    rw [Outcome.assert_true hl]
    rfl
  · obtain ⟨f, hf, hfi⟩ := data_function hs hl
    obtain ⟨base, c1, c2, c3, c4, -⟩ := value_ok hs hf d xs[i] order h1 hn
    rw [c4]
    have hin : base ≤ i ∧ i < base + (order + 1) := by
      cases i with
      | zero =>
        have : ∀ (l : List K) (h : 0 < l.length), below l l[0] = 0 := by
          intro l h
          cases l with
          | nil => simp at h
          | cons a l => simp [below, lowerBound]
        have := this xs hi
        omega
      | succ j =>
        have := below_eq hs hi (List.pairwise_iff_getElem.1 hs j (j + 1) (by omega) hi (by omega)) (le_refl _)
        rw [this] at c2 c3
        have := c3 (by omega)
        omega
    have hmem : xs[i] ∈ ((xs.drop base).take (order + 1)).toFinset := by
      rw [List.mem_toFinset, List.mem_iff_getElem]
      refine ⟨i - base, by simp; omega, ?_⟩
      rw [List.getElem_take, List.getElem_drop]
      congr 1
      omega
    have := Lagrange.eval_interpolate_at_node (v := id) f (fun _ _ _ _ h => h) hmem
    simp only [id] at this
    rw [this, hfi i hi]

/-- Example: any data, between the second and the third point. -/
example : ([0, 1, 3, 7] : List ℚ).Pairwise (· < ·) ∧ ([0, 1, 3, 7] : List ℚ).length = ([5, -1, 2, 2] : List ℚ).length ∧
    ([0, 1, 3, 7] : List ℚ)[1] < 2 ∧ 2 ≤ ([0, 1, 3, 7] : List ℚ)[2] := by
  refine ⟨by norm_num, rfl, by norm_num, by norm_num⟩

omit [Field K] [LinearOrder K] in
/-- C41. Tables of different lengths are refused. -/
theorem _root_.SpatialOps.C41_lengths_checked (xs ys : List K) (d : Int) (h : xs.length ≠ ys.length) :
    Table.make xs ys d = .abort := by
  unfold Table.make
  rw [Outcome.assert_false h]
  rfl

/-- C41, precondition: order zero. No coefficient is produced and the value is undefined, as is
the derivative. -/
theorem _root_.SpatialOps.C41_order_zero_undefined (xs ys : List K) (hx : xs ≠ []) (d : Int) (x : K) :
    (⟨xs, ys, d⟩ : Table K).interpolate x 0 = .ub ∧ (⟨xs, ys, d⟩ : Table K).derivative x 0 = .ub := by
  have hpos : 0 < xs.length := List.length_pos_iff.2 hx
  have h0 := below_nonneg xs x
  have hl := below_lt xs x hpos
  obtain ⟨n, s1, s2⟩ : ∃ n, share xs x 0 (below xs x) = .ok n ∧ (n = (1, 0) ∨ (n = (0, 1) ∧ below xs x + 1 < xs.length)) := by
    unfold share
    dsimp only
    rw [if_pos (by decide)]
    by_cases h : below xs x + 1 ≥ (xs.length : Int)
    · rw [if_pos h]
      exact ⟨_, rfl, .inl rfl⟩
    · rw [if_neg h]
      obtain ⟨i, hi⟩ := Int.eq_ofNat_of_zero_le h0
      rw [hi, rd_ok (by omega), Outcome.ok_bind,
        show ((i : Int) + 1) = ((i + 1 : Nat) : Int) by push_cast; rfl, rd_ok (by omega), Outcome.ok_bind]
      split_ifs
      · exact ⟨_, rfl, .inr ⟨rfl, by push_cast; omega⟩⟩
      · exact ⟨_, rfl, .inl rfl⟩
  obtain ⟨b, base, g1, g2, g3, g4⟩ : ∃ (b : Bounds) (base : Nat), getBounds xs x 0 = .ok b ∧ b.ilo - b.nlo + 1 = base ∧ b.count = 1 ∧ base < xs.length := by
    refine ⟨⟨below xs x, n.1, n.2⟩, (below xs x - n.1 + 1).toNat, ?_, ?_, ?_, ?_⟩
    · unfold getBounds
      dsimp only
      rw [s1, Outcome.ok_bind]
      unfold adjust
      rcases s2 with rfl | ⟨rfl, h⟩
      · dsimp only
        rw [if_neg (show ¬ (below xs x - 1 + 1 < 0) by omega)]
        dsimp only
        rw [if_neg (by omega)]
        rfl
      · dsimp only
        rw [if_neg (show ¬ (below xs x - 0 + 1 < 0) by omega)]
        dsimp only
        rw [if_neg (by omega)]
        rfl
    · rcases s2 with rfl | ⟨rfl, h⟩ <;> dsimp only <;> omega
    · unfold Bounds.count
      rcases s2 with rfl | ⟨rfl, h⟩ <;> dsimp only <;> omega
    · rcases s2 with rfl | ⟨rfl, h⟩ <;> dsimp only <;> omega
  constructor
  · unfold Table.interpolate interpCoefs
    dsimp only
    rw [g1, Outcome.ok_bind, g2, show ((0 : Int) + 1).toNat = 0 + 1 by rfl]
    unfold kLoop
    rw [add_zero, rd_ok g4, Outcome.ok_bind]
    unfold interpCoef
    rw [g2, g3]
    unfold forPts
    rw [rd_ok g4, Outcome.ok_bind, if_neg (by simp)]
    rfl
  · unfold Table.derivative derivCoefs
    dsimp only
    rw [g1, Outcome.ok_bind, g2, show ((0 : Int) + 1).toNat = 0 + 1 by rfl]
    unfold kLoop
    rw [add_zero, rd_ok g4, Outcome.ok_bind]
    unfold derivDen derivNum
    rw [g2, g3]
    simp only [forPts, forPtsM, rd_ok g4, Outcome.ok_bind, ne_eq, not_true_eq_false, if_false, if_true]
    rfl

/-- C41, precondition: with no more points than the order, reads are outside the table. -/
theorem _root_.SpatialOps.C41_too_few_points_undefined (xs ys : List K) (order : Nat) (h1 : 1 ≤ order) (hn : xs.length ≤ order)
    (d : Int) (x : K) :
    (⟨xs, ys, d⟩ : Table K).interpolate x order = .ub ∧ (⟨xs, ys, d⟩ : Table K).derivative x order = .ub := by
  obtain ⟨b, g1, g2⟩ := getBounds_short xs x order h1 hn
  have hr : ∀ c n k, k = 0 → kLoop xs c (b.ilo - b.nlo + 1) (n + 1) k = .ub := by
    rintro c n _ rfl
    unfold kLoop rd
    rw [if_neg (by omega)]
    rfl
  constructor
  · unfold Table.interpolate interpCoefs
    dsimp only
    rw [g1, Outcome.ok_bind, show ((order : Int) + 1).toNat = order + 1 by omega, hr _ _ _ rfl]
    rfl
  · unfold Table.derivative derivCoefs
    dsimp only
    rw [g1, Outcome.ok_bind, show ((order : Int) + 1).toNat = order + 1 by omega, hr _ _ _ rfl]
    rfl

/-! ## C42 -/

/-- C42. On such a table the derivative of this order is the derivative of the polynomial, at
every `x`. -/
theorem _root_.SpatialOps.C42_exact_on_polynomials (xs : List K) (hs : xs.Pairwise (· < ·)) (order : Nat) (h1 : 1 ≤ order)
    (hn : order < xs.length) (P : K[X]) (hP : P.natDegree ≤ order) (d : Int) (x : K) :
    ∃ t, Table.make xs (xs.map P.eval) d = .ok t ∧ t.derivative x order = .ok ((derivative P).eval x) := by
  refine ⟨⟨xs, xs.map P.eval, d⟩, ?_, ?_⟩
  · unfold Table.make
    rw [Outcome.assert_true (by simp)]
    rfl
  · obtain ⟨base, c1, -, -, -, c5⟩ := value_ok hs (f := fun a => P.eval a) rfl d x order h1 hn
    rw [c5, interpolate_poly hs c1 P hP]

/-- Example: the derivative of the square at 5 from the points 0, 1, 3, 7. -/
example : ∃ t, Table.make [0, 1, 3, 7] (([0, 1, 3, 7] : List ℚ).map (X ^ 2 : ℚ[X]).eval) 2 = .ok t ∧
    t.derivative 5 (2 : Nat) = .ok 10 := by
  obtain ⟨t, h1, h2⟩ := C42_exact_on_polynomials [0, 1, 3, 7] (by norm_num) 2 (by decide) (by decide) (X ^ 2 : ℚ[X]) (by simp) 2 5
  refine ⟨t, h1, h2.trans ?_⟩
  norm_num

/-- C42. Whatever the data, interpolant and derivative belong together: there is one polynomial
of degree at most `order` that has the value and the derivative returned at `x`, and passes
through the `order + 1` points of the window. -/
theorem _root_.SpatialOps.C42_same_polynomial (xs ys : List K) (hs : xs.Pairwise (· < ·)) (hl : xs.length = ys.length) (order : Nat)
    (h1 : 1 ≤ order) (hn : order < xs.length) (d : Int) (x : K) :
    ∃ (P : K[X]) (base : Nat), P.natDegree ≤ order ∧ base + order < xs.length ∧
      (⟨xs, ys, d⟩ : Table K).interpolate x order = .ok (P.eval x) ∧
      (⟨xs, ys, d⟩ : Table K).derivative x order = .ok ((derivative P).eval x) ∧
      ∀ j (hj : j < xs.length), base ≤ j → j ≤ base + order → P.eval xs[j] = ys[j] := by
  obtain ⟨f, hf, hfi⟩ := data_function hs hl
  obtain ⟨base, c1, c2, c3, c4, c5⟩ := value_ok hs hf d x order h1 hn
  have hw := window_nodup hs base (order + 1)
  have hcard : ((xs.drop base).take (order + 1)).toFinset.card = order + 1 := by
    rw [List.toFinset_card_of_nodup hw]; simp; omega
  refine ⟨_, base, ?_, by omega, c4, c5, ?_⟩
  · have := Lagrange.degree_interpolate_lt (s := ((xs.drop base).take (order + 1)).toFinset) (v := id) f (fun _ _ _ _ h => h)
    rw [hcard] at this
    by_cases h0 : Lagrange.interpolate ((xs.drop base).take (order + 1)).toFinset id f = 0
    · rw [h0]; simp
    · exact Nat.lt_succ_iff.1 ((Polynomial.natDegree_lt_iff_degree_lt h0).2 this)
  · intro j hj a1 a2
    have hmem : xs[j] ∈ ((xs.drop base).take (order + 1)).toFinset := by
      rw [List.mem_toFinset, List.mem_iff_getElem]
      refine ⟨j - base, by simp; omega, ?_⟩
      rw [List.getElem_take, List.getElem_drop]
      congr 1
      omega
    have := Lagrange.eval_interpolate_at_node (v := id) f (fun _ _ _ _ h => h) hmem
    simp only [id] at this
    rw [this, hfi j hj]

end

end Lagr
end SpatialOps
