import Verif.Near.Spec
import Verif.Order.Props

/-!
# Property C112: differences of numbers near each other, and comparisons with zero
-/

namespace SpatialOps
namespace Near

open Nebo Round Stencil Range Rewrite

section
variable {K : Type} [Field K] [LinearOrder K] [IsStrictOrderedRing K]

theorem close_abs {x y : K} (h : Close x y) : |x - y| ≤ |x| ∧ |x - y| ≤ |y| := by
  rcases h with ⟨h1, h2⟩ | ⟨h1, h2⟩
  · rw [abs_of_nonneg (show 0 ≤ x by linarith), abs_of_nonneg (show 0 ≤ y by linarith), abs_le, abs_le]
    refine ⟨⟨?_, ?_⟩, ?_, ?_⟩ <;> linarith
  · rw [abs_of_nonpos (show x ≤ 0 by linarith), abs_of_nonpos (show y ≤ 0 by linarith), abs_le, abs_le]
    refine ⟨⟨?_, ?_⟩, ?_, ?_⟩ <;> linarith

variable [FloorRing K]

/-- The numbers of the format are multiples of powers of two by integers of `p` digits. -/
theorem format_parts {p : Nat} {emin : Int} {x : K} (h : gradual p emin x = x) :
    ∃ M e : Int, x = M * 2 ^ e ∧ |M| ≤ 2 ^ p ∧ emin ≤ e := by
  refine ⟨nearestEven (x / 2 ^ max (Int.log 2 |x| - (p - 1 : Int)) emin), _, h.symm, ?_, le_max_right _ _⟩
  generalize hE : max (Int.log 2 |x| - (p - 1 : Int)) emin = E
  have hs : (0 : K) < 2 ^ E := by positivity
  have h1 : |x / 2 ^ E| ≤ ((2 ^ p : Int) : K) := by
    rw [abs_div, abs_of_pos hs, div_le_iff₀ hs, ← zpow_nat, ← zpow_add₀ (by norm_num)]
    have h2 := Int.lt_zpow_succ_log_self (b := 2) (by norm_num) |x|
    rw [Nat.cast_ofNat] at h2
    exact h2.le.trans (zpow_le_zpow_right₀ (by norm_num) (by omega))
  have hx : x / 2 ^ E = ((nearestEven (x / 2 ^ E) : Int) : K) := by
    unfold gradual at h
    rw [hE] at h
    rw [div_eq_iff hs.ne']
    exact h.symm
  rw [hx] at h1
  rw [← Int.cast_abs] at h1
  exact Int.cast_le.1 h1

/-- The difference of two numbers of the format near each other is a number of the format. -/
theorem close_exact {p : Nat} (hp : 1 ≤ p) {emin : Int} {x y : K} (hx : gradual p emin x = x) (hy : gradual p emin y = y) (h : Close x y) :
    gradual p emin (x - y) = x - y := by
  obtain ⟨M, e, h1, h2, h3⟩ := format_parts hx
  obtain ⟨N, f, h4, h5, h6⟩ := format_parts hy
  obtain ⟨b1, b2⟩ := close_abs h
  have split : ∀ (e g : Int), g ≤ e → (2 : K) ^ e = ((2 ^ (e - g).toNat : Int) : K) * 2 ^ g := by
    intro e g hg
    rw [← zpow_nat, ← zpow_add₀ (by norm_num)]
    congr 1
    omega
  have key : ∀ (k g L : Int), x - y = k * 2 ^ g → |x - y| ≤ |(L : K) * 2 ^ g| → |L| ≤ 2 ^ p → emin ≤ g → gradual p emin (x - y) = x - y := by
    intro k g L e1 e2 e3 e4
    have hs : (0 : K) < 2 ^ g := by positivity
    rw [e1, abs_mul, abs_mul, abs_of_pos hs] at e2
    have := le_of_mul_le_mul_right e2 hs
    rw [← Int.cast_abs, ← Int.cast_abs] at this
    rw [e1]
    exact gradual_exact hp k ((Int.cast_le.1 this).trans e3) e4
  rcases le_total e f with hef | hef
  · refine key (M - N * 2 ^ (f - e).toNat) e M ?_ (by rw [← h1]; exact b1) h2 h3
    rw [h1, h4, split f e hef]
    push_cast
    ring
  · refine key (M * 2 ^ (e - f).toNat - N) f N ?_ (by rw [← h4]; exact b2) h5 h6
    rw [h1, h4, split e f hef]
    push_cast
    ring

/-- The rounded difference of two numbers of the format has the sign of the difference. -/
theorem sub_pos_round {p : Nat} (hp : 1 ≤ p) {emin : Int} {x y : K} (hx : gradual p emin x = x) (hy : gradual p emin y = y) (h : y < x) :
    0 < gradual p emin (x - y) := by
  obtain ⟨M, e, h1, h2, h3⟩ := format_parts hx
  obtain ⟨N, f, h4, h5, h6⟩ := format_parts hy
  have split : ∀ e : Int, emin ≤ e → (2 : K) ^ e = ((2 ^ (e - emin).toNat : Int) : K) * 2 ^ emin := by
    intro e he
    rw [← zpow_nat, ← zpow_add₀ (by norm_num)]
    congr 1
    omega
  have hs : (0 : K) < 2 ^ emin := by positivity
  have e1 : x - y = ((M * 2 ^ (e - emin).toNat - N * 2 ^ (f - emin).toNat : Int) : K) * 2 ^ emin := by
    rw [h1, h4, split e h3, split f h6]
    push_cast
    ring
  generalize M * 2 ^ (e - emin).toNat - N * 2 ^ (f - emin).toNat = k at e1
  have hk : 0 < (k : K) := by
    have := sub_pos.2 h
    rw [e1] at this
    exact pos_of_mul_pos_left this hs.le
  have hk1 : (1 : K) ≤ k := by
    have : 0 < k := Int.cast_pos.1 hk
    exact_mod_cast this
  have one := gradual_exact (K := K) hp (emin := emin) (e := emin) 1 (by simpa using one_le_pow₀ (one_le_two)) le_rfl
  rw [Int.cast_one, one_mul] at one
  have := (C111_nearest_even (K := K) hp emin).2 (2 ^ emin) (x - y) (by rw [e1]; nlinarith)
  rw [one] at this
  exact hs.trans_le this

/-- What is written for `a - b` at a cell. -/
theorem difference {p : Nat} (hp : 1 ≤ p) {emin : Int} {x y : K} (hx : gradual p emin x = x) (hy : gradual p emin y = y) :
    (Close x y → gradual p emin (x - y) = x - y) ∧ (gradual p emin (x - y) = 0 ↔ x = y) ∧ (0 < gradual p emin (x - y) ↔ y < x) ∧
      (gradual p emin (x - y) < 0 ↔ x < y) := by
  obtain ⟨-, odd, zero⟩ := C110_gradual (K := K) hp emin
  have flip : gradual p emin (x - y) = -gradual p emin (y - x) := by rw [← odd, neg_sub]
  refine ⟨close_exact hp hx hy, ?_⟩
  rcases lt_trichotomy x y with h | h | h
  · have := sub_pos_round hp hy hx h
    rw [flip]
    refine ⟨⟨fun e => by linarith, fun e => absurd e h.ne⟩, ⟨fun e => by linarith, fun e => absurd h (not_lt.2 e.le)⟩, ⟨fun _ => h, fun _ => by linarith⟩⟩
  · rw [h, sub_self, zero]
    simp
  · have := sub_pos_round hp hx hy h
    refine ⟨⟨fun e => by linarith, fun e => absurd e h.ne'⟩, ⟨fun _ => h, fun _ => this⟩, ⟨fun e => by linarith, fun e => absurd h (not_lt.2 e.le)⟩⟩

/-- C112. `l <<= a - b` and `interior_assign(l, a - b)` with the rounding of `double` (gradual underflow): where the two numbers are near each other, the exact
difference is written; what is written is zero only where they are equal, and otherwise tells which of them is larger. -/
theorem _root_.SpatialOps.C112_difference {p : Nat} (hp : 1 ≤ p) (emin : Int) (n : IntVec) (hn : IntVec.Lt 0 n) (l : FieldObj) (t : Nat) (ht : Target n l t)
    (a b : Formula (K := K) (gradual p emin)) (ha : InFormat a) (hb : InFormat b) (he : (a.sub b).expr.Wf n)
    (hd : ∀ c, Interior n l c → (a.sub b).expr.DefinedAt n c) (hi : (a.sub b).expr.Independent l 0) (m : Mem (Fl (K := K) (gradual p emin)))
    (hm : ∀ blk x, gradual p emin (m blk x).val = (m blk x).val) :
    let Holds := fun (w : Fl (K := K) (gradual p emin)) (c : IntVec) =>
      let x := (a.expr.value m c : Fl (K := K) (gradual p emin)).val
      let y := (b.expr.value m c : Fl (K := K) (gradual p emin)).val
      (Close x y → w.val = x - y) ∧ (w.val = 0 ↔ x = y) ∧ (0 < w.val ↔ y < x) ∧ (w.val < 0 ↔ x < y)
    (∃ m', assign l (a.sub b).expr m = .ok m' ∧ ∀ c, Stored n l c → (a.sub b).expr.DefinedAt n c → Holds (m' t (cellAddr l.geo c)) c) ∧
    (∃ m', interiorAssign l (a.sub b).expr m = .ok m' ∧ ∀ c, Interior n l c → Holds (m' t (cellAddr l.geo c)) c) := by
  intro Holds
  obtain ⟨idem, odd, -⟩ := C110_gradual (K := K) hp emin
  have val : ∀ c, Holds ((a.sub b).expr.value m c) c := fun c =>
    difference hp (inFormat_value idem odd m hm a c ha) (inFormat_value idem odd m hm b c hb)
  constructor
  · obtain ⟨m', h1, h2, -⟩ := C22_assign_pointwise n hn l t ht (a.sub b).expr he hd hi m
    refine ⟨m', h1, fun c hs hc => ?_⟩
    rw [h2 c ⟨hs, hc⟩]
    exact val c
  · obtain ⟨m', h1, h2, -⟩ := C22_interior_assign_pointwise n hn l t ht (a.sub b).expr he hd hi m
    refine ⟨m', h1, fun c hc => ?_⟩
    rw [h2 c hc]
    exact val c

/-- C112. Differences of numbers that are not near each other need not be exact: in `double`, `2^53 - (-1)` is not `2^53 + 1`. -/
theorem _root_.SpatialOps.C112_far_not_exact : ∃ x y : K, gradual 53 (-1074) x = x ∧ gradual 53 (-1074) y = y ∧ gradual 53 (-1074) (x - y) ≠ x - y := by
  have whole : ∀ k : Int, |k| ≤ 2 ^ 53 → gradual 53 (-1074) (k : K) = k := by
    intro k hk
    have := gradual_exact (K := K) (p := 53) (emin := -1074) (e := 0) (by norm_num) k hk (by norm_num)
    rwa [zpow_zero, mul_one] at this
  refine ⟨((2 ^ 53 : Int) : K), ((-1 : Int) : K), whole _ (by norm_num), whole _ (by norm_num), fun h => ?_⟩
  obtain ⟨M, e, h1, h2, -⟩ := format_parts h
  have h3 : ((2 ^ 53 + 1 : Int) : K) = M * 2 ^ e := by
    rw [← h1]
    push_cast
    ring
  rcases lt_or_ge e 1 with he | he
  · have h4 : (2 : K) ^ e ≤ 1 := zpow_le_one_of_nonpos₀ (by norm_num) (by omega)
    have hs : (0 : K) < 2 ^ e := by positivity
    have h5 : (M : K) ≤ ((2 ^ 53 : Int) : K) := Int.cast_le.2 ((le_abs_self M).trans h2)
    have h6 : (M : K) * 2 ^ e ≤ ((2 ^ 53 : Int) : K) * 1 := mul_le_mul h5 h4 hs.le (by positivity)
    rw [← h3, mul_one] at h6
    have := Int.cast_le.1 h6
    omega
  · have h4 : (2 : K) ^ e = ((2 ^ e.toNat : Int) : K) := by
      rw [← zpow_nat]
      congr 1
      omega
    rw [h4, ← Int.cast_mul] at h3
    have h5 := Int.cast_injective h3
    obtain ⟨k, hk⟩ : ∃ k, e.toNat = k + 1 := ⟨e.toNat - 1, by omega⟩
    rw [hk, pow_succ 2 k, ← mul_assoc] at h5
    omega

end

/-- Example: numbers within a factor of two. -/
example : Close (3 : ℚ) 2 ∧ Close (-5 : ℚ) (-7) ∧ Close (0 : ℚ) 0 ∧ ¬Close (1 : ℚ) 3 ∧ ¬Close (1 : ℚ) (-1) := by
  unfold Close
  norm_num

/-- Example: `f4 <<= f1 - f2` on the example mesh, in `double`. -/
example (m : Mem (Fl (gradual (K := ℚ) 53 (-1074)))) (hm : ∀ blk x, gradual 53 (-1074) (m blk x).val = (m blk x).val) :=
  C112_difference (K := ℚ) (p := 53) (by norm_num) (-1074) ⟨4, 3, 1⟩ (by decide) (NeboEx.fld false 4) 4 (NeboEx.target false 4)
    (.field (NeboEx.fld false 1)) (.field (NeboEx.fld false 2)) trivial trivial
    (by exact ⟨⟨NeboEx.onMesh false, by decide⟩, NeboEx.onMesh false, by decide⟩)
    (by
      have hh := hasCell_iff (NeboEx.onMesh false)
      have e1 : (NeboEx.geo false).validGhosts.minus = ⟨1, 1, 0⟩ := rfl
      have e2 : (NeboEx.geo false).validGhosts.plus + (NeboEx.geo false).bc.hasExtra = ⟨1, 1, 0⟩ := by decide
      have e3 : (NeboEx.geo false).bc.hasExtra = ⟨0, 0, 0⟩ := by decide
      rw [e1, e2] at hh
      unfold InBox at hh
      intro c hc
      have hc' : IntVec.Le 0 c ∧ IntVec.Lt c (⟨4, 3, 1⟩ + (NeboEx.geo false).bc.hasExtra) := hc
      rw [e3] at hc'
      exact ⟨(hh c).2 (by iv_omega), (hh c).2 (by iv_omega)⟩)
    (by
      have d1 : (NeboEx.fld false 1).values ≠ (NeboEx.fld false 4).values := by decide
      have d2 : (NeboEx.fld false 2).values ≠ (NeboEx.fld false 4).values := by decide
      exact ⟨.inl d1, .inl d2⟩) m hm

end Near
end SpatialOps
