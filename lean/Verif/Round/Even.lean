import Verif.Round.Spec
import Mathlib.Tactic.Linarith
import Mathlib.Tactic.Positivity
import Mathlib.Tactic.Ring
import Mathlib.Tactic.FieldSimp
import Mathlib.Tactic.NormNum
import Mathlib.Algebra.Order.Field.Basic
import Mathlib.Algebra.Order.Field.Power
import Mathlib.Algebra.Order.Floor.Ring

/-!
# Rounding to nearest, ties to even
-/

namespace SpatialOps
namespace Round

section
variable {K : Type} [Field K] [LinearOrder K] [IsStrictOrderedRing K] [FloorRing K]

/-! ## Integers -/

theorem nearestEven_near (y : K) : |(nearestEven y : K) - y| ≤ 1 / 2 := by
  have h1 := Int.floor_le y
  have h2 := Int.lt_floor_add_one y
  unfold nearestEven
  rw [abs_le]
  split
  · constructor <;> linarith
  · split
    · push_cast; constructor <;> linarith
    · split
      · constructor <;> linarith
      · push_cast; constructor <;> linarith

theorem nearestEven_of_lt {y : K} {M : Int} (h : |y - M| < 1 / 2) : nearestEven y = M := by
  have h1 := nearestEven_near y
  rw [abs_lt] at h
  rw [abs_le] at h1
  have h2 : ((nearestEven y : Int) : K) < ((M + 1 : Int) : K) := by push_cast; linarith
  have h3 : ((M - 1 : Int) : K) < ((nearestEven y : Int) : K) := by push_cast; linarith
  have h2 := Int.cast_lt.1 h2
  have h3 := Int.cast_lt.1 h3
  omega

theorem nearestEven_of_even {y : K} {M : Int} (h : |y - M| ≤ 1 / 2) (hM : M % 2 = 0) : nearestEven y = M := by
  rcases lt_or_eq_of_le h with h | h
  · exact nearestEven_of_lt h
  · rcases abs_cases (y - M) with ⟨e, -⟩ | ⟨e, -⟩
    · have hy : y = M + 1 / 2 := by linarith
      have hfl : ⌊y⌋ = M := by rw [Int.floor_eq_iff, hy]; constructor <;> linarith
      unfold nearestEven
      rw [hfl, if_neg (by linarith), if_neg (by linarith), if_pos hM]
    · have hy : y = M - 1 / 2 := by linarith
      have hfl : ⌊y⌋ = M - 1 := by rw [Int.floor_eq_iff, hy]; push_cast; constructor <;> linarith
      unfold nearestEven
      rw [hfl]
      push_cast
      rw [if_neg (by linarith), if_neg (by linarith), if_neg (by omega)]
      omega

theorem nearestEven_int (M : Int) : nearestEven (M : K) = M := nearestEven_of_lt (by simp)

theorem nearestEven_neg (y : K) : nearestEven (-y) = -nearestEven y := by
  have h1 := Int.floor_le y
  have h2 := Int.lt_floor_add_one y
  rcases lt_trichotomy (y - ⌊y⌋) (1 / 2) with h | h | h
  · have a : nearestEven y = ⌊y⌋ := by unfold nearestEven; rw [if_pos h]
    rw [a]
    exact nearestEven_of_lt (by rw [abs_lt]; push_cast; constructor <;> linarith)
  · rcases Int.emod_two_eq_zero_or_one ⌊y⌋ with hm | hm
    · have a : nearestEven y = ⌊y⌋ := by
        unfold nearestEven; rw [if_neg (by linarith), if_neg (by linarith), if_pos hm]
      rw [a]
      exact nearestEven_of_even (by rw [abs_le]; push_cast; constructor <;> linarith) (by omega)
    · have a : nearestEven y = ⌊y⌋ + 1 := by
        unfold nearestEven; rw [if_neg (by linarith), if_neg (by linarith), if_neg (by omega)]
      rw [a]
      exact nearestEven_of_even (by rw [abs_le]; push_cast; constructor <;> linarith) (by omega)
  · have a : nearestEven y = ⌊y⌋ + 1 := by unfold nearestEven; rw [if_neg (by linarith), if_pos h]
    rw [a]
    exact nearestEven_of_lt (by rw [abs_lt]; push_cast; constructor <;> linarith)

theorem nearestEven_mono {x y : K} (h : x ≤ y) : nearestEven x ≤ nearestEven y := by
  by_contra hlt
  have hlt : nearestEven y + 1 ≤ nearestEven x := by omega
  have hlt' : ((nearestEven y : Int) : K) + 1 ≤ (nearestEven x : Int) := by exact_mod_cast hlt
  have h1 := nearestEven_near x
  have h2 := nearestEven_near y
  have h1' := abs_le.1 h1
  have h2' := abs_le.1 h2
  -- both are exactly half way, so x = y
  have : x = y := by linarith
  subst this
  linarith

/-! ## Binades -/

theorem log_eq {r : K} {e : Int} (h1 : (2 : K) ^ e ≤ r) (h2 : r < 2 ^ (e + 1)) : Int.log 2 r = e := by
  have hr : 0 < r := lt_of_lt_of_le (by positivity) h1
  have a : e ≤ Int.log 2 r := (Int.zpow_le_iff_le_log (by norm_num) hr).1 (by exact_mod_cast h1)
  have b : Int.log 2 r < e + 1 := (Int.lt_zpow_iff_log_lt (by norm_num) hr).1 (by exact_mod_cast h2)
  omega

theorem binade {x : K} (hx : x ≠ 0) : ∃ e : Int, (2 : K) ^ e ≤ |x| ∧ |x| < 2 ^ (e + 1) := by
  have hr : 0 < |x| := abs_pos.2 hx
  refine ⟨Int.log 2 |x|, ?_, ?_⟩
  · have := Int.zpow_log_le_self (b := 2) (by norm_num) hr
    exact_mod_cast this
  · have := Int.lt_zpow_succ_log_self (b := 2) (by norm_num) |x|
    exact_mod_cast this

/-- With `p` digits the numbers from `2^(p-1+j)` to `2^(p+j)` are rounded to multiples of `2^j`. -/
theorem roundEven_unit (p : Nat) {x : K} {j : Int} (h1 : (2 : K) ^ ((p : Int) - 1 + j) ≤ |x|) (h2 : |x| < 2 ^ ((p : Int) + j)) :
    roundEven p x = (nearestEven (x / 2 ^ j) : K) * 2 ^ j := by
  have := log_eq h1 (by rwa [show (p : Int) - 1 + j + 1 = p + j by ring])
  unfold roundEven
  rw [this, show (p : Int) - 1 + j - (p - 1) = j by ring]

theorem roundEven_zero (p : Nat) : roundEven p (0 : K) = 0 := by
  unfold roundEven
  rw [zero_div]
  have := nearestEven_int (K := K) 0
  rw [Int.cast_zero] at this
  rw [this]
  simp

theorem exists_unit (p : Nat) {x : K} (hx : x ≠ 0) :
    ∃ j : Int, (2 : K) ^ ((p : Int) - 1 + j) ≤ |x| ∧ |x| < 2 ^ ((p : Int) + j) := by
  obtain ⟨e, h1, h2⟩ := binade hx
  exact ⟨e - (p - 1), by rwa [show (p : Int) - 1 + (e - (p - 1)) = e by ring],
    by rwa [show (p : Int) + (e - (p - 1)) = e + 1 by ring]⟩

theorem roundEven_close (p : Nat) (x : K) : |roundEven p x - x| ≤ (2 : K) ^ (-(p : Int)) * |x| := by
  by_cases hx : x = 0
  · rw [hx, roundEven_zero]; simp
  · obtain ⟨j, h1, h2⟩ := exists_unit p hx
    rw [roundEven_unit p h1 h2]
    have hs : (0 : K) < 2 ^ j := by positivity
    have e : (nearestEven (x / 2 ^ j) : K) * 2 ^ j - x = (nearestEven (x / 2 ^ j) - x / 2 ^ j) * 2 ^ j := by
      field_simp
    rw [e, abs_mul, abs_of_pos hs]
    have h3 := mul_le_mul_of_nonneg_right (nearestEven_near (x / (2 : K) ^ j)) hs.le
    have h4 : (2 : K) ^ (-(p : Int)) * 2 ^ ((p : Int) - 1 + j) ≤ (2 : K) ^ (-(p : Int)) * |x| :=
      mul_le_mul_of_nonneg_left h1 (by positivity)
    have h5 : (2 : K) ^ (-(p : Int)) * 2 ^ ((p : Int) - 1 + j) = 1 / 2 * 2 ^ j := by
      rw [← zpow_add₀ (by norm_num), show -(p : Int) + (p - 1 + j) = -1 + j by ring, zpow_add₀ (by norm_num)]
      norm_num
    linarith

/-- The nearest integer, and if two are, the even one. -/
theorem nearestEven_nearest (y : K) (k : Int) : |(nearestEven y : K) - y| ≤ |(k : K) - y| ∧
    (|(k : K) - y| = |(nearestEven y : K) - y| → k ≠ nearestEven y → nearestEven y % 2 = 0 ∧ |(k : K) - nearestEven y| = 1) := by
  have h1 := nearestEven_near y
  obtain ⟨r, hr⟩ : ∃ r, r = nearestEven y := ⟨_, rfl⟩
  rw [← hr] at h1 ⊢
  by_cases hk : k = r
  · subst hk
    exact ⟨le_refl _, fun _ h => absurd rfl h⟩
  · have far : (1 : K) ≤ |(k : K) - r| := by
      have : (1 : Int) ≤ |k - r| := Int.one_le_abs (by omega)
      have h2 : ((1 : Int) : K) ≤ ((|k - r| : Int) : K) := Int.cast_le.2 this
      simpa using h2
    have tri : |(k : K) - r| ≤ |(k : K) - y| + |(r : K) - y| := by
      have := abs_sub_le (k : K) y r
      rwa [abs_sub_comm y] at this
    refine ⟨by linarith, fun e _ => ?_⟩
    have half : |(r : K) - y| = 1 / 2 := by linarith
    have one : |(k : K) - r| = 1 := by linarith
    refine ⟨?_, one⟩
    by_contra hodd
    -- the even neighbour is as near, so it would have been chosen
    have hkr : k % 2 = 0 := by
      have h3 : ((|k - r| : Int) : K) = ((1 : Int) : K) := by simpa using one
      have h4 : |k - r| = 1 := Int.cast_injective h3
      rcases abs_eq (by decide : (0 : Int) ≤ 1) |>.1 h4 with h | h <;> omega
    have := nearestEven_of_even (y := y) (M := k) (by rw [abs_sub_comm]; linarith) hkr
    exact hk (this.symm.trans hr.symm)

theorem roundEven_nearest {p : Nat} (hp : 1 ≤ p) (x : K) :
    HasDigits p (roundEven p x) ∧ ∀ v, HasDigits p v → |roundEven p x - x| ≤ |v - x| ∧
      (|v - x| = |roundEven p x - x| → v ≠ roundEven p x → ∃ m e : Int, roundEven p x = ((2 * m : Int) : K) * 2 ^ e ∧ |v - roundEven p x| = 2 ^ e) := by
  by_cases hx : x = 0
  · subst hx
    rw [roundEven_zero]
    refine ⟨⟨0, 0, by simp, by simp⟩, fun v _ => ⟨by simp, fun h hv => absurd ?_ hv⟩⟩
    simpa using h
  · obtain ⟨j, h1, h2⟩ := exists_unit p hx
    have hs : (0 : K) < 2 ^ j := by positivity
    obtain ⟨r, hr⟩ : ∃ r, r = nearestEven (x / 2 ^ j) := ⟨_, rfl⟩
    have e0 : roundEven p x = (r : K) * 2 ^ j := by rw [roundEven_unit p h1 h2, hr]
    have scale : ∀ a : K, |a * 2 ^ j - x| = |a - x / 2 ^ j| * 2 ^ j := by
      intro a
      rw [← abs_of_pos hs, ← abs_mul, abs_of_pos hs, sub_mul, div_mul_cancel₀ _ hs.ne']
    have near : ∀ k : Int, |(r : K) * 2 ^ j - x| ≤ |(k : K) * 2 ^ j - x| := by
      intro k
      rw [scale, scale, hr]
      exact mul_le_mul_of_nonneg_right (nearestEven_nearest _ k).1 hs.le
    have top : (2 : K) ^ ((p : Int) + j) = ((2 ^ p : Int) : K) * 2 ^ j := by
      rw [zpow_add₀ (by norm_num)]; simp
    have bot : (2 : K) ^ ((p : Int) - 1 + j) = ((2 ^ (p - 1) : Int) : K) * 2 ^ j := by
      rw [zpow_add₀ (by norm_num), show (p : Int) - 1 = ((p - 1 : Nat) : Int) by omega]; simp
    rw [e0]
    refine ⟨?_, ?_⟩
    · have hle : |r| ≤ 2 ^ p := by
        have q1 : |x / 2 ^ j| < ((2 ^ p : Int) : K) := by
          rw [abs_div, abs_of_pos hs, div_lt_iff₀ hs, ← top]
          exact h2
        rw [abs_le]
        have q2 := abs_lt.1 q1
        constructor
        · have := nearestEven_mono (K := K) (x := ((-2 ^ p : Int) : K)) (y := x / 2 ^ j) (by push_cast at q2 ⊢; linarith)
          rw [nearestEven_int] at this
          omega
        · have := nearestEven_mono (K := K) (x := x / 2 ^ j) (y := ((2 ^ p : Int) : K)) (by linarith)
          rw [nearestEven_int] at this
          omega
      rcases hle.lt_or_eq with h | h
      · exact ⟨r, j, h, rfl⟩
      · have ep : (2 : Int) ^ p = 2 ^ (p - 1) * 2 := by rw [← pow_succ]; congr 1; omega
        have pp : (0 : Int) < 2 ^ (p - 1) := by positivity
        have hdiv : ∃ q : Int, r = q * 2 ∧ |q| = 2 ^ (p - 1) := by
          rcases abs_eq (by positivity) |>.1 h with h | h
          · exact ⟨2 ^ (p - 1), by rw [h, ep], abs_of_pos pp⟩
          · exact ⟨-2 ^ (p - 1), by rw [h, ep]; ring, by rw [abs_neg, abs_of_pos pp]⟩
        obtain ⟨q, hq, hqa⟩ := hdiv
        refine ⟨q, j + 1, by omega, ?_⟩
        rw [hq, zpow_add₀ (by norm_num)]
        push_cast
        ring
    · rintro v ⟨m, e, hm, rfl⟩
      by_cases hej : j ≤ e
      · obtain ⟨t, ht⟩ : ∃ t : Nat, e = j + t := ⟨(e - j).toNat, by omega⟩
        have ev : (m : K) * 2 ^ e = ((m * 2 ^ t : Int) : K) * 2 ^ j := by
          rw [ht, zpow_add₀ (by norm_num)]
          push_cast
          rw [zpow_natCast]
          ring
        rw [ev]
        refine ⟨near _, fun h hne => ?_⟩
        have h' : |((m * 2 ^ t : Int) : K) - x / 2 ^ j| = |(nearestEven (x / 2 ^ j) : K) - x / 2 ^ j| := by
          rw [scale, scale, hr] at h
          exact mul_right_cancel₀ hs.ne' h
        obtain ⟨g1, g2⟩ := (nearestEven_nearest (x / 2 ^ j) (m * 2 ^ t)).2 h' (fun hc => hne (by rw [hc, hr]))
        rw [← hr] at g1 g2
        refine ⟨r / 2, j, by congr 2; omega, ?_⟩
        rw [← sub_mul, abs_mul, g2, one_mul, abs_of_pos hs]
      · -- a finer number is smaller than all numbers near `x`
        have small : |(m : K) * 2 ^ e| < 2 ^ ((p : Int) - 1 + j) := by
          have q0 : (0 : K) < 2 ^ e := by positivity
          have q1 : ((|m| : Int) : K) < ((2 ^ p : Int) : K) := Int.cast_lt.2 hm
          rw [abs_mul, abs_of_pos q0, ← Int.cast_abs]
          calc ((|m| : Int) : K) * 2 ^ e < ((2 ^ p : Int) : K) * 2 ^ e := mul_lt_mul_of_pos_right q1 q0
            _ = 2 ^ ((p : Int) + e) := by rw [zpow_add₀ (by norm_num)]; simp
            _ ≤ 2 ^ ((p : Int) - 1 + j) := zpow_le_zpow_right₀ (by norm_num) (by omega)
        have lt : |(r : K) * 2 ^ j - x| < |(m : K) * 2 ^ e - x| := by
          have s2 := abs_lt.1 small
          rcases le_total 0 x with h0 | h0
          · rw [abs_of_nonneg h0] at h1
            refine (near (2 ^ (p - 1))).trans_lt ?_
            rw [← bot, abs_of_nonpos (by linarith), abs_of_neg (by linarith)]
            linarith
          · rw [abs_of_nonpos h0] at h1
            refine (near (-2 ^ (p - 1))).trans_lt ?_
            rw [show ((-2 ^ (p - 1) : Int) : K) * 2 ^ j = -2 ^ ((p : Int) - 1 + j) by rw [bot]; push_cast; ring,
              abs_of_nonneg (by linarith), abs_of_pos (by linarith)]
            linarith
        exact ⟨lt.le, fun h => absurd h lt.ne'⟩

theorem roundEven_neg (p : Nat) (x : K) : roundEven p (-x) = -roundEven p x := by
  unfold roundEven
  rw [abs_neg, neg_div, nearestEven_neg]
  push_cast
  ring

theorem roundEven_scale (p : Nat) (x : K) (k : Int) : roundEven p (x * 2 ^ k) = roundEven p x * 2 ^ k := by
  by_cases hx : x = 0
  · rw [hx, zero_mul, roundEven_zero, zero_mul]
  · obtain ⟨j, h1, h2⟩ := exists_unit p hx
    have hs : (0 : K) < 2 ^ k := by positivity
    have ha : |x * 2 ^ k| = |x| * 2 ^ k := by rw [abs_mul, abs_of_pos hs]
    rw [roundEven_unit p h1 h2, roundEven_unit p (x := x * 2 ^ k) (j := j + k)]
    · rw [zpow_add₀ (by norm_num)]
      have : x * 2 ^ k / ((2 : K) ^ j * 2 ^ k) = x / 2 ^ j := by field_simp
      rw [this]
      ring
    · rw [ha, ← add_assoc, zpow_add₀ (by norm_num) _ k]
      exact mul_le_mul_of_nonneg_right h1 hs.le
    · rw [ha, ← add_assoc, zpow_add₀ (by norm_num) _ k]
      exact mul_lt_mul_of_pos_right h2 hs

/-- Multiples of the unit are left alone. -/
theorem roundEven_int (p : Nat) (M : Int) (j : Int) (h1 : (2 : K) ^ ((p : Int) - 1 + j) ≤ |(M : K) * 2 ^ j|)
    (h2 : |(M : K) * 2 ^ j| < 2 ^ ((p : Int) + j)) : roundEven p ((M : K) * 2 ^ j) = M * 2 ^ j := by
  rw [roundEven_unit p h1 h2]
  have hs : (0 : K) < 2 ^ j := by positivity
  rw [mul_div_cancel_right₀ _ hs.ne', nearestEven_int]

omit [LinearOrder K] [IsStrictOrderedRing K] [FloorRing K] in
theorem zpow_nat (k : Nat) : (2 : K) ^ (k : Int) = ((2 ^ k : Int) : K) := by
  rw [zpow_natCast]; push_cast; rfl

/-- Powers of two are numbers of the format. -/
theorem roundEven_two_pow {p : Nat} (hp : 1 ≤ p) (k : Int) : roundEven p ((2 : K) ^ k) = 2 ^ k := by
  have h1 : roundEven p ((1 : K)) = 1 := by
    have hs : (0 : K) < 2 ^ (1 - (p : Int)) := by positivity
    have e : (1 : K) = ((2 ^ (p - 1) : Int) : K) * 2 ^ (1 - (p : Int)) := by
      rw [← zpow_nat, ← zpow_add₀ (by norm_num)]
      have : ((p - 1 : Nat) : Int) + (1 - p) = 0 := by omega
      rw [this, zpow_zero]
    have := roundEven_int (K := K) p (2 ^ (p - 1)) (1 - p)
    rw [← e] at this
    apply this
    · rw [abs_one, show (p : Int) - 1 + (1 - p) = 0 by ring, zpow_zero]
    · rw [abs_one, show (p : Int) + (1 - p) = 1 by ring, zpow_one]; norm_num
  have := roundEven_scale p (1 : K) k
  rwa [one_mul, h1, one_mul] at this

theorem roundEven_pos_bounds {p : Nat} (hp : 1 ≤ p) {x : K} (hx : 0 < x) {j : Int} (h1 : (2 : K) ^ ((p : Int) - 1 + j) ≤ x)
    (h2 : x < 2 ^ ((p : Int) + j)) : (2 : K) ^ ((p : Int) - 1 + j) ≤ roundEven p x ∧ roundEven p x ≤ 2 ^ ((p : Int) + j) := by
  have hs : (0 : K) < 2 ^ j := by positivity
  have hx' := abs_of_pos hx
  rw [roundEven_unit p (x := x) (j := j) (by rwa [hx']) (by rwa [hx'])]
  have a : ((2 ^ (p - 1) : Int) : K) ≤ x / 2 ^ j := by
    rw [le_div_iff₀ hs, ← zpow_nat, ← zpow_add₀ (by norm_num)]
    rwa [show (((p - 1 : Nat) : Int) + j) = p - 1 + j by omega]
  have b : x / 2 ^ j ≤ ((2 ^ p : Int) : K) := by
    rw [div_le_iff₀ hs, ← zpow_nat, ← zpow_add₀ (by norm_num)]
    exact h2.le
  have a' := nearestEven_mono a
  have b' := nearestEven_mono b
  rw [nearestEven_int] at a' b'
  constructor
  · rw [show (p : Int) - 1 + j = ((p - 1 : Nat) : Int) + j by omega, zpow_add₀ (by norm_num), zpow_nat]
    exact mul_le_mul_of_nonneg_right (by exact_mod_cast a') hs.le
  · rw [zpow_add₀ (by norm_num), zpow_nat]
    exact mul_le_mul_of_nonneg_right (by exact_mod_cast b') hs.le

theorem roundEven_nonneg {p : Nat} (hp : 1 ≤ p) {x : K} (hx : 0 ≤ x) : 0 ≤ roundEven p x := by
  rcases hx.eq_or_lt with rfl | hx
  · rw [roundEven_zero]
  · obtain ⟨j, h1, h2⟩ := exists_unit p hx.ne'
    rw [abs_of_pos hx] at h1 h2
    exact le_trans (by positivity) (roundEven_pos_bounds hp hx h1 h2).1

theorem roundEven_mono_pos {p : Nat} (hp : 1 ≤ p) {x y : K} (hx : 0 < x) (h : x ≤ y) : roundEven p x ≤ roundEven p y := by
  have hy := lt_of_lt_of_le hx h
  obtain ⟨i, a1, a2⟩ := exists_unit p hx.ne'
  obtain ⟨j, b1, b2⟩ := exists_unit p hy.ne'
  have ax := abs_of_pos hx
  have ay := abs_of_pos hy
  rcases lt_trichotomy i j with hij | hij | hij
  · rw [ax] at a1 a2
    rw [ay] at b1 b2
    refine (roundEven_pos_bounds hp hx a1 a2).2.trans (le_trans ?_ (roundEven_pos_bounds hp hy b1 b2).1)
    exact zpow_le_zpow_right₀ (by norm_num) (by omega)
  · subst hij
    rw [roundEven_unit p a1 a2, roundEven_unit p b1 b2]
    have hs : (0 : K) < 2 ^ i := by positivity
    have := nearestEven_mono (div_le_div_of_nonneg_right h hs.le)
    exact mul_le_mul_of_nonneg_right (by exact_mod_cast this) hs.le
  · exfalso
    rw [ax] at a1
    rw [ay] at b2
    have : (2 : K) ^ ((p : Int) + j) ≤ 2 ^ ((p : Int) - 1 + i) := zpow_le_zpow_right₀ (by norm_num) (by omega)
    linarith

theorem roundEven_mono {p : Nat} (hp : 1 ≤ p) {x y : K} (h : x ≤ y) : roundEven p x ≤ roundEven p y := by
  rcases lt_or_ge 0 x with hx | hx
  · exact roundEven_mono_pos hp hx h
  · rcases lt_or_ge y 0 with hy | hy
    · have := roundEven_mono_pos (p := p) hp (x := -y) (y := -x) (by linarith) (by linarith)
      rw [roundEven_neg, roundEven_neg] at this
      linarith
    · have a := roundEven_nonneg (p := p) hp (x := -x) (by linarith)
      rw [roundEven_neg] at a
      have b := roundEven_nonneg (p := p) hp hy
      linarith

/-! ## Numbers of the format -/

/-- A positive number of the format is an integer of `p` binary digits times a power of two. -/
theorem representable {p : Nat} (hp : 1 ≤ p) {x : K} (hx : 0 < x) (h : roundEven p x = x) :
    ∃ (M j : Int), x = M * 2 ^ j ∧ 2 ^ (p - 1) ≤ M ∧ M < 2 ^ p := by
  obtain ⟨j, h1, h2⟩ := exists_unit p hx.ne'
  rw [roundEven_unit p h1 h2] at h
  have hs : (0 : K) < 2 ^ j := by positivity
  rw [abs_of_pos hx] at h1 h2
  refine ⟨nearestEven (x / 2 ^ j), j, h.symm, ?_, ?_⟩
  · rw [← h, show (p : Int) - 1 + j = ((p - 1 : Nat) : Int) + j by omega, zpow_add₀ (by norm_num), zpow_nat] at h1
    have := le_of_mul_le_mul_right h1 hs
    exact_mod_cast this
  · rw [← h, zpow_add₀ (by norm_num), zpow_nat] at h2
    have := lt_of_mul_lt_mul_right h2 hs.le
    exact_mod_cast this

theorem roundEven_half (p : Nat) (x : K) : roundEven p (x * (1 / 2)) = roundEven p x * (1 / 2) := by
  have := roundEven_scale p x (-1)
  rw [zpow_neg_one] at this
  simpa using this

theorem roundEven_quarter (p : Nat) (x : K) : roundEven p (x * (1 / 4)) = roundEven p x * (1 / 4) := by
  have := roundEven_scale p x (-2)
  rw [show (2 : K) ^ (-2 : Int) = 1 / 4 by rw [zpow_neg]; norm_num] at this
  exact this

/-- Rounding an integer between `2^(p-1+k)` and `2^(p+k)`. -/
theorem roundEven_intUnit {p k : Nat} (hp : 1 ≤ p) (N : Int) (h1 : 2 ^ (p - 1 + k) ≤ N) (h2 : N < 2 ^ (p + k)) :
    roundEven p (N : K) = (nearestEven ((N : K) / (2 ^ k : Int)) : K) * (2 ^ k : Int) := by
  have hN : (0 : K) < N := by
    have : (0 : Int) < N := lt_of_lt_of_le (by positivity) h1
    exact_mod_cast this
  have := roundEven_unit (K := K) p (x := N) (j := k)
    (by rw [abs_of_pos hN, show (p : Int) - 1 + k = ((p - 1 + k : Nat) : Int) by omega, zpow_nat]; exact_mod_cast h1)
    (by rw [abs_of_pos hN, show (p : Int) + k = ((p + k : Nat) : Int) by omega, zpow_nat]; exact_mod_cast h2)
  rw [this, zpow_nat]

theorem three_quarters_int {p : Nat} (hp : 2 ≤ p) (M : Int) (h1 : 2 ^ (p - 1) ≤ M) (h2 : M < 2 ^ p) :
    roundEven p (roundEven p ((3 * M : Int) : K) + M) = ((4 * M : Int) : K) := by
  obtain ⟨q, rfl⟩ : ∃ q, p = q + 2 := ⟨p - 2, by omega⟩
  have e1 : (2 : Int) ^ (q + 2 - 1) = 2 * 2 ^ q := by rw [show q + 2 - 1 = q + 1 by omega, pow_succ]; ring
  have e2 : (2 : Int) ^ (q + 2) = 4 * 2 ^ q := by rw [pow_add]; ring
  have hq : (1 : Int) ≤ 2 ^ q := one_le_pow₀ (by norm_num)
  rw [e1] at h1
  rw [e2] at h2
  generalize hA : (2 : Int) ^ q = A at *
  -- the last step, for any number near 4 M
  have last : ∀ δ : Int, (-1 ≤ δ ∧ δ ≤ 1 ∨ M % 2 = 0 ∧ -2 ≤ δ ∧ δ ≤ 2) → 8 * A ≤ 4 * M + δ →
      roundEven (q + 2) (((4 * M + δ : Int) : K)) = ((4 * M : Int) : K) := by
    intro δ hδ hlo
    rw [roundEven_intUnit (p := q + 2) (k := 2) (by omega) _
      (by rw [show q + 2 - 1 + 2 = q + 3 by omega, pow_add, hA]; omega)
      (by rw [show q + 2 + 2 = q + 4 by omega, pow_add, hA]; omega)]
    have hn : nearestEven (((4 * M + δ : Int) : K) / ((2 ^ 2 : Int) : K)) = M := by
      have e : ((4 * M + δ : Int) : K) / ((2 ^ 2 : Int) : K) - M = (δ : K) / 4 := by push_cast; field_simp; ring
      rcases hδ with ⟨a, b⟩ | ⟨hM, a, b⟩
      · apply nearestEven_of_lt
        have a' : (-1 : K) ≤ δ := by exact_mod_cast a
        have b' : (δ : K) ≤ 1 := by exact_mod_cast b
        rw [e, abs_lt]
        constructor <;> linarith
      · apply nearestEven_of_even _ hM
        have a' : (-2 : K) ≤ δ := by exact_mod_cast a
        have b' : (δ : K) ≤ 2 := by exact_mod_cast b
        rw [e, abs_le]
        constructor <;> linarith
    rw [hn]
    push_cast
    ring
  rcases lt_or_ge (3 * M) (8 * A) with h3 | h3
  · -- multiples of 2
    rw [roundEven_intUnit (p := q + 2) (k := 1) (by omega) (3 * M)
      (by rw [show q + 2 - 1 + 1 = q + 2 by omega, pow_add, hA]; omega)
      (by rw [show q + 2 + 1 = q + 3 by omega, pow_add, hA]; omega)]
    have hn := nearestEven_near (((3 * M : Int) : K) / ((2 ^ 1 : Int) : K))
    generalize nearestEven (((3 * M : Int) : K) / ((2 ^ 1 : Int) : K)) = t at hn
    rw [abs_le] at hn
    have t1 : ((-1 : Int) : K) ≤ ((2 * t - 3 * M : Int) : K) := by push_cast at hn ⊢; linarith
    have t2 : ((2 * t - 3 * M : Int) : K) ≤ ((1 : Int) : K) := by push_cast at hn ⊢; linarith
    have t1 := Int.cast_le.1 t1
    have t2 := Int.cast_le.1 t2
    have e : (t : K) * ((2 ^ 1 : Int) : K) + M = ((4 * M + (2 * t - 3 * M) : Int) : K) := by push_cast; ring
    rw [e]
    exact last _ (.inl ⟨t1, t2⟩) (by rcases h1.eq_or_lt with e | e <;> omega)
  · -- multiples of 4
    rw [roundEven_intUnit (p := q + 2) (k := 2) (by omega) (3 * M)
      (by rw [show q + 2 - 1 + 2 = q + 3 by omega, pow_add, hA]; omega)
      (by rw [show q + 2 + 2 = q + 4 by omega, pow_add, hA]; omega)]
    have hn := nearestEven_near (((3 * M : Int) : K) / ((2 ^ 2 : Int) : K))
    generalize nearestEven (((3 * M : Int) : K) / ((2 ^ 2 : Int) : K)) = t at hn
    rw [abs_le] at hn
    have t1 : ((-2 : Int) : K) ≤ ((4 * t - 3 * M : Int) : K) := by push_cast at hn ⊢; linarith
    have t2 : ((4 * t - 3 * M : Int) : K) ≤ ((2 : Int) : K) := by push_cast at hn ⊢; linarith
    have t1 := Int.cast_le.1 t1
    have t2 := Int.cast_le.1 t2
    have e : (t : K) * ((2 ^ 2 : Int) : K) + M = ((4 * M + (4 * t - 3 * M) : Int) : K) := by push_cast; ring
    rw [e]
    exact last _ (by omega) (by omega)

/-- Three quarters of a number of the format, rounded, and one quarter add up to it. -/
theorem three_quarters {p : Nat} (hp : 2 ≤ p) {x : K} (h : roundEven p x = x) :
    roundEven p (roundEven p (x * (1 / 2) + x * (1 / 4)) + x * (1 / 4)) = x := by
  have pos : ∀ x : K, 0 < x → roundEven p x = x →
      roundEven p (roundEven p (x * (1 / 2) + x * (1 / 4)) + x * (1 / 4)) = x := by
    intro x hx h
    obtain ⟨M, j, rfl, h1, h2⟩ := representable (by omega) hx h
    have e1 : (M : K) * 2 ^ j * (1 / 2) + M * 2 ^ j * (1 / 4) = ((3 * M : Int) : K) * 2 ^ (j - 2) := by
      rw [zpow_sub₀ (by norm_num)]; push_cast; norm_num; ring
    have e2 : (M : K) * 2 ^ j * (1 / 4) = M * 2 ^ (j - 2) := by
      rw [zpow_sub₀ (by norm_num)]; norm_num; ring
    rw [e1, e2, roundEven_scale, ← add_mul, roundEven_scale, three_quarters_int hp M h1 h2]
    rw [zpow_sub₀ (by norm_num)]
    push_cast
    norm_num
    ring
  rcases lt_trichotomy x 0 with hx | hx | hx
  · have := pos (-x) (by linarith) (by rw [roundEven_neg, h])
    rw [neg_mul, neg_mul, ← neg_add, roundEven_neg, ← neg_add, roundEven_neg] at this
    linarith
  · subst hx; simp [roundEven_zero]
  · exact pos x hx h

/-- Rounding to nearest even is a format in the sense of the error bounds. -/
theorem roundEven_format {p : Nat} (hp : 1 ≤ p) : Format ((2 : K) ^ (-(p : Int))) (roundEven p) where
  nonneg := by positivity
  close := roundEven_close p
  half := by
    have := roundEven_two_pow (K := K) hp (-1)
    rw [zpow_neg_one] at this
    simpa using this

end
end Round
end SpatialOps
