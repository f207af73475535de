import Verif.Round.Even
import Verif.Round.Ops

/-!
# The box filter of a constant, in `double`
-/

namespace SpatialOps
namespace Round

open Nebo Stencil

/-- Rounding of a natural number of at least 53 binary digits to 53 digits, by integer arithmetic. -/
def roundNat (n : Nat) : Nat :=
  let k := Nat.log2 n - 52
  let q := n / 2 ^ k
  let r := n % 2 ^ k
  if 2 * r < 2 ^ k then q * 2 ^ k
  else if 2 ^ k < 2 * r then (q + 1) * 2 ^ k
  else if q % 2 = 0 then q * 2 ^ k else (q + 1) * 2 ^ k

section
variable {K : Type} [Field K] [LinearOrder K] [IsStrictOrderedRing K] [FloorRing K]

theorem roundNat_eq (n : Nat) (h : 2 ^ 52 ≤ n) : roundEven 53 (n : K) = (roundNat n : K) := by
  have hn : n ≠ 0 := by omega
  have l1 : 2 ^ n.log2 ≤ n := Nat.log2_self_le hn
  have l2 : n < 2 ^ (n.log2 + 1) := Nat.lt_log2_self
  have l3 : 52 ≤ n.log2 := (Nat.le_log2 hn).2 h
  obtain ⟨k, hk⟩ : ∃ k, k = n.log2 - 52 := ⟨_, rfl⟩
  have h1 : (2 : Int) ^ (53 - 1 + k) ≤ (n : Int) := by
    rw [show 53 - 1 + k = n.log2 by omega]; exact_mod_cast l1
  have h2 : (n : Int) < 2 ^ (53 + k) := by
    rw [show 53 + k = n.log2 + 1 by omega]; exact_mod_cast l2
  have := roundEven_intUnit (K := K) (p := 53) (k := k) (by norm_num) (n : Int) h1 h2
  rw [Int.cast_natCast] at this
  rw [this]
  unfold roundNat
  rw [← hk]
  dsimp only
  have hd := Nat.div_add_mod n (2 ^ k)
  have hr := Nat.mod_lt n (show 0 < 2 ^ k by positivity)
  generalize n / 2 ^ k = q at *
  generalize n % 2 ^ k = r at *
  have hp : (0 : K) < 2 ^ k := by positivity
  have hy : (n : K) / ((2 ^ k : Int) : K) = q + r / 2 ^ k := by
    rw [← hd]; push_cast; field_simp
  rw [hy]
  have hrk : (r : K) < 2 ^ k := by exact_mod_cast hr
  have hr0 : (0 : K) ≤ r / 2 ^ k := by positivity
  have hr1 : (r : K) / 2 ^ k < 1 := by rw [div_lt_one hp]; exact hrk
  split
  · rename_i hc
    have hc' : (r : K) / 2 ^ k < 1 / 2 := by
      rw [div_lt_iff₀ hp]
      have : (2 : K) * r < 2 ^ k := by exact_mod_cast hc
      linarith
    rw [nearestEven_of_lt (M := (q : Int)) (by
      rw [Int.cast_natCast, add_sub_cancel_left, abs_of_nonneg hr0]; exact hc')]
    push_cast; ring
  · split
    · rename_i hc
      have hc' : 1 / 2 < (r : K) / 2 ^ k := by
        rw [lt_div_iff₀ hp]
        have : (2 : K) ^ k < 2 * r := by exact_mod_cast hc
        linarith
      rw [nearestEven_of_lt (M := (q : Int) + 1) (by
        push_cast
        rw [abs_lt]; constructor <;> linarith)]
      push_cast; ring
    · rename_i hc1 hc2
      have he : 2 * r = 2 ^ k := by omega
      have hc' : (r : K) / 2 ^ k = 1 / 2 := by
        rw [div_eq_iff hp.ne']
        have : (2 : K) * r = 2 ^ k := by exact_mod_cast he
        linarith
      rw [hc']
      split
      · rename_i hq
        rw [nearestEven_of_even (M := (q : Int)) (by
          rw [Int.cast_natCast, add_sub_cancel_left, abs_of_nonneg (by norm_num)]) (by omega)]
        push_cast; ring
      · rename_i hq
        rw [nearestEven_of_even (M := (q : Int) + 1) (by
          push_cast
          rw [abs_le]; constructor <;> linarith) (by omega)]
        push_cast; ring

/-- `1 + 2^-52` in units of `2^-52`. -/
def oneUp : Nat := 2 ^ 52 + 1

/-- The sum of `k + 1` such numbers, every addition rounded. -/
def sumUp : Nat → Nat
  | 0 => oneUp
  | k + 1 => roundNat (sumUp k + oneUp)

theorem sumUp_large : ∀ k < 27, 2 ^ 52 ≤ sumUp k := by decide +kernel

theorem sum_oneUp {A : Type} (pts : Pts A) (h : pts.toList.length ≤ 27) :
    (pts.sum fun _ => (⟨(oneUp : K) * 2 ^ (-52 : Int)⟩ : Fl (K := K) (roundEven 53))).val =
      (sumUp (pts.toList.length - 1) : K) * 2 ^ (-52 : Int) := by
  induction pts with
  | one a => simp [Pts.sum, Pts.toList, sumUp]
  | more e a ih =>
    have hl : 0 < e.toList.length := by cases e <;> simp [Pts.toList]
    simp only [Pts.toList, List.length_append, List.length_cons, List.length_nil] at h
    have ih := ih (by omega)
    have e1 : (Pts.more e a).toList.length - 1 = (e.toList.length - 1) + 1 := by
      simp [Pts.toList]; omega
    rw [e1]
    show roundEven 53 ((e.sum fun _ => (⟨(oneUp : K) * 2 ^ (-52 : Int)⟩ : Fl (K := K) (roundEven 53))).val + (oneUp : K) * 2 ^ (-52 : Int)) = _
    rw [ih, ← add_mul, roundEven_scale, ← Nat.cast_add, roundNat_eq _ (by
      have := sumUp_large (e.toList.length - 1) (by omega); omega)]
    rfl

theorem third_cube : roundEven 53 (1 / 27 : K) = (5337599558365032 : Nat) * 2 ^ (-57 : Int) := by
  have e : (1 / 27 : K) = (2 ^ 57 / 27 : K) * 2 ^ (-57 : Int) := by
    rw [zpow_neg]; norm_num
  rw [e, roundEven_scale]
  have hu := roundEven_unit (K := K) 53 (x := 2 ^ 57 / 27) (j := 0) (by
    rw [abs_of_pos (by positivity)]; norm_num) (by
    rw [abs_of_pos (by positivity)]; norm_num)
  rw [hu, nearestEven_of_lt (M := 5337599558365032) (by rw [abs_lt]; constructor <;> norm_num)]
  norm_num

theorem filter_oneUp : roundEven 53 (((sumUp 26 : Nat) : K) * 2 ^ (-52 : Int) * roundEven 53 (1 / 27)) = 1 := by
  rw [third_cube]
  have e1 : sumUp 26 = 121597189939003408 := by decide +kernel
  rw [e1]
  have e2 : ((121597189939003408 : Nat) : K) * 2 ^ (-52 : Int) * (((5337599558365032 : Nat) : K) * 2 ^ (-57 : Int)) =
      ((121597189939003408 * 5337599558365032 : Nat) : K) * 2 ^ (-109 : Int) := by
    rw [zpow_neg, zpow_neg, zpow_neg]
    norm_num
  rw [e2, roundEven_scale, roundNat_eq _ (by norm_num)]
  have e3 : roundNat (121597189939003408 * 5337599558365032) = 2 ^ 109 := by decide +kernel
  rw [e3, zpow_neg]
  norm_num

end
end Round
end SpatialOps
