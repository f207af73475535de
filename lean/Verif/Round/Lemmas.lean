import Verif.Round.Spec
import Verif.Conserve.Lemmas
import Mathlib.Tactic.Linarith
import Mathlib.Tactic.Positivity
import Mathlib.Tactic.Ring
import Mathlib.Tactic.FieldSimp
import Mathlib.Algebra.Order.Field.Basic

/-!
# Lemmas about rounding errors
-/

namespace SpatialOps
namespace Round

open Nebo Stencil

section
variable {K : Type} [Field K] [LinearOrder K] [IsStrictOrderedRing K] {u : K} {rnd : K → K}

/-- `v` approximates `x`, of size at most `X`, with an error of `k` roundings. -/
def Err (u : K) (k : Nat) (v x X : K) : Prop := |v - x| ≤ grow u k * X ∧ |x| ≤ X

theorem grow_nonneg (hu : 0 ≤ u) (k : Nat) : 0 ≤ grow u k := by
  unfold grow
  have := one_le_pow₀ (n := k) (show (1 : K) ≤ 1 + u by linarith)
  linarith

theorem grow_mono (hu : 0 ≤ u) {k l : Nat} (h : k ≤ l) : grow u k ≤ grow u l := by
  unfold grow
  have := pow_le_pow_right₀ (show (1 : K) ≤ 1 + u by linarith) h
  linarith

namespace Err

theorem size {k : Nat} {v x X : K} (h : Err u k v x X) : 0 ≤ X := (abs_nonneg x).trans h.2

theorem self (x : K) : Err u 0 x x |x| := ⟨by simp [grow], le_refl _⟩

theorem mono (hu : 0 ≤ u) {k l : Nat} (hkl : k ≤ l) {v x X : K} (h : Err u k v x X) : Err u l v x X :=
  ⟨h.1.trans (mul_le_mul_of_nonneg_right (grow_mono hu hkl) h.size), h.2⟩

theorem bigger (hu : 0 ≤ u) {k : Nat} {v x X Y : K} (h : Err u k v x X) (hY : X ≤ Y) : Err u k v x Y :=
  ⟨h.1.trans (mul_le_mul_of_nonneg_left hY (grow_nonneg hu k)), h.2.trans hY⟩

theorem rounded (hf : Format u rnd) {k : Nat} {v x X : K} (h : Err u k v x X) : Err u (k + 1) (rnd v) x X := by
  refine ⟨?_, h.2⟩
  have h1 := hf.close v
  have h2 : |rnd v - x| ≤ |rnd v - v| + |v - x| := by
    have := abs_add_le (rnd v - v) (v - x)
    simpa using this
  have h3 : |v| ≤ |x| + |v - x| := by
    have := abs_add_le x (v - x)
    simpa using this
  have h4 : u * |v| ≤ u * (|x| + |v - x|) := mul_le_mul_of_nonneg_left h3 hf.nonneg
  have h5 : u * |x| ≤ u * X := mul_le_mul_of_nonneg_left h.2 hf.nonneg
  have h6 : u * |v - x| ≤ u * (grow u k * X) := mul_le_mul_of_nonneg_left h.1 hf.nonneg
  have h7 : grow u (k + 1) * X = u * X + u * (grow u k * X) + grow u k * X := by unfold grow; ring
  have := h.1
  rw [h7]
  linarith [mul_add u |x| |v - x|]

theorem add {k : Nat} {v x X w y Y : K} (h1 : Err u k v x X) (h2 : Err u k w y Y) : Err u k (v + w) (x + y) (X + Y) := by
  constructor
  · have := abs_add_le (v - x) (w - y)
    rw [show v - x + (w - y) = v + w - (x + y) by ring] at this
    have a := h1.1
    have b := h2.1
    linarith [mul_add (grow u k) X Y]
  · exact (abs_add_le x y).trans (add_le_add h1.2 h2.2)

omit [IsStrictOrderedRing K] in
theorem neg {k : Nat} {v x X : K} (h : Err u k v x X) : Err u k (-v) (-x) X :=
  ⟨by rw [show -v - -x = -(v - x) by ring, abs_neg]; exact h.1, by rw [abs_neg]; exact h.2⟩

theorem sub {k : Nat} {v x X w y Y : K} (h1 : Err u k v x X) (h2 : Err u k w y Y) : Err u k (v - w) (x - y) (X + Y) := by
  rw [sub_eq_add_neg, sub_eq_add_neg]
  exact h1.add h2.neg

theorem mul (hu : 0 ≤ u) {k l : Nat} {v x X w y Y : K} (h1 : Err u k v x X) (h2 : Err u l w y Y) :
    Err u (k + l) (v * w) (x * y) (X * Y) := by
  constructor
  · have e : v * w - x * y = (v - x) * (w - y) + x * (w - y) + (v - x) * y := by ring
    rw [e]
    have t1 := abs_add_le ((v - x) * (w - y) + x * (w - y)) ((v - x) * y)
    have t2 := abs_add_le ((v - x) * (w - y)) (x * (w - y))
    rw [abs_mul (v - x) y] at t1
    rw [abs_mul (v - x) (w - y), abs_mul x (w - y)] at t2
    have g1 := grow_nonneg hu k
    have g2 := grow_nonneg hu l
    have b1 : |v - x| * |w - y| ≤ grow u k * X * (grow u l * Y) :=
      mul_le_mul h1.1 h2.1 (abs_nonneg _) (mul_nonneg g1 h1.size)
    have b2 : |x| * |w - y| ≤ X * (grow u l * Y) := mul_le_mul h1.2 h2.1 (abs_nonneg _) h1.size
    have b3 : |v - x| * |y| ≤ grow u k * X * Y := mul_le_mul h1.1 h2.2 (abs_nonneg _) (mul_nonneg g1 h1.size)
    have e2 : grow u (k + l) * (X * Y) = grow u k * X * (grow u l * Y) + X * (grow u l * Y) + grow u k * X * Y := by
      unfold grow; rw [pow_add]; ring
    rw [e2]
    linarith
  · rw [abs_mul]
    exact mul_le_mul h1.2 h2.2 (abs_nonneg _) h1.size

theorem div (hu : 0 ≤ u) {k : Nat} {v x X : K} (h : Err u k v x X) (y : K) : Err u k (v / y) (x / y) (X / |y|) := by
  have := h.mul hu (self (u := u) y⁻¹)
  rw [abs_inv] at this
  simpa [div_eq_mul_inv] using this

end Err

/-! ## Sums -/

/-- A sum of terms added one after the other, every addition rounded. -/
theorem err_pts {α : Type} (hf : Format u rnd) (pts : Pts α) (t : α → Fl rnd) (x X : α → K) (k : Nat)
    (h : ∀ a ∈ pts.toList, Err u k (t a).val (x a) (X a)) :
    Err u (k + (pts.toList.length - 1)) (pts.sum t).val (pts.toList.map x).sum (pts.toList.map X).sum := by
  induction pts with
  | one a => simpa [Pts.toList, Pts.sum] using h a (by simp [Pts.toList])
  | more e a ih =>
    have h1 := ih fun b hb => h b (by simp [Pts.toList, hb])
    have h2 := h a (by simp [Pts.toList])
    have hl : 0 < e.toList.length := by cases e <;> simp [Pts.toList]
    have h3 : Err u _ (e.sum t + t a).val _ _ := (h1.add (h2.mono hf.nonneg (Nat.le_add_right k _))).rounded hf
    have e1 : k + (e.toList.length - 1) + 1 = k + ((Pts.more e a).toList.length - 1) := by
      simp [Pts.toList]; omega
    rw [e1] at h3
    simpa [Pts.toList, Pts.sum] using h3

/-- The same for a list. -/
theorem err_foldl {α : Type} (hf : Format u rnd) (rest : List α) (t : α → Fl rnd) (x X : α → K) (k l : Nat) (r : Fl rnd) (y Y : K)
    (hr : Err u (k + l) r.val y Y) (h : ∀ a ∈ rest, Err u k (t a).val (x a) (X a)) :
    Err u (k + l + rest.length) (rest.foldl (fun s a => s + t a) r).val (y + (rest.map x).sum) (Y + (rest.map X).sum) := by
  induction rest generalizing r y Y l with
  | nil => simpa using hr
  | cons a rest ih =>
    have h1 := (hr.add ((h a (by simp)).mono hf.nonneg (Nat.le_add_right k l))).rounded hf
    have h2 := ih (l := l + 1) (r := r + t a) (y := y + x a) (Y := Y + X a) h1 fun b hb => h b (by simp [hb])
    have e1 : k + (l + 1) + rest.length = k + l + (a :: rest).length := by simp; omega
    rw [e1] at h2
    simpa [add_assoc] using h2

/-! ## Formulas -/

theorem err_formula (hf : Format u rnd) (m : Mem (Fl rnd)) (f : Formula rnd) (c : IntVec) :
    Err u f.depth (f.expr.value m c : Fl rnd).val (f.exact m c) (f.size m c) := by
  have hu := hf.nonneg
  induction f generalizing c with
  | const v => exact Err.self _
  | field f => exact Err.self _
  | single f => exact Err.self _
  | add a b iha ihb =>
    exact (((iha c).mono hu (le_max_left _ _)).add ((ihb c).mono hu (le_max_right _ _))).rounded hf
  | sub a b iha ihb =>
    exact (((iha c).mono hu (le_max_left _ _)).sub ((ihb c).mono hu (le_max_right _ _))).rounded hf
  | mul a b iha ihb => exact ((iha c).mul hu (ihb c)).rounded hf
  | neg a iha => exact (iha c).neg
  | overConst a v iha => exact ((iha c).div hu _).rounded hf
  | overField a f iha => exact ((iha c).div hu _).rounded hf
  | stencil pts a iha =>
    have := err_pts hf pts (fun q => (a.expr.value m (c + q.1) : Fl rnd) * q.2) (fun q => a.exact m (c + q.1) * q.2.val)
      (fun q => a.size m (c + q.1) * |q.2.val|) (a.depth + 1) fun q _ => by
        exact ((iha (c + q.1)).mul hu (Err.self q.2.val)).rounded hf
    have hl : 0 < pts.toList.length := by cases pts <;> simp [Pts.toList]
    rw [show a.depth + 1 + (pts.toList.length - 1) = a.depth + pts.toList.length by omega] at this
    exact this
  | sumStencil pts a iha =>
    exact err_pts hf pts (fun q => (a.expr.value m (c + q) : Fl rnd)) (fun q => a.exact m (c + q))
      (fun q => a.size m (c + q)) a.depth fun q _ => iha (c + q)
  | cond t a b iha ihb =>
    have e1 : ((Formula.cond t a b).expr.value m c : Fl rnd) = if t.value m c then (a.expr.value m c : Fl rnd) else b.expr.value m c := rfl
    have e2 : (Formula.cond t a b).exact m c = if t.value m c then a.exact m c else b.exact m c := rfl
    have e3 : (Formula.cond t a b).size m c = if t.value m c then a.size m c else b.size m c := rfl
    rw [e1, e2, e3]
    split
    · exact (iha c).mono hu (le_max_left _ _)
    · exact (ihb c).mono hu (le_max_right _ _)

/-- The usual bound of the error of `k` roundings. -/
theorem grow_le (hu : 0 ≤ u) (k : Nat) (h : k * u < 1) : grow u k ≤ k * u / (1 - k * u) := by
  have hb : (1 + u) ^ k * (1 - k * u) ≤ 1 := by
    clear h
    induction k with
    | zero => simp
    | succ k ih =>
      have h1 : (1 + u) * (1 - (k + 1 : Nat) * u) ≤ 1 - k * u := by
        push_cast
        have : 0 ≤ (k + 1 : K) * (u * u) := by positivity
        have e : (1 + u) * (1 - (k + 1) * u) = 1 - k * u - (k + 1) * (u * u) := by ring
        linarith
      calc (1 + u) ^ (k + 1) * (1 - (k + 1 : Nat) * u) = (1 + u) ^ k * ((1 + u) * (1 - (k + 1 : Nat) * u)) := by ring
        _ ≤ (1 + u) ^ k * (1 - k * u) := mul_le_mul_of_nonneg_left h1 (by positivity)
        _ ≤ 1 := ih
  rw [le_div_iff₀ (by linarith)]
  unfold grow
  linarith [sub_mul ((1 + u) ^ k) 1 (1 - k * u)]

end
end Round
end SpatialOps
