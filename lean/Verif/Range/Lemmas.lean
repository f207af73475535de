import Verif.Range.Spec
import Verif.Round.Lemmas
import Verif.Round.Even

/-!
# Lemmas: errors with underflow
-/

namespace SpatialOps
namespace Range

open Nebo Round Stencil

section
variable {K : Type} [Field K] [LinearOrder K] [IsStrictOrderedRing K] {u tiny top : K} {rnd : K → K}

/-- `v` approximates `x`, of size at most `X`, with an error of `k` roundings and of `H` from underflow. -/
def Near (u : K) (k : Nat) (H v x X : K) : Prop := |v - x| ≤ grow u k * X + H ∧ |x| ≤ X ∧ 0 ≤ H

namespace Near

theorem size {k : Nat} {H v x X : K} (h : Near u k H v x X) : 0 ≤ X := (abs_nonneg x).trans h.2.1

theorem self (x : K) : Near u 0 0 x x |x| := ⟨by simp [grow], le_refl _, le_refl _⟩

theorem le {k : Nat} {H v x X : K} (h : Near u k H v x X) : |v| ≤ (1 + u) ^ k * X + H := by
  have h1 := abs_add_le x (v - x)
  rw [add_sub_cancel] at h1
  have h2 := h.1
  have h3 := h.2.1
  unfold grow at h2
  linarith

theorem mono (hu : 0 ≤ u) {k l : Nat} (hkl : k ≤ l) {H v x X : K} (h : Near u k H v x X) : Near u l H v x X :=
  ⟨h.1.trans (add_le_add (mul_le_mul_of_nonneg_right (grow_mono hu hkl) h.size) le_rfl), h.2⟩

theorem more {k : Nat} {H H' v x X : K} (h : Near u k H v x X) (hH : H ≤ H') : Near u k H' v x X :=
  ⟨h.1.trans (by linarith), h.2.1, h.2.2.trans hH⟩

theorem rounded (hl : Limited u tiny top rnd) {k : Nat} {H v x X : K} (h : Near u k H v x X) (ht : (1 + u) ^ k * X + H ≤ top) :
    Near u (k + 1) ((1 + u) * H + tiny) (rnd v) x X := by
  refine ⟨?_, h.2.1, add_nonneg (mul_nonneg (by linarith [hl.unit_nonneg]) h.2.2) hl.tiny_nonneg⟩
  have h1 := hl.close v (h.le.trans ht)
  have h2 := abs_sub_le (rnd v) v x
  have h3 := mul_le_mul_of_nonneg_left h.le hl.unit_nonneg
  have h4 := h.1
  have e : grow u (k + 1) * X + ((1 + u) * H + tiny) = u * ((1 + u) ^ k * X + H) + tiny + (grow u k * X + H) := by
    unfold grow
    ring
  rw [e]
  linarith

theorem add {k : Nat} {H v x X H' w y Y : K} (h1 : Near u k H v x X) (h2 : Near u k H' w y Y) : Near u k (H + H') (v + w) (x + y) (X + Y) := by
  refine ⟨?_, (abs_add_le x y).trans (add_le_add h1.2.1 h2.2.1), add_nonneg h1.2.2 h2.2.2⟩
  have := abs_add_le (v - x) (w - y)
  rw [show v - x + (w - y) = v + w - (x + y) by ring] at this
  have a := h1.1
  have b := h2.1
  linarith [mul_add (grow u k) X Y]

omit [IsStrictOrderedRing K] in
theorem neg {k : Nat} {H v x X : K} (h : Near u k H v x X) : Near u k H (-v) (-x) X :=
  ⟨by rw [show -v - -x = -(v - x) by ring, abs_neg]; exact h.1, by rw [abs_neg]; exact h.2.1, h.2.2⟩

theorem sub {k : Nat} {H v x X H' w y Y : K} (h1 : Near u k H v x X) (h2 : Near u k H' w y Y) : Near u k (H + H') (v - w) (x - y) (X + Y) := by
  rw [sub_eq_add_neg, sub_eq_add_neg]
  exact h1.add h2.neg

theorem mul (hu : 0 ≤ u) {k l : Nat} {H v x X H' w y Y : K} (h1 : Near u k H v x X) (h2 : Near u l H' w y Y) :
    Near u (k + l) ((1 + u) ^ k * X * H' + (1 + u) ^ l * Y * H + H * H') (v * w) (x * y) (X * Y) := by
  have p : ∀ n : Nat, (0 : K) ≤ (1 + u) ^ n := fun n => pow_nonneg (by linarith) n
  refine ⟨?_, ?_, ?_⟩
  · have e : v * w - x * y = (v - x) * (w - y) + x * (w - y) + (v - x) * y := by ring
    rw [e]
    have t1 := abs_add_le ((v - x) * (w - y) + x * (w - y)) ((v - x) * y)
    have t2 := abs_add_le ((v - x) * (w - y)) (x * (w - y))
    rw [abs_mul (v - x) y] at t1
    rw [abs_mul (v - x) (w - y), abs_mul x (w - y)] at t2
    have g1 : 0 ≤ grow u k * X + H := (abs_nonneg _).trans h1.1
    have b1 : |v - x| * |w - y| ≤ (grow u k * X + H) * (grow u l * Y + H') := mul_le_mul h1.1 h2.1 (abs_nonneg _) g1
    have b2 : |x| * |w - y| ≤ X * (grow u l * Y + H') := mul_le_mul h1.2.1 h2.1 (abs_nonneg _) h1.size
    have b3 : |v - x| * |y| ≤ (grow u k * X + H) * Y := mul_le_mul h1.1 h2.2.1 (abs_nonneg _) g1
    have e2 : grow u (k + l) * (X * Y) + ((1 + u) ^ k * X * H' + (1 + u) ^ l * Y * H + H * H') =
        (grow u k * X + H) * (grow u l * Y + H') + X * (grow u l * Y + H') + (grow u k * X + H) * Y := by
      unfold grow; rw [pow_add]; ring
    rw [e2]
    linarith
  · rw [abs_mul]
    exact mul_le_mul h1.2.1 h2.2.1 (abs_nonneg _) h1.size
  · exact add_nonneg (add_nonneg (mul_nonneg (mul_nonneg (p k) h1.size) h2.2.2) (mul_nonneg (mul_nonneg (p l) h2.size) h1.2.2))
      (mul_nonneg h1.2.2 h2.2.2)

theorem scale (hu : 0 ≤ u) {k : Nat} {H v x X : K} (h : Near u k H v x X) (y : K) : Near u k (H * |y|) (v * y) (x * y) (X * |y|) := by
  have := h.mul hu (self (u := u) y)
  simpa [mul_comm] using this

theorem div (hu : 0 ≤ u) {k : Nat} {H v x X : K} (h : Near u k H v x X) (y : K) : Near u k (H / |y|) (v / y) (x / y) (X / |y|) := by
  have := h.scale hu y⁻¹
  rw [abs_inv] at this
  simpa [div_eq_mul_inv] using this

end Near

/-! ## Sums -/

/-- A sum of terms added one after the other, every addition rounded. -/
theorem near_pts {α : Type} (hl : Limited u tiny top rnd) (pts : Pts α) (t : α → Fl rnd) (H x X : α → K) (k : Nat)
    (h : ∀ a ∈ pts.toList, Near u k (H a) (t a).val (x a) (X a))
    (ht : (1 + u) ^ (k + (pts.toList.length - 1)) * (pts.toList.map X).sum +
      (1 + u) ^ (pts.toList.length - 1) * ((pts.toList.map H).sum + (pts.toList.length - 1 : Nat) * tiny) ≤ top) :
    Near u (k + (pts.toList.length - 1)) ((1 + u) ^ (pts.toList.length - 1) * ((pts.toList.map H).sum + (pts.toList.length - 1 : Nat) * tiny))
      (pts.sum t).val (pts.toList.map x).sum (pts.toList.map X).sum := by
  have hu := hl.unit_nonneg
  have h0 := hl.tiny_nonneg
  have p0 : ∀ n : Nat, (0 : K) ≤ (1 + u) ^ n := fun n => pow_nonneg (by linarith) n
  have p1 : ∀ n : Nat, (1 : K) ≤ (1 + u) ^ n := fun n => one_le_pow₀ (by linarith)
  induction pts with
  | one a => simpa [Pts.toList, Pts.sum] using h a (by simp [Pts.toList])
  | more e a ih =>
    have hn : 0 < e.toList.length := by cases e <;> simp [Pts.toList]
    obtain ⟨n, hn⟩ : ∃ n, e.toList.length = n + 1 := ⟨e.toList.length - 1, by omega⟩
    have h2 := h a (by simp [Pts.toList])
    have e1 : ((Pts.more e a).toList.length - 1) = n + 1 := by simp [Pts.toList, hn]
    have e2 : ∀ f : α → K, ((Pts.more e a).toList.map f).sum = (e.toList.map f).sum + f a := fun f => by simp [Pts.toList]
    rw [e1, e2, e2] at ht
    rw [e1, e2, e2, e2]
    rw [hn, Nat.add_sub_cancel] at ih
    have hX : 0 ≤ X a := h2.size
    have hH : 0 ≤ H a := h2.2.2
    have q : (1 + u : K) ^ (k + n) ≤ (1 + u) ^ (k + (n + 1)) := pow_le_pow_right₀ (by linarith) (by omega)
    have hXe : 0 ≤ (e.toList.map X).sum := List.sum_nonneg (by
      intro y hy
      obtain ⟨b, hb, rfl⟩ := List.mem_map.1 hy
      exact (h b (by simp [Pts.toList, hb])).size)
    have hHe : 0 ≤ (e.toList.map H).sum := List.sum_nonneg (by
      intro y hy
      obtain ⟨b, hb, rfl⟩ := List.mem_map.1 hy
      exact (h b (by simp [Pts.toList, hb])).2.2)
    have hs : 0 ≤ (e.toList.map H).sum + (n : K) * tiny := by positivity
    -- what has been lost up to here is less than what is allowed in the end
    have s0 : (1 + u) ^ n * ((e.toList.map H).sum + (n : K) * tiny) + H a ≤
        (1 + u) ^ n * ((e.toList.map H).sum + H a + (n : K) * tiny) := by
      have := mul_le_mul_of_nonneg_right (p1 n) hH
      linarith [mul_add ((1 + u) ^ n) ((e.toList.map H).sum + (n : K) * tiny) (H a)]
    have s1 : (1 + u) ^ n * ((e.toList.map H).sum + H a + (n : K) * tiny) ≤
        (1 + u) ^ (n + 1) * ((e.toList.map H).sum + H a + ((n + 1 : Nat) : K) * tiny) := by
      refine mul_le_mul (pow_le_pow_right₀ (by linarith) (by omega)) ?_ (by positivity) (p0 _)
      push_cast
      linarith
    have s2 : (1 + u) ^ (k + n) * ((e.toList.map X).sum + X a) ≤ (1 + u) ^ (k + (n + 1)) * ((e.toList.map X).sum + X a) :=
      mul_le_mul_of_nonneg_right q (by positivity)
    have s3 : (1 + u) ^ (k + n) * (e.toList.map X).sum ≤ (1 + u) ^ (k + n) * ((e.toList.map X).sum + X a) :=
      mul_le_mul_of_nonneg_left (by linarith) (p0 _)
    have h1 := ih (fun b hb => h b (by simp [Pts.toList, hb])) (by linarith)
    have h3 := (h1.add (h2.mono hu (Nat.le_add_right k n))).rounded hl (by linarith)
    refine Near.more (H := _) (show Near u (k + (n + 1)) _ (e.sum t + t a).val _ _ from h3) ?_
    calc _ ≤ (1 + u) * ((1 + u) ^ n * ((e.toList.map H).sum + H a + (n : K) * tiny)) + (1 + u) ^ (n + 1) * tiny :=
          add_le_add (mul_le_mul_of_nonneg_left s0 (by linarith)) (le_mul_of_one_le_left h0 (p1 _))
      _ = _ := by push_cast; ring

/-- The same for a reduction. -/
theorem near_foldl {α : Type} (hl : Limited u tiny top rnd) (rest : List α) (t : α → Fl rnd) (H x X : α → K) (k l : Nat) (r : Fl rnd) (G y Y : K)
    (hr : Near u (k + l) G r.val y Y) (h : ∀ a ∈ rest, Near u k (H a) (t a).val (x a) (X a))
    (ht : (1 + u) ^ (k + l + rest.length) * (Y + (rest.map X).sum) +
      (1 + u) ^ rest.length * (G + (rest.map H).sum + rest.length * tiny) ≤ top) :
    Near u (k + l + rest.length) ((1 + u) ^ rest.length * (G + (rest.map H).sum + rest.length * tiny))
      (rest.foldl (fun s a => s + t a) r).val (y + (rest.map x).sum) (Y + (rest.map X).sum) := by
  have hu := hl.unit_nonneg
  have h0 := hl.tiny_nonneg
  have p0 : ∀ n : Nat, (0 : K) ≤ (1 + u) ^ n := fun n => pow_nonneg (by linarith) n
  have p1 : ∀ n : Nat, (1 : K) ≤ (1 + u) ^ n := fun n => one_le_pow₀ (by linarith)
  induction rest generalizing r G y Y l with
  | nil => simpa using hr
  | cons a rest ih =>
    have h2 := h a (by simp)
    have hX : 0 ≤ X a := h2.size
    have hH : 0 ≤ H a := h2.2.2
    have hG : 0 ≤ G := hr.2.2
    have hY : 0 ≤ Y := hr.size
    have hXe : 0 ≤ (rest.map X).sum := List.sum_nonneg (by
      intro y hy
      obtain ⟨b, hb, rfl⟩ := List.mem_map.1 hy
      exact (h b (by simp [hb])).size)
    have hHe : 0 ≤ (rest.map H).sum := List.sum_nonneg (by
      intro y hy
      obtain ⟨b, hb, rfl⟩ := List.mem_map.1 hy
      exact (h b (by simp [hb])).2.2)
    simp only [List.map_cons, List.sum_cons, List.length_cons, List.foldl_cons] at ht ⊢
    -- the first addition
    have c1 : (1 + u) ^ (k + l) * (Y + X a) + (G + H a) ≤ top := by
      refine le_trans (add_le_add ?_ ?_) ht
      · exact mul_le_mul (pow_le_pow_right₀ (by linarith) (by omega)) (by linarith) (by positivity) (p0 _)
      · refine le_trans ?_ (le_mul_of_one_le_left (by positivity) (p1 _))
        have : (0 : K) ≤ ((rest.length + 1 : Nat) : K) * tiny := by positivity
        linarith
    have h3 : Near u (k + (l + 1)) _ (r + t a).val (y + x a) (Y + X a) := (hr.add (h2.mono hu (Nat.le_add_right k l))).rounded hl c1
    -- what is allowed for the rest
    have c2 : (1 + u) ^ rest.length * ((1 + u) * (G + H a) + tiny + (rest.map H).sum + rest.length * tiny) ≤
        (1 + u) ^ (rest.length + 1) * (G + (H a + (rest.map H).sum) + ((rest.length + 1 : Nat) : K) * tiny) := by
      rw [pow_succ, mul_assoc]
      refine mul_le_mul_of_nonneg_left ?_ (p0 _)
      have a1 : (rest.map H).sum ≤ (1 + u) * (rest.map H).sum := le_mul_of_one_le_left hHe (by linarith)
      have a2 : (rest.length : K) * tiny + tiny ≤ (1 + u) * ((rest.length : K) * tiny + tiny) :=
        le_mul_of_one_le_left (by positivity) (by linarith)
      push_cast
      linarith [mul_add (1 + u) (G + H a) (rest.map H).sum, mul_add (1 + u) (G + H a + (rest.map H).sum) ((rest.length : K) * tiny + tiny)]
    have h4 := ih (l := l + 1) (r := r + t a) (G := _) (y := y + x a) (Y := Y + X a) h3 (fun b hb => h b (by simp [hb])) (by
      refine le_trans (add_le_add (le_of_eq ?_) c2) ht
      rw [show k + (l + 1) + rest.length = k + l + (rest.length + 1) by omega, add_assoc Y])
    rw [show k + (l + 1) + rest.length = k + l + (rest.length + 1) by omega, add_assoc y, add_assoc Y] at h4
    exact h4.more c2

/-! ## Formulas -/

theorem near_formula (hl : Limited u tiny top rnd) (m : Mem (Fl rnd)) (f : Formula rnd) (c : IntVec) (h : Fits u tiny top m f c) :
    Near u f.depth (lost u tiny m f c) (f.expr.value m c : Fl rnd).val (f.exact m c) (f.size m c) := by
  have hu := hl.unit_nonneg
  have h0 := hl.tiny_nonneg
  have p0 : ∀ n : Nat, (0 : K) ≤ (1 + u) ^ n := fun n => pow_nonneg (by linarith) n
  have p1 : ∀ n : Nat, (1 : K) ≤ (1 + u) ^ n := fun n => one_le_pow₀ (by linarith)
  -- a result before it is rounded is no larger than after
  have before : ∀ {k : Nat} {H X : K}, 0 ≤ X → 0 ≤ H → (1 + u) ^ (k + 1) * X + ((1 + u) * H + tiny) ≤ top → (1 + u) ^ k * X + H ≤ top := by
    intro k H X hX hH ht
    have a1 := mul_le_mul_of_nonneg_right (pow_le_pow_right₀ (show (1 : K) ≤ 1 + u by linarith) (show k ≤ k + 1 by omega)) hX
    have a2 : H ≤ (1 + u) * H := le_mul_of_one_le_left hH (by linarith)
    linarith
  induction f generalizing c with
  | const v => exact Near.self _
  | field f => exact Near.self _
  | single f => exact Near.self _
  | add a b iha ihb =>
    obtain ⟨f1, f2, f3⟩ := h
    have := ((iha c f1).mono hu (le_max_left a.depth b.depth)).add ((ihb c f2).mono hu (le_max_right a.depth b.depth))
    exact this.rounded hl (before this.size this.2.2 f3)
  | sub a b iha ihb =>
    obtain ⟨f1, f2, f3⟩ := h
    have := ((iha c f1).mono hu (le_max_left a.depth b.depth)).sub ((ihb c f2).mono hu (le_max_right a.depth b.depth))
    exact this.rounded hl (before this.size this.2.2 f3)
  | mul a b iha ihb =>
    obtain ⟨f1, f2, f3⟩ := h
    have := (iha c f1).mul hu (ihb c f2)
    exact this.rounded hl (before this.size this.2.2 f3)
  | neg a iha => exact (iha c h).neg
  | overConst a v iha =>
    have := (iha c h.1).div hu v.val
    exact this.rounded hl (before this.size this.2.2 h.2)
  | overField a f iha =>
    have := (iha c h.1).div hu (valueAt m f c).val
    exact this.rounded hl (before this.size this.2.2 h.2)
  | stencil pts a iha =>
    obtain ⟨f1, f2⟩ := h
    have hp : 0 < pts.toList.length := by cases pts <;> simp [Pts.toList]
    obtain ⟨n, hn⟩ : ∃ n, pts.toList.length = n + 1 := ⟨pts.toList.length - 1, by omega⟩
    have term : ∀ q ∈ pts.toList, Near u a.depth (lost u tiny m a (c + q.1) * |q.2.val|) ((a.expr.value m (c + q.1) : Fl rnd).val * q.2.val)
        (a.exact m (c + q.1) * q.2.val) (a.size m (c + q.1) * |q.2.val|) := fun q hq => (iha (c + q.1) (f1 q hq)).scale hu q.2.val
    -- the sums of the terms bound each of them
    have each : ∀ (g : IntVec × Fl rnd → K), (∀ q ∈ pts.toList, 0 ≤ g q) → ∀ q ∈ pts.toList, g q ≤ (pts.toList.map g).sum := fun g hg q hq =>
      List.single_le_sum (fun y hy => by obtain ⟨b, hb, rfl⟩ := List.mem_map.1 hy; exact hg b hb) _ (List.mem_map_of_mem hq)
    have lostSum : (pts.toList.map fun q => (1 + u) * (lost u tiny m a (c + q.1) * |q.2.val|) + tiny).sum + (n : K) * tiny ≤
        (1 + u) * (pts.toList.map fun q => lost u tiny m a (c + q.1) * |q.2.val| + 2 * tiny).sum := by
      have e1 : (n : K) * tiny ≤ (pts.toList.length : K) * tiny := by rw [hn]; push_cast; linarith
      have e2 : ∀ l : List (IntVec × Fl rnd), (∀ q ∈ l, q ∈ pts.toList) →
          (l.map fun q => (1 + u) * (lost u tiny m a (c + q.1) * |q.2.val|) + tiny).sum + (l.length : K) * tiny ≤
          (1 + u) * (l.map fun q => lost u tiny m a (c + q.1) * |q.2.val| + 2 * tiny).sum := by
        intro l hl
        induction l with
        | nil => simp
        | cons q l ih =>
          have := ih fun q hq => hl q (by simp [hq])
          simp only [List.map_cons, List.sum_cons, List.length_cons]
          push_cast
          linarith [mul_add (1 + u) (lost u tiny m a (c + q.1) * |q.2.val| + 2 * tiny)
            (l.map fun q => lost u tiny m a (c + q.1) * |q.2.val| + 2 * tiny).sum, mul_nonneg hu h0]
      exact (add_le_add le_rfl e1).trans (e2 _ fun q hq => hq)
    have hlost : (1 + u) ^ n * ((pts.toList.map fun q => (1 + u) * (lost u tiny m a (c + q.1) * |q.2.val|) + tiny).sum + (n : K) * tiny) ≤
        lost u tiny m (.stencil pts a) c := by
      have := mul_le_mul_of_nonneg_left lostSum (p0 n)
      rw [← mul_assoc, ← pow_succ, ← hn] at this
      exact this
    have hsize : (Formula.stencil pts a).size m c = (pts.toList.map fun q => a.size m (c + q.1) * |q.2.val|).sum := rfl
    have hdepth : (Formula.stencil pts a).depth = a.depth + (n + 1) := by rw [← hn]; rfl
    unfold peak at f2
    rw [hdepth, hsize] at f2
    have hX : ∀ q ∈ pts.toList, 0 ≤ a.size m (c + q.1) * |q.2.val| := fun q hq => (term q hq).size
    have hH : ∀ q ∈ pts.toList, 0 ≤ lost u tiny m a (c + q.1) * |q.2.val| := fun q hq => (term q hq).2.2
    have := near_pts hl pts (fun q => (a.expr.value m (c + q.1) : Fl rnd) * q.2)
      (fun q => (1 + u) * (lost u tiny m a (c + q.1) * |q.2.val|) + tiny) (fun q => a.exact m (c + q.1) * q.2.val)
      (fun q => a.size m (c + q.1) * |q.2.val|) (a.depth + 1) (fun q hq => by
        refine (term q hq).rounded hl ?_
        refine le_trans (add_le_add ?_ ?_) f2
        · exact mul_le_mul (pow_le_pow_right₀ (by linarith) (by omega)) (each _ hX q hq) (hX q hq) (p0 _)
        · refine le_trans ?_ (le_mul_of_one_le_left (List.sum_nonneg fun y hy => ?_) (p1 _))
          · refine le_trans ?_ (each (fun q => lost u tiny m a (c + q.1) * |q.2.val| + 2 * tiny) (fun q hq => by linarith [hH q hq]) q hq)
            linarith
          · obtain ⟨b, hb, rfl⟩ := List.mem_map.1 hy
            linarith [hH b hb]) (by
        rw [hn, Nat.add_sub_cancel, show a.depth + 1 + n = a.depth + (n + 1) by omega]
        exact (add_le_add le_rfl hlost).trans f2)
    rw [hn, Nat.add_sub_cancel, show a.depth + 1 + n = a.depth + (n + 1) by omega] at this
    rw [hdepth, hsize]
    exact this.more hlost
  | sumStencil pts a iha =>
    obtain ⟨f1, f2⟩ := h
    have hp : 0 < pts.toList.length := by cases pts <;> simp [Pts.toList]
    obtain ⟨n, hn⟩ : ∃ n, pts.toList.length = n + 1 := ⟨pts.toList.length - 1, by omega⟩
    have hlost : (1 + u) ^ n * ((pts.toList.map fun q => lost u tiny m a (c + q)).sum + (n : K) * tiny) ≤ lost u tiny m (.sumStencil pts a) c := by
      have e2 : ∀ l : List IntVec, (l.map fun q => lost u tiny m a (c + q)).sum + (l.length : K) * tiny =
          (l.map fun q => lost u tiny m a (c + q) + tiny).sum := by
        intro l
        induction l with
        | nil => simp
        | cons q l ih =>
          simp only [List.map_cons, List.sum_cons, List.length_cons]
          rw [← ih]
          push_cast
          ring
      have hs : 0 ≤ (pts.toList.map fun q => lost u tiny m a (c + q)).sum := List.sum_nonneg fun y hy => by
        obtain ⟨b, hb, rfl⟩ := List.mem_map.1 hy
        exact (iha (c + b) (f1 b hb)).2.2
      show _ ≤ (1 + u) ^ pts.toList.length * (pts.toList.map fun q => lost u tiny m a (c + q) + tiny).sum
      rw [← e2, hn]
      refine mul_le_mul (pow_le_pow_right₀ (by linarith) (by omega)) ?_ (by positivity) (p0 _)
      push_cast
      linarith
    have := near_pts hl pts (fun q => (a.expr.value m (c + q) : Fl rnd)) (fun q => lost u tiny m a (c + q)) (fun q => a.exact m (c + q))
      (fun q => a.size m (c + q)) a.depth (fun q hq => iha (c + q) (f1 q hq)) (by
        rw [hn, Nat.add_sub_cancel]
        refine le_trans (add_le_add (le_of_eq ?_) hlost) f2
        show _ = (1 + u) ^ (a.depth + (pts.toList.length - 1)) * _
        rw [hn, Nat.add_sub_cancel]
        rfl)
    rw [hn, Nat.add_sub_cancel] at this
    have hd : (Formula.sumStencil pts a).depth = a.depth + n := by
      show a.depth + (pts.toList.length - 1) = _
      rw [hn, Nat.add_sub_cancel]
    rw [hd]
    exact this.more hlost
  | cond t a b iha ihb =>
    have e1 : ((Formula.cond t a b).expr.value m c : Fl rnd) = if t.value m c then (a.expr.value m c : Fl rnd) else b.expr.value m c := rfl
    have e2 : (Formula.cond t a b).exact m c = if t.value m c then a.exact m c else b.exact m c := rfl
    have e3 : (Formula.cond t a b).size m c = if t.value m c then a.size m c else b.size m c := rfl
    have e4 : lost u tiny m (Formula.cond t a b) c = if t.value m c then lost u tiny m a c else lost u tiny m b c := rfl
    have e5 : Fits u tiny top m (Formula.cond t a b) c = if t.value m c then Fits u tiny top m a c else Fits u tiny top m b c := rfl
    rw [e5] at h
    rw [e1, e2, e3, e4]
    split_ifs at h ⊢
    · exact (iha c h).mono hu (le_max_left _ _)
    · exact (ihb c h).mono hu (le_max_right _ _)

end
end Range
end SpatialOps
