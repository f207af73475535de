import Verif.Order.Spec
import Verif.Rewrite.Props

/-!
# Property C111: results that rise and fall with the data
-/

namespace SpatialOps
namespace Order

open Nebo Round Stencil Range

section
variable {K : Type} [Field K] [LinearOrder K] [IsStrictOrderedRing K] {rnd : K → K}

/-- `x` to `y` is a step up or a step down. -/
def Step (up : Bool) (x y : K) : Prop := if up then x ≤ y else y ≤ x

omit [Field K] [IsStrictOrderedRing K] in
theorem Step.round {r : K → K} (hr : ∀ x y, x ≤ y → r x ≤ r y) {up : Bool} {x y : K} (h : Step up x y) : Step up (r x) (r y) := by
  cases up
  · exact hr _ _ h
  · exact hr _ _ h

theorem Step.add {up : Bool} {x y x' y' : K} (h : Step up x y) (h' : Step up x' y') : Step up (x + x') (y + y') := by
  cases up
  · exact add_le_add (α := K) h h'
  · exact add_le_add (α := K) h h'

theorem Step.neg {up : Bool} {x y : K} (h : Step (!up) x y) : Step up (-x) (-y) := by
  cases up
  · exact neg_le_neg (α := K) h
  · exact neg_le_neg (α := K) h

theorem Step.mul_pos {up : Bool} {x y v : K} (h : Step up x y) (hv : 0 ≤ v) : Step up (x * v) (y * v) := by
  cases up
  · exact mul_le_mul_of_nonneg_right (α := K) h hv
  · exact mul_le_mul_of_nonneg_right (α := K) h hv

theorem Step.mul_neg {up : Bool} {x y v : K} (h : Step (!up) x y) (hv : v ≤ 0) : Step up (x * v) (y * v) := by
  have := (Step.mul_pos h (neg_nonneg.2 hv)).neg (up := up)
  rwa [_root_.mul_neg, _root_.mul_neg, neg_neg, neg_neg] at this

theorem Step.mul_any {up : Bool} {x y v : K} (h : (0 ≤ v ∧ Step up x y) ∨ (v ≤ 0 ∧ Step (!up) x y)) : Step up (x * v) (y * v) := by
  rcases h with ⟨hv, h⟩ | ⟨hv, h⟩
  · exact h.mul_pos hv
  · exact h.mul_neg hv

theorem Step.div_any {up : Bool} {x y v : K} (h : (0 ≤ v ∧ Step up x y) ∨ (v ≤ 0 ∧ Step (!up) x y)) : Step up (x / v) (y / v) := by
  rw [div_eq_mul_inv, div_eq_mul_inv]
  refine Step.mul_any ?_
  rcases h with ⟨hv, h⟩ | ⟨hv, h⟩
  · exact .inl ⟨inv_nonneg.2 hv, h⟩
  · exact .inr ⟨inv_nonpos.2 hv, h⟩

theorem Step.mul {up : Bool} {x y x' y' : K} (h : Step up x y) (h' : Step up x' y') (h1 : 0 ≤ x) (h2 : 0 ≤ x') (h3 : 0 ≤ y) (h4 : 0 ≤ y') :
    Step up (x * x') (y * y') := by
  cases up
  · exact mul_le_mul (α := K) h h' h4 h1
  · exact mul_le_mul (α := K) h h' h2 h3

theorem step_sum {A : Type} (hr : ∀ x y, x ≤ y → rnd x ≤ rnd y) {up : Bool} (t t' : A → Fl rnd) (pts : Pts A)
    (h : ∀ a ∈ pts.toList, Step up (t a).val (t' a).val) : Step up (pts.sum t).val (pts.sum t').val := by
  induction pts with
  | one a => exact h a (by simp [Pts.toList])
  | more e a ih => exact (Step.add (ih fun b hb => h b (by simp [Pts.toList, hb])) (h a (by simp [Pts.toList]))).round hr

/-- Formulas move as their form says. -/
theorem moves_value (hr : ∀ x y, x ≤ y → rnd x ≤ rnd y) (m m' : Mem (Fl rnd)) (up : Bool) (f : Formula rnd) (c : IntVec) (h : Moves m m' up f c) :
    Step up (f.expr.value m c : Fl rnd).val (f.expr.value m' c : Fl rnd).val := by
  induction f generalizing up c with
  | const v => cases up <;> exact le_refl v.val
  | field f => exact h
  | single f => exact h
  | add a b iha ihb => exact ((iha up c h.1).add (ihb up c h.2)).round hr
  | sub a b iha ihb =>
    have := ((iha up c h.1).add (ihb (!up) c h.2).neg).round hr
    rw [← sub_eq_add_neg, ← sub_eq_add_neg] at this
    exact this
  | neg a iha => exact (iha (!up) c h).neg
  | mul a b iha ihb =>
    show Step up (rnd ((a.expr.value m c : Fl rnd).val * (b.expr.value m c : Fl rnd).val)) (rnd ((a.expr.value m' c : Fl rnd).val * (b.expr.value m' c : Fl rnd).val))
    rcases h with ⟨h1, h2⟩ | ⟨h1, h2⟩ | ⟨h1, h2, h3, h4, h5, h6⟩
    · rw [← h1]
      simp only [mul_comm (Fl.val (Expr.value m a.expr c))]
      exact (Step.mul_any (h2.imp (fun h => ⟨h.1, ihb up c h.2⟩) (fun h => ⟨h.1, ihb (!up) c h.2⟩))).round hr
    · rw [← h1]
      exact (Step.mul_any (h2.imp (fun h => ⟨h.1, iha up c h.2⟩) (fun h => ⟨h.1, iha (!up) c h.2⟩))).round hr
    · exact ((iha up c h1).mul (ihb up c h2) h3 h4 h5 h6).round hr
  | overConst a v iha => exact (Step.div_any (h.imp (fun h => ⟨h.1, iha up c h.2⟩) (fun h => ⟨h.1, iha (!up) c h.2⟩))).round hr
  | overField a f iha =>
    obtain ⟨h1, h2⟩ := h
    show Step up (rnd (_ / (valueAt m f c).val)) (rnd (_ / (valueAt m' f c).val))
    rw [← h1]
    exact (Step.div_any (h2.imp (fun h => ⟨h.1, iha up c h.2⟩) (fun h => ⟨h.1, iha (!up) c h.2⟩))).round hr
  | stencil pts a iha =>
    exact step_sum hr _ _ pts fun q hq =>
      (Step.mul_any ((h q hq).imp (fun h => ⟨h.1, iha up _ h.2⟩) (fun h => ⟨h.1, iha (!up) _ h.2⟩))).round hr
  | sumStencil pts a iha => exact step_sum hr _ _ pts fun q hq => iha up _ (h q hq)
  | cond t a b iha ihb =>
    obtain ⟨h1, h2⟩ := h
    show Step up (if t.value m c then (a.expr.value m c : Fl rnd) else b.expr.value m c).val (if t.value m' c then (a.expr.value m' c : Fl rnd) else b.expr.value m' c).val
    rw [← h1]
    by_cases ht : t.value m c = true
    · rw [if_pos ht] at h2 ⊢
      rw [if_pos ht]
      exact iha up c h2
    · rw [if_neg ht] at h2 ⊢
      rw [if_neg ht]
      exact ihb up c h2

/-- Formulas without negative numbers. -/
theorem positive_value (hr : ∀ x y, x ≤ y → rnd x ≤ rnd y) (h0 : rnd 0 = 0) (m : Mem (Fl rnd)) (f : Formula rnd) (c : IntVec) (h : Positive m f c) :
    0 ≤ (f.expr.value m c : Fl rnd).val := by
  have pos : ∀ x, 0 ≤ x → 0 ≤ rnd x := fun x hx => by rw [← h0]; exact hr 0 x hx
  have sum : ∀ {A : Type} (t : A → Fl rnd) (pts : Pts A), (∀ a ∈ pts.toList, 0 ≤ (t a).val) → 0 ≤ (pts.sum t).val := by
    intro A t pts ht
    induction pts with
    | one a => exact ht a (by simp [Pts.toList])
    | more e a ih => exact pos _ (add_nonneg (ih fun b hb => ht b (by simp [Pts.toList, hb])) (ht a (by simp [Pts.toList])))
  induction f generalizing c with
  | const v => exact h
  | field f => exact h
  | single f => exact h
  | add a b iha ihb => exact pos _ (add_nonneg (iha c h.1) (ihb c h.2))
  | sub a b => exact h.elim
  | mul a b iha ihb => exact pos _ (mul_nonneg (iha c h.1) (ihb c h.2))
  | neg a => exact h.elim
  | overConst a v iha => exact pos _ (div_nonneg (iha c h.1) h.2)
  | overField a f iha => exact pos _ (div_nonneg (iha c h.1) h.2)
  | stencil pts a iha => exact sum _ pts fun q hq => pos _ (mul_nonneg (iha _ (h q hq).2) (h q hq).1)
  | sumStencil pts a iha => exact sum _ pts fun q hq => iha _ (h q hq)
  | cond t a b iha ihb =>
    show 0 ≤ (if t.value m c then (a.expr.value m c : Fl rnd) else b.expr.value m c).val
    simp only [Positive] at h
    split
    · rename_i ht
      rw [if_pos ht] at h
      exact iha c h
    · rename_i ht
      rw [if_neg ht] at h
      exact ihb c h

/-- C111. An assignment on two sets of data: wherever the formula rises by its form from one to the other, so does the value written, and wherever it falls, that
falls. Rounding never reverses the order, if it is monotone. -/
theorem _root_.SpatialOps.C111_moves (hr : ∀ x y, x ≤ y → rnd x ≤ rnd y) (n : IntVec) (hn : IntVec.Lt 0 n) (l : FieldObj) (b : Nat) (ht : Target n l b)
    (f : Formula rnd) (he : f.expr.Wf n) (hd : ∀ c, Interior n l c → f.expr.DefinedAt n c) (hi : f.expr.Independent l 0) (m m' : Mem (Fl rnd)) :
    (∃ x y, assign l f.expr m = .ok x ∧ assign l f.expr m' = .ok y ∧ ∀ c, Stored n l c → f.expr.DefinedAt n c →
      (Moves m m' true f c → (x b (cellAddr l.geo c)).val ≤ (y b (cellAddr l.geo c)).val) ∧
      (Moves m m' false f c → (y b (cellAddr l.geo c)).val ≤ (x b (cellAddr l.geo c)).val)) ∧
    (∃ x y, interiorAssign l f.expr m = .ok x ∧ interiorAssign l f.expr m' = .ok y ∧ ∀ c, Interior n l c →
      (Moves m m' true f c → (x b (cellAddr l.geo c)).val ≤ (y b (cellAddr l.geo c)).val) ∧
      (Moves m m' false f c → (y b (cellAddr l.geo c)).val ≤ (x b (cellAddr l.geo c)).val)) := by
  constructor
  · obtain ⟨x, h1, h2, -⟩ := C22_assign_pointwise n hn l b ht f.expr he hd hi m
    obtain ⟨y, h3, h4, -⟩ := C22_assign_pointwise n hn l b ht f.expr he hd hi m'
    refine ⟨x, y, h1, h3, fun c hs hc => ?_⟩
    rw [h2 c ⟨hs, hc⟩, h4 c ⟨hs, hc⟩]
    exact ⟨moves_value hr m m' true f c, moves_value hr m m' false f c⟩
  · obtain ⟨x, h1, h2, -⟩ := C22_interior_assign_pointwise n hn l b ht f.expr he hd hi m
    obtain ⟨y, h3, h4, -⟩ := C22_interior_assign_pointwise n hn l b ht f.expr he hd hi m'
    refine ⟨x, y, h1, h3, fun c hc => ?_⟩
    rw [h2 c hc, h4 c hc]
    exact ⟨moves_value hr m m' true f c, moves_value hr m m' false f c⟩

/-- C111. Without negative numbers, differences and negations in the formula no value written is negative. -/
theorem _root_.SpatialOps.C111_positive (hr : ∀ x y, x ≤ y → rnd x ≤ rnd y) (h0 : rnd 0 = 0) (n : IntVec) (hn : IntVec.Lt 0 n) (l : FieldObj) (b : Nat)
    (ht : Target n l b) (f : Formula rnd) (he : f.expr.Wf n) (hd : ∀ c, Interior n l c → f.expr.DefinedAt n c) (hi : f.expr.Independent l 0)
    (m : Mem (Fl rnd)) :
    (∃ x, assign l f.expr m = .ok x ∧ ∀ c, Stored n l c → f.expr.DefinedAt n c → Positive m f c → 0 ≤ (x b (cellAddr l.geo c)).val) ∧
    (∃ x, interiorAssign l f.expr m = .ok x ∧ ∀ c, Interior n l c → Positive m f c → 0 ≤ (x b (cellAddr l.geo c)).val) := by
  constructor
  · obtain ⟨x, h1, h2, -⟩ := C22_assign_pointwise n hn l b ht f.expr he hd hi m
    refine ⟨x, h1, fun c hs hc hp => ?_⟩
    rw [h2 c ⟨hs, hc⟩]
    exact positive_value hr h0 m f c hp
  · obtain ⟨x, h1, h2, -⟩ := C22_interior_assign_pointwise n hn l b ht f.expr he hd hi m
    refine ⟨x, h1, fun c hc hp => ?_⟩
    rw [h2 c hc]
    exact positive_value hr h0 m f c hp

theorem foldl_le (hr : ∀ x y, x ≤ y → rnd x ≤ rnd y) {A : Type} (t t' : A → Fl rnd) (rest : List A) (r r' : Fl rnd) (h : r.val ≤ r'.val)
    (ht : ∀ a ∈ rest, (t a).val ≤ (t' a).val) : (rest.foldl (fun s a => s + t a) r).val ≤ (rest.foldl (fun s a => s + t' a) r').val := by
  induction rest generalizing r r' with
  | nil => exact h
  | cons a rest ih =>
    rw [List.foldl_cons, List.foldl_cons]
    exact ih _ _ (hr _ _ (add_le_add h (ht a (by simp)))) fun b hb => ht b (by simp [hb])

/-- C111. `nebo_sum` and `nebo_sum_interior` of formulas that rise everywhere do not fall. -/
theorem _root_.SpatialOps.C111_sum (hr : ∀ x y, x ≤ y → rnd x ≤ rnd y) (n : IntVec) (hn : IntVec.Lt 0 n) (f : Formula rnd) (he : f.expr.Wf n)
    (hs : f.expr.StencilFree) (ho : f.expr.HasOperand) (hd : ∀ c, InBlock n c → f.expr.DefinedAt n c) (m m' : Mem (Fl rnd)) :
    (∃ r r' : Fl rnd, Returns (neboSum f.expr m) r ∧ Returns (neboSum f.expr m') r' ∧
      ((∀ c, f.expr.DefinedAt n c → Moves m m' true f c) → r.val ≤ r'.val)) ∧
    (∃ r r' : Fl rnd, Returns (neboSumInterior f.expr m) r ∧ Returns (neboSumInterior f.expr m') r' ∧
      ((∀ c, InBlock n c → Moves m m' true f c) → r.val ≤ r'.val)) := by
  have key : ∀ (P : IntVec → Prop) (first first' : IntVec) (rest rest' : List IntVec), Lists (first :: rest) P → Lists (first' :: rest') P →
      (∀ c, P c → Moves m m' true f c) →
      (rest.foldl (fun s c => s + f.expr.value m c) (f.expr.value m first : Fl rnd)).val ≤
        (rest'.foldl (fun s c => s + f.expr.value m' c) (f.expr.value m' first' : Fl rnd)).val := by
    intro P first first' rest rest' h1 h2 h
    obtain ⟨rfl, rfl⟩ := List.cons.inj (Lists.unique h1 h2)
    exact foldl_le hr _ _ rest _ _ (moves_value hr m m' true f first (h first ((h1.2 first).1 (by simp))))
      fun c hc => moves_value hr m m' true f c (h c ((h1.2 c).1 (by simp [hc])))
  constructor
  · obtain ⟨first, rest, h1, h2⟩ := C27_reduce_all_cells n hn f.expr he hs ho hd (fun a b => a + b) m
    obtain ⟨first', rest', h3, h4⟩ := C27_reduce_all_cells n hn f.expr he hs ho hd (fun a b => a + b) m'
    exact ⟨_, _, h2, h4, key _ first first' rest rest' h1 h3⟩
  · obtain ⟨first, rest, h1, h2⟩ := C28_interior_reduce n hn f.expr he hs ho hd (fun a b => a + b) m
    obtain ⟨first', rest', h3, h4⟩ := C28_interior_reduce n hn f.expr he hs ho hd (fun a b => a + b) m'
    exact ⟨_, _, h2, h4, key _ first first' rest rest' h1 h3⟩

end

section
variable {K : Type} [Field K] [LinearOrder K] [IsStrictOrderedRing K] [FloorRing K]

/-- C111. Rounding to nearest even is monotone, with and without underflow. -/
theorem _root_.SpatialOps.C111_nearest_even {p : Nat} (hp : 1 ≤ p) (emin : Int) :
    (∀ x y : K, x ≤ y → roundEven p x ≤ roundEven p y) ∧ (∀ x y : K, x ≤ y → gradual p emin x ≤ gradual p emin y) := by
  refine ⟨fun x y h => roundEven_mono hp h, ?_⟩
  obtain ⟨-, odd, zero⟩ := C110_gradual (K := K) hp emin
  have pos : ∀ x y : K, 0 < x → x ≤ y → gradual p emin x ≤ gradual p emin y := by
    intro x y hx h
    have hy : 0 < y := hx.trans_le h
    have hl : Int.log 2 x ≤ Int.log 2 y := Int.log_mono_right hx h
    have up : ∀ (z : K) (E F : Int), E ≤ F → z ≤ 2 ^ F → (nearestEven (z / 2 ^ E) : K) * 2 ^ E ≤ 2 ^ F := by
      intro z E F hE hz
      have hs : (0 : K) < 2 ^ E := by positivity
      have e : (2 : K) ^ F = ((2 ^ (F - E).toNat : Int) : K) * 2 ^ E := by
        rw [← zpow_nat, ← zpow_add₀ (by norm_num), show ((F - E).toNat : Int) + E = F by omega]
      rw [e] at hz ⊢
      have := nearestEven_mono ((div_le_iff₀ hs).2 hz)
      rw [nearestEven_int] at this
      exact mul_le_mul_of_nonneg_right (Int.cast_le.2 this) hs.le
    have down : ∀ (z : K) (E F : Int), E ≤ F → 2 ^ F ≤ z → (2 : K) ^ F ≤ (nearestEven (z / 2 ^ E) : K) * 2 ^ E := by
      intro z E F hE hz
      have hs : (0 : K) < 2 ^ E := by positivity
      have e : (2 : K) ^ F = ((2 ^ (F - E).toNat : Int) : K) * 2 ^ E := by
        rw [← zpow_nat, ← zpow_add₀ (by norm_num), show ((F - E).toNat : Int) + E = F by omega]
      rw [e] at hz ⊢
      have := nearestEven_mono ((le_div_iff₀ hs).2 hz)
      rw [nearestEven_int] at this
      exact mul_le_mul_of_nonneg_right (Int.cast_le.2 this) hs.le
    unfold gradual
    rw [abs_of_pos hx, abs_of_pos hy]
    by_cases he : max (Int.log 2 x - (p - 1 : Int)) emin = max (Int.log 2 y - (p - 1 : Int)) emin
    · rw [he]
      have hs : (0 : K) < 2 ^ max (Int.log 2 y - (p - 1 : Int)) emin := by positivity
      exact mul_le_mul_of_nonneg_right (Int.cast_le.2 (nearestEven_mono (div_le_div_of_nonneg_right h hs.le))) hs.le
    · have h1 : Int.log 2 x + 1 ≤ Int.log 2 y := by
        by_contra hc
        exact he (by rw [show Int.log 2 x = Int.log 2 y by omega])
      have h2 : x ≤ 2 ^ Int.log 2 y := by
        have := Int.lt_zpow_succ_log_self (b := 2) (by norm_num) x
        rw [Nat.cast_ofNat] at this
        exact this.le.trans (zpow_le_zpow_right₀ (by norm_num) h1)
      have h3 : (2 : K) ^ Int.log 2 y ≤ y := by
        have := Int.zpow_log_le_self (b := 2) (by norm_num) hy
        rwa [Nat.cast_ofNat] at this
      exact (up x _ _ (by omega) h2).trans (down y _ _ (by omega) h3)
  have nonneg : ∀ x : K, 0 ≤ x → 0 ≤ gradual p emin x := by
    intro x hx
    have hs : (0 : K) < 2 ^ max (Int.log 2 |x| - (p - 1 : Int)) emin := by positivity
    refine mul_nonneg ?_ hs.le
    have := nearestEven_mono (K := K) (x := ((0 : Int) : K)) (y := x / 2 ^ max (Int.log 2 |x| - (p - 1 : Int)) emin) (by
      rw [Int.cast_zero]
      exact div_nonneg hx hs.le)
    rw [nearestEven_int] at this
    exact Int.cast_nonneg this
  intro x y h
  rcases lt_or_ge 0 x with hx | hx
  · exact pos x y hx h
  rcases lt_or_ge y 0 with hy | hy
  · have := pos (-y) (-x) (neg_pos.2 hy) (neg_le_neg h)
    rw [odd, odd] at this
    exact neg_le_neg_iff.1 this
  · have := nonneg (-x) (neg_nonneg.2 hx)
    rw [odd] at this
    exact (neg_nonneg.1 this).trans (nonneg y hy)

end

/-- Example: the explicit step `u + (left(u) - 2 * u + right(u)) * 0.25`, written with positive coefficients, rises with `u`, and is not negative if `u` is not. -/
example {rnd : ℚ → ℚ} (m m' : Mem (Fl rnd)) (u : FieldObj) (c : IntVec) (h : ∀ c, (valueAt m u c).val ≤ (valueAt m' u c).val) :
    Moves m m' true (.stencil (.more (.more (.one (⟨-1, 0, 0⟩, ⟨1 / 4⟩)) (0, ⟨1 / 2⟩)) (⟨1, 0, 0⟩, ⟨1 / 4⟩)) (.field u)) c ∧
    ((∀ c, 0 ≤ (valueAt m u c).val) → Positive m (.stencil (.more (.more (.one (⟨-1, 0, 0⟩, ⟨1 / 4⟩)) (0, ⟨1 / 2⟩)) (⟨1, 0, 0⟩, ⟨1 / 4⟩)) (.field u)) c) := by
  have pos : ∀ q ∈ (Pts.more (Pts.more (Pts.one ((⟨-1, 0, 0⟩ : IntVec), (⟨1 / 4⟩ : Fl rnd))) (0, ⟨1 / 2⟩)) (⟨1, 0, 0⟩, ⟨1 / 4⟩)).toList, 0 ≤ q.2.val := by
    intro q hq
    simp only [Pts.toList, List.cons_append, List.nil_append, List.mem_cons, List.not_mem_nil, or_false] at hq
    rcases hq with rfl | rfl | rfl <;> norm_num
  exact ⟨fun q hq => .inl ⟨pos q hq, h _⟩, fun h0 q hq => ⟨pos q hq, h0 _⟩⟩

/-- Example: `a - b` falls when `b` rises and `a` stays. -/
example {rnd : ℚ → ℚ} (m m' : Mem (Fl rnd)) (a b : FieldObj) (c : IntVec) (ha : valueAt m a c = valueAt m' a c)
    (hb : (valueAt m b c).val ≤ (valueAt m' b c).val) : Moves m m' false (.sub (.field a) (.field b)) c :=
  ⟨by show (valueAt m' a c).val ≤ (valueAt m a c).val; rw [ha], hb⟩

/-- Example: the rounding of `double` and a field of the example mesh meet the conditions. -/
example := C111_moves (K := ℚ) (rnd := gradual 53 (-1074)) (C111_nearest_even (p := 53) (by norm_num) (-1074)).2 ⟨4, 3, 1⟩ (by decide) (NeboEx.fld false 4) 4 (NeboEx.target false 4)
  (.field (NeboEx.fld false 1)) ⟨NeboEx.onMesh false, by decide⟩

end Order
end SpatialOps
