import Verif.Rewrite.Spec
import Verif.Whole.Props

/-!
# Property C110: ways to write a formula that give the same numbers
-/

namespace SpatialOps
namespace Rewrite

open Nebo Round Stencil Range

section
variable {K : Type} [Field K] {rnd : K → K}

theorem inFormat_value (hi : ∀ x, rnd (rnd x) = rnd x) (ho : ∀ x, rnd (-x) = -rnd x) (m : Mem (Fl rnd)) (hm : ∀ b x, rnd (m b x).val = (m b x).val)
    (f : Formula rnd) (c : IntVec) (h : InFormat f) : rnd (f.expr.value m c : Fl rnd).val = (f.expr.value m c : Fl rnd).val := by
  induction f generalizing c with
  | const v => exact h
  | field f => exact hm _ _
  | single f => exact hm _ _
  | add a b => exact hi _
  | sub a b => exact hi _
  | mul a b => exact hi _
  | neg a ih =>
    show rnd (-(a.expr.value m c : Fl rnd).val) = -(a.expr.value m c : Fl rnd).val
    rw [ho, ih c h]
  | overConst a v => exact hi _
  | overField a f => exact hi _
  | stencil pts a =>
    cases pts with
    | one q => exact hi _
    | more e q => exact hi _
  | sumStencil pts a ih =>
    cases pts with
    | one q => exact ih _ h
    | more e q => exact hi _
  | cond t a b iha ihb =>
    show rnd (if t.value m c then (a.expr.value m c : Fl rnd) else b.expr.value m c).val = (if t.value m c then (a.expr.value m c : Fl rnd) else b.expr.value m c).val
    split
    · exact iha c h.1
    · exact ihb c h.2

theorem sum_congr {A : Type} (t t' : A → Fl rnd) (pts : Pts A) (h : ∀ a, t a = t' a) : pts.sum t = pts.sum t' := by
  rw [funext h]

/-- The rules keep the value. -/
theorem rewrites_value (hi : ∀ x, rnd (rnd x) = rnd x) (ho : ∀ x, rnd (-x) = -rnd x) (h0 : rnd 0 = 0) (m : Mem (Fl rnd))
    (hm : ∀ b x, rnd (m b x).val = (m b x).val) {f g : Formula rnd} (h : Rewrites f g) (c : IntVec) :
    (f.expr.value m c : Fl rnd) = g.expr.value m c := by
  have fl : ∀ {x y : Fl rnd}, x.val = y.val → x = y := by
    rintro ⟨x⟩ ⟨y⟩ h
    exact congrArg Fl.mk h
  induction h generalizing c with
  | refl a => rfl
  | symm _ ih => exact (ih c).symm
  | trans _ _ ih1 ih2 => exact (ih1 c).trans (ih2 c)
  | add _ _ iha ihb => exact congrArg₂ (fun x y : Fl rnd => x + y) (iha c) (ihb c)
  | sub _ _ iha ihb => exact congrArg₂ (fun x y : Fl rnd => x - y) (iha c) (ihb c)
  | mul _ _ iha ihb => exact congrArg₂ (fun x y : Fl rnd => x * y) (iha c) (ihb c)
  | neg _ iha => exact congrArg (fun x : Fl rnd => -x) (iha c)
  | overConst v _ iha => exact congrArg (fun x : Fl rnd => x / v) (iha c)
  | overField f _ iha => exact congrArg (fun x : Fl rnd => x / valueAt m f c) (iha c)
  | stencil pts _ iha => exact sum_congr _ _ pts fun q => congrArg (fun x : Fl rnd => x * q.2) (iha (c + q.1))
  | sumStencil pts _ iha => exact sum_congr _ _ pts fun q => iha (c + q)
  | @cond a b a' b' t _ _ iha ihb =>
    show (if t.value m c then (a.expr.value m c : Fl rnd) else b.expr.value m c) = if t.value m c then (a'.expr.value m c : Fl rnd) else b'.expr.value m c
    rw [iha c, ihb c]
  | addComm a b => exact fl (congrArg rnd (add_comm _ _))
  | mulComm a b => exact fl (congrArg rnd (mul_comm _ _))
  | subNeg a b => exact fl (congrArg rnd (sub_eq_add_neg _ _))
  | subNegNeg a b => exact fl (congrArg rnd (sub_neg_eq_add _ _))
  | negNeg a => exact fl (neg_neg _)
  | negMulNeg a b => exact fl (congrArg rnd (neg_mul_neg _ _))
  | twice a => exact fl (congrArg rnd (two_mul _))
  | half a => exact fl (congrArg rnd (by rw [one_div, div_eq_mul_inv]; rfl))
  | negSub a b => exact fl ((ho _).symm.trans (congrArg rnd (neg_sub _ _)))
  | negAdd a b => exact fl ((ho _).symm.trans (congrArg rnd (neg_add' _ _)))
  | negMul a b => exact fl ((congrArg rnd (neg_mul _ _)).trans (ho _))
  | negOver a v => exact fl ((congrArg rnd (neg_div _ _)).trans (ho _))
  | subSelf a => exact fl ((congrArg rnd (sub_self _)).trans h0)
  | mulZero a => exact fl ((congrArg rnd (mul_zero _)).trans h0)
  | addZero ha => exact fl ((congrArg rnd (add_zero _)).trans (inFormat_value hi ho m hm _ c ha))
  | mulOne ha => exact fl ((congrArg rnd (mul_one _)).trans (inFormat_value hi ho m hm _ c ha))
  | overOne ha => exact fl ((congrArg rnd (div_one _)).trans (inFormat_value hi ho m hm _ c ha))
  | condSame t a =>
    show (if t.value m c then (a.expr.value m c : Fl rnd) else a.expr.value m c) = a.expr.value m c
    rw [ite_self]
  | shift p ha => exact fl ((congrArg rnd (mul_one _)).trans (inFormat_value hi ho m hm _ (c + p) ha))

/-- C110. Two ways to write the right-hand side of an assignment that differ by the rules of `Rewrites`, used any number of times anywhere in it, give the same
numbers, to the last digit (numbers here are real numbers: the sign of a zero is not among them): `interior_assign` leaves the same memory, and `<<=` writes the same value to each cell at which both have one. This holds for each
rounding that leaves numbers of the format alone and does not depend on the sign, as all rounding to nearest does. -/
theorem _root_.SpatialOps.C110_rewrites (hi : ∀ x, rnd (rnd x) = rnd x) (ho : ∀ x, rnd (-x) = -rnd x) (h0 : rnd 0 = 0) (n : IntVec) (hn : IntVec.Lt 0 n)
    (l : FieldObj) (b : Nat) (ht : Target n l b) (f g : Formula rnd) (hr : Rewrites f g) (hf : f.expr.Wf n) (hg : g.expr.Wf n)
    (df : ∀ c, Interior n l c → f.expr.DefinedAt n c) (dg : ∀ c, Interior n l c → g.expr.DefinedAt n c) (jf : f.expr.Independent l 0)
    (jg : g.expr.Independent l 0) (m : Mem (Fl rnd)) (hm : ∀ b x, rnd (m b x).val = (m b x).val) :
    (∃ x, interiorAssign l f.expr m = .ok x ∧ interiorAssign l g.expr m = .ok x) ∧
    ∃ x y, assign l f.expr m = .ok x ∧ assign l g.expr m = .ok y ∧
      ∀ c, Stored n l c → f.expr.DefinedAt n c → g.expr.DefinedAt n c → x b (cellAddr l.geo c) = y b (cellAddr l.geo c) := by
  have hv := rewrites_value hi ho h0 m hm hr
  constructor
  · obtain ⟨x, h1, h2, h3⟩ := C22_interior_assign_pointwise n hn l b ht f.expr hf df jf m
    obtain ⟨y, h4, h5, h6⟩ := C22_interior_assign_pointwise n hn l b ht g.expr hg dg jg m
    have e : x = y := by
      funext blk a
      by_cases h : blk = b ∧ ∃ c, Interior n l c ∧ cellAddr l.geo c = a
      · obtain ⟨rfl, c, hc, rfl⟩ := h
        rw [h2 c hc, h5 c hc]
        exact hv c
      · have h' : blk ≠ b ∨ ∀ c, Interior n l c → cellAddr l.geo c ≠ a := by
          by_cases hb : blk = b
          · exact .inr fun c hc e => h ⟨hb, c, hc, e⟩
          · exact .inl hb
        rw [h3 blk a h', h6 blk a h']
    exact ⟨x, h1, e ▸ h4⟩
  · obtain ⟨x, h1, h2, -⟩ := C22_assign_pointwise n hn l b ht f.expr hf df jf m
    obtain ⟨y, h4, h5, -⟩ := C22_assign_pointwise n hn l b ht g.expr hg dg jg m
    refine ⟨x, y, h1, h4, fun c hs h6 h7 => ?_⟩
    rw [h2 c ⟨hs, h6⟩, h5 c ⟨hs, h7⟩]
    exact hv c

end

section
variable {K : Type} [Field K] [LinearOrder K] [IsStrictOrderedRing K] [FloorRing K]

/-- C110. Rounding to nearest even meets the conditions. -/
theorem _root_.SpatialOps.C110_nearest_even {p : Nat} (hp : 1 ≤ p) :
    (∀ x : K, roundEven p (roundEven p x) = roundEven p x) ∧ (∀ x : K, roundEven p (-x) = -roundEven p x) ∧ roundEven p (0 : K) = 0 := by
  refine ⟨fun x => ?_, roundEven_neg p, roundEven_zero p⟩
  have h1 := (roundEven_nearest hp x).1
  have h2 := (roundEven_nearest hp (roundEven p x)).2 _ h1
  rw [sub_self, abs_zero] at h2
  exact sub_eq_zero.1 (abs_eq_zero.1 (le_antisymm h2.1 (abs_nonneg _)))

/-- Numbers with `p` digits above the limit of underflow are left alone. -/
theorem gradual_exact {p : Nat} (hp : 1 ≤ p) {emin e : Int} (k : Int) (hk : |k| ≤ 2 ^ p) (he : emin ≤ e) :
    gradual p emin ((k : K) * 2 ^ e) = k * 2 ^ e := by
  have main : ∃ M : Int, (k : K) * 2 ^ e = M * 2 ^ max (Int.log 2 |(k : K) * 2 ^ e| - (p - 1 : Int)) emin := by
    by_cases h0 : k = 0
    · exact ⟨0, by simp [h0]⟩
    have hs : (0 : K) < 2 ^ e := by positivity
    have hx : |(k : K) * 2 ^ e| = ((|k| : Int) : K) * 2 ^ e := by rw [abs_mul, abs_of_pos hs, Int.cast_abs]
    have hpos : 0 < |(k : K) * 2 ^ e| := abs_pos.2 (mul_ne_zero (Int.cast_ne_zero.2 h0) hs.ne')
    rcases lt_or_eq_of_le hk with hlt | heq
    · have h1 : |(k : K) * 2 ^ e| < ((2 : Nat) : K) ^ ((p : Int) + e) := by
        rw [hx, Nat.cast_ofNat, zpow_add₀ (by norm_num), zpow_nat]
        exact mul_lt_mul_of_pos_right (Int.cast_lt.2 hlt) hs
      have h2 := (Int.lt_zpow_iff_log_lt (by norm_num) hpos).1 h1
      generalize hE : max (Int.log 2 |(k : K) * 2 ^ e| - (p - 1 : Int)) emin = E
      have h3 : E ≤ e := by omega
      refine ⟨k * 2 ^ (e - E).toNat, ?_⟩
      rw [Int.cast_mul, ← zpow_nat, mul_assoc, ← zpow_add₀ (by norm_num), show ((e - E).toNat : Int) + E = e by omega]
    · have h1 : |(k : K) * 2 ^ e| = ((2 : Nat) : K) ^ ((p : Int) + e) := by
        rw [hx, heq, Nat.cast_ofNat, zpow_add₀ (by norm_num), zpow_nat]
      rw [h1, Int.log_zpow (by norm_num)]
      have h3 : max ((p : Int) + e - (p - 1 : Int)) emin = e + 1 := by omega
      rw [h3]
      rcases abs_eq_abs.1 (heq.trans (abs_of_pos (show (0 : Int) < 2 ^ p by positivity)).symm) with h | h
      · refine ⟨2 ^ (p - 1), ?_⟩
        rw [h, ← zpow_nat, ← zpow_nat, ← zpow_add₀ (by norm_num), ← zpow_add₀ (by norm_num)]
        congr 1
        omega
      · refine ⟨-2 ^ (p - 1), ?_⟩
        rw [h, Int.cast_neg, Int.cast_neg, ← zpow_nat, ← zpow_nat, neg_mul, neg_mul, ← zpow_add₀ (by norm_num), ← zpow_add₀ (by norm_num)]
        congr 2
        omega
  obtain ⟨M, hM⟩ := main
  unfold gradual
  generalize max (Int.log 2 |(k : K) * 2 ^ e| - (p - 1 : Int)) emin = E at hM
  have hs : (0 : K) < 2 ^ E := by positivity
  rw [hM, mul_div_cancel_right₀ _ hs.ne', nearestEven_int]

/-- C110. So does rounding with gradual underflow, that of `double` if nothing overflows. -/
theorem _root_.SpatialOps.C110_gradual {p : Nat} (hp : 1 ≤ p) (emin : Int) :
    (∀ x : K, gradual p emin (gradual p emin x) = gradual p emin x) ∧ (∀ x : K, gradual p emin (-x) = -gradual p emin x) ∧
      gradual p emin (0 : K) = 0 := by
  refine ⟨fun x => ?_, fun x => ?_, ?_⟩
  · conv_lhs => rw [show gradual p emin x = (nearestEven (x / 2 ^ max (Int.log 2 |x| - (p - 1 : Int)) emin) : K) *
      2 ^ max (Int.log 2 |x| - (p - 1 : Int)) emin from rfl]
    refine gradual_exact hp _ ?_ (le_max_right _ _)
    generalize hE : max (Int.log 2 |x| - (p - 1 : Int)) emin = E
    have hs : (0 : K) < 2 ^ E := by positivity
    have h1 : |x / 2 ^ E| ≤ ((2 ^ p : Int) : K) := by
      rw [abs_div, abs_of_pos hs, div_le_iff₀ hs, ← zpow_nat, ← zpow_add₀ (by norm_num)]
      have h2 := Int.lt_zpow_succ_log_self (b := 2) (by norm_num) |x|
      rw [Nat.cast_ofNat] at h2
      exact h2.le.trans (zpow_le_zpow_right₀ (by norm_num) (by omega))
    have h3 := abs_le.1 h1
    refine abs_le.2 ⟨?_, ?_⟩
    · have := nearestEven_mono (K := K) (x := ((-2 ^ p : Int) : K)) (y := x / 2 ^ E) (by rw [Int.cast_neg]; exact h3.1)
      rwa [nearestEven_int] at this
    · have := nearestEven_mono h3.2
      rwa [nearestEven_int] at this
  · unfold gradual
    rw [abs_neg, neg_div, nearestEven_neg, Int.cast_neg, neg_mul]
  · unfold gradual
    have := nearestEven_int (K := K) 0
    rw [Int.cast_zero] at this
    rw [zero_div, this, Int.cast_zero, zero_mul]

/-- C110. Other rules of arithmetic change results in `double`: `(a + b) + c` and `a + (b + c)` differ, so do `(a + b) * c` and `a * c + b * c`, and `a / b` and
`a * (1 / b)`. -/
theorem _root_.SpatialOps.C110_other_rules (m : Mem (Fl (K := K) (roundEven 53))) (c : IntVec) :
    (∃ a b d : Fl (K := K) (roundEven 53), ((Formula.add (.add (.const a) (.const b)) (.const d)).expr.value m c : Fl (K := K) (roundEven 53)) ≠
      (Formula.add (.const a) (.add (.const b) (.const d))).expr.value m c) ∧
    (∃ a b d : Fl (K := K) (roundEven 53), ((Formula.mul (.add (.const a) (.const b)) (.const d)).expr.value m c : Fl (K := K) (roundEven 53)) ≠
      (Formula.add (.mul (.const a) (.const d)) (.mul (.const b) (.const d))).expr.value m c) ∧
    (∃ a b : Fl (K := K) (roundEven 53), ((Formula.overConst (.const a) b).expr.value m c : Fl (K := K) (roundEven 53)) ≠
      (Formula.mul (.const a) (.overConst (.const ⟨1⟩) b)).expr.value m c) := by
  have unit : ∀ (x : K) (j : Int) (M : Int), 0 ≤ x → (2 : K) ^ (52 + j) ≤ x → x < 2 ^ (53 + j) → |x / 2 ^ j - M| < 1 / 2 → roundEven 53 x = M * 2 ^ j := by
    intro x j M h0 h1 h2 h3
    rw [roundEven_unit 53 (j := j) (by rw [abs_of_nonneg h0]; norm_num; exact h1) (by rw [abs_of_nonneg h0]; exact_mod_cast h2), nearestEven_of_lt h3]
  have r1 : roundEven 53 ((2 : K) ^ 53 + 1) = 2 ^ 53 := by
    have hpos : (0 : K) ≤ 2 ^ 53 + 1 := by norm_num
    rw [roundEven_unit 53 (j := 1) (by rw [abs_of_nonneg hpos]; norm_num) (by rw [abs_of_nonneg hpos]; norm_num),
      nearestEven_of_even (M := 2 ^ 52) (by norm_num [abs_of_pos]) (by norm_num)]
    norm_num
  have int : ∀ k : Int, |k| ≤ 2 ^ 53 → roundEven 53 (k : K) = k := Whole.roundEven_whole (by norm_num)
  have r2 : roundEven 53 ((2 : K)) = 2 := by exact_mod_cast int 2 (by norm_num)
  have r3 : roundEven 53 ((3 : K)) = 3 := by exact_mod_cast int 3 (by norm_num)
  have r4 : roundEven 53 ((1 : K)) = 1 := by exact_mod_cast int 1 (by norm_num)
  have r5 : roundEven 53 ((2 : K) ^ 53 + 2) = 2 ^ 53 + 2 := by
    rw [unit _ 1 (2 ^ 52 + 1) (by norm_num) (by norm_num) (by norm_num) (by norm_num)]
    norm_num
  have r6 : roundEven 53 ((2 : K) ^ 53 * 3) = 2 ^ 53 * 3 := by
    rw [unit _ 2 (2 ^ 51 * 3) (by norm_num) (by norm_num) (by norm_num) (by norm_num)]
    norm_num
  have r7 : roundEven 53 ((2 : K) ^ 53 * 3 + 3) = 2 ^ 53 * 3 + 4 := by
    rw [unit _ 2 (2 ^ 51 * 3 + 1) (by norm_num) (by norm_num) (by norm_num) (by norm_num [abs_of_neg])]
    norm_num
  have r8 : roundEven 53 ((1 : K) / 49) = 5882252574524729 * 2 ^ (-58 : Int) := by
    rw [unit _ (-58) 5882252574524729 (by norm_num) (by norm_num) (by norm_num) (by norm_num [abs_of_pos])]
    norm_num
  have r9 : roundEven 53 ((49 : K) * (5882252574524729 * 2 ^ (-58 : Int))) = 9007199254740991 * 2 ^ (-53 : Int) := by
    rw [unit _ (-53) 9007199254740991 (by norm_num) (by norm_num) (by norm_num) (by norm_num [abs_of_pos])]
    norm_num
  refine ⟨⟨⟨2 ^ 53⟩, ⟨1⟩, ⟨1⟩, fun h => ?_⟩, ⟨⟨2 ^ 53⟩, ⟨1⟩, ⟨3⟩, fun h => ?_⟩, ⟨49⟩, ⟨49⟩, fun h => ?_⟩
  · have h : roundEven 53 (roundEven 53 ((2 : K) ^ 53 + 1) + 1) = roundEven 53 (2 ^ 53 + roundEven 53 (1 + 1)) := congrArg Fl.val h
    rw [r1, r1, one_add_one_eq_two, r2, r5] at h
    norm_num at h
  · have h : roundEven 53 (roundEven 53 ((2 : K) ^ 53 + 1) * 3) = roundEven 53 (roundEven 53 (2 ^ 53 * 3) + roundEven 53 (1 * 3)) := congrArg Fl.val h
    rw [r1, r6, one_mul, r3, r7] at h
    norm_num at h
  · have h : roundEven 53 ((49 : K) / 49) = roundEven 53 (49 * roundEven 53 (1 / 49)) := congrArg Fl.val h
    rw [div_self (by norm_num), r4, r8, r9] at h
    norm_num at h

end

/-- Example: the rules turn `-(a - b) * 2` into `(b - a) + (b - a)`. -/
example {rnd : ℚ → ℚ} (a b : Formula rnd) : Rewrites (.mul (.neg (.sub a b)) (.const ⟨2⟩)) (.add (.sub b a) (.sub b a)) :=
  .trans (.mul (.negSub a b) (.refl _)) (.trans (.mulComm _ _) (.twice _))

/-- Example: `interior_assign(f4, a - b)` and `interior_assign(f4, -b + a)` leave the same memory. -/
example (m : Mem (Fl (K := ℚ) (gradual 53 (-1074)))) (hm : ∀ b x, gradual 53 (-1074) (m b x).val = (m b x).val) :
    ∃ x, interiorAssign (NeboEx.fld false 4) (Formula.sub (rnd := gradual 53 (-1074)) (.field (NeboEx.fld false 1)) (.field (NeboEx.fld false 2))).expr m = .ok x ∧
      interiorAssign (NeboEx.fld false 4) (Formula.add (rnd := gradual 53 (-1074)) (.neg (.field (NeboEx.fld false 2))) (.field (NeboEx.fld false 1))).expr m = .ok x := by
  have hh := hasCell_iff (NeboEx.onMesh false)
  have e1 : (NeboEx.geo false).validGhosts.minus = ⟨1, 1, 0⟩ := rfl
  have e2 : (NeboEx.geo false).validGhosts.plus + (NeboEx.geo false).bc.hasExtra = ⟨1, 1, 0⟩ := by decide
  have e3 : (NeboEx.geo false).bc.hasExtra = ⟨0, 0, 0⟩ := by decide
  rw [e1, e2] at hh
  unfold InBox at hh
  have hi : ∀ c, Interior ⟨4, 3, 1⟩ (NeboEx.fld false 4) c → IntVec.Le 0 c ∧ IntVec.Lt c ⟨4, 3, 1⟩ := by
    intro c hc
    have hc' : IntVec.Le 0 c ∧ IntVec.Lt c (⟨4, 3, 1⟩ + (NeboEx.geo false).bc.hasExtra) := hc
    rw [e3] at hc'
    iv_omega
  have d1 : (NeboEx.fld false 1).values ≠ (NeboEx.fld false 4).values := by decide
  have d2 : (NeboEx.fld false 2).values ≠ (NeboEx.fld false 4).values := by decide
  obtain ⟨g1, g2, g3⟩ := C110_gradual (K := ℚ) (p := 53) (by norm_num) (-1074)
  refine (C110_rewrites g1 g2 g3 ⟨4, 3, 1⟩ (by decide) (NeboEx.fld false 4) 4 (NeboEx.target false 4) _ _
    (.trans (.subNeg (.field (NeboEx.fld false 1)) (.field (NeboEx.fld false 2))) (.addComm _ _))
    ⟨⟨NeboEx.onMesh false, by decide⟩, NeboEx.onMesh false, by decide⟩ ⟨⟨NeboEx.onMesh false, by decide⟩, NeboEx.onMesh false, by decide⟩
    (fun c hc => ?_) (fun c hc => ?_) ⟨.inl d1, .inl d2⟩ ⟨.inl d2, .inl d1⟩ m hm).1
  · have := hi c hc
    exact ⟨(hh c).2 (by iv_omega), (hh c).2 (by iv_omega)⟩
  · have := hi c hc
    exact ⟨(hh c).2 (by iv_omega), (hh c).2 (by iv_omega)⟩

end Rewrite
end SpatialOps
