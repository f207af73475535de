import Verif.Range.Lemmas
import Verif.Round.Props

/-!
# Property C108: overflow and underflow
-/

namespace SpatialOps
namespace Range

open Nebo Round Stencil

section
variable {K : Type} [Field K] [LinearOrder K] [IsStrictOrderedRing K] [FloorRing K]

/-! ## The rounding of `double` -/

/-- The unit of rounding divides the number. -/
theorem near_unit (x : K) (e : Int) : |(nearestEven (x / 2 ^ e) : K) * 2 ^ e - x| ≤ 2 ^ (e - 1) := by
  have hp : (0 : K) < 2 ^ e := by positivity
  have h := nearestEven_near (x / 2 ^ e)
  have e1 : (nearestEven (x / 2 ^ e) : K) * 2 ^ e - x = ((nearestEven (x / 2 ^ e) : K) - x / 2 ^ e) * 2 ^ e := by
    rw [sub_mul, div_mul_cancel₀ _ hp.ne']
  rw [e1, abs_mul, abs_of_pos hp, zpow_sub₀ (by norm_num), zpow_one]
  have := mul_le_mul_of_nonneg_right h hp.le
  linarith

/-- C108. The rounding of `double` is that of area Round, with exponents of any size, for all numbers from `2^-1022` on in absolute value that are at most the
largest number of the format; it rounds all other numbers that are at most that to a multiple of `2^-1074`, with an error of at most `2^-1075`. Sums and
differences of numbers of the format are multiples of `2^-1074`, and these have a relative error of at most `2^-53`, however small they are. -/
theorem _root_.SpatialOps.C108_double (special : K → K) (x : K) (hx : |x| ≤ (2 ^ 53 - 1) * 2 ^ (971 : Int)) :
    ((2 : K) ^ (-1022 : Int) ≤ |x| → ieee special x = roundEven 53 x) ∧
    (|x| < (2 : K) ^ (-1022 : Int) → |ieee special x - x| ≤ 2 ^ (-1075 : Int) ∧ ∃ k : Int, ieee special x = (k : K) * 2 ^ (-1074 : Int)) ∧
    ((∃ k : Int, x = (k : K) * 2 ^ (-1074 : Int)) → |ieee special x - x| ≤ 2 ^ (-53 : Int) * |x|) := by
  have hg : ieee special x = gradual 53 (-1074) x := by
    unfold ieee
    rw [if_pos]
    by_cases h0 : x = 0
    · subst h0
      unfold gradual
      have := nearestEven_int (K := K) 0
      rw [Int.cast_zero] at this
      rw [zero_div, this]
      simp
    have hpos : 0 < |x| := abs_pos.2 h0
    have hlog : Int.log 2 |x| ≤ 1023 := by
      have : |x| < (2 : K) ^ (1024 : Int) := by
        refine hx.trans_lt ?_
        rw [show (2 : K) ^ (1024 : Int) = 2 ^ 53 * 2 ^ (971 : Int) by rw [← zpow_natCast, ← zpow_add₀ (by norm_num)]; norm_num]
        exact mul_lt_mul_of_pos_right (by norm_num) (by positivity)
      have := (Int.lt_zpow_iff_log_lt (b := 2) (by norm_num) hpos (x := 1024)).1 (by rw [Nat.cast_ofNat]; exact this)
      omega
    unfold gradual
    generalize he : max (Int.log 2 |x| - ((53 : Nat) - 1 : Int)) (-1074) = e
    have he1 : e ≤ 971 := by rw [← he]; push_cast; omega
    have hp : (0 : K) < 2 ^ e := by positivity
    -- the largest number is a whole number of units
    have hM : ((2 ^ 53 - 1) * 2 ^ (971 : Int) : K) = (((2 ^ 53 - 1) * 2 ^ (971 - e).toNat : Int) : K) * 2 ^ e := by
      rw [Int.cast_mul, mul_assoc, Int.cast_pow, Int.cast_ofNat, ← zpow_natCast (2 : K) (971 - e).toNat, ← zpow_add₀ (by norm_num),
        show ((971 - e).toNat : Int) + e = 971 by omega]
      norm_num
    have hle : ∀ y : K, y ≤ (2 ^ 53 - 1) * 2 ^ (971 : Int) → (nearestEven (y / 2 ^ e) : K) * 2 ^ e ≤ (2 ^ 53 - 1) * 2 ^ (971 : Int) := by
      intro y hy
      rw [hM] at hy ⊢
      refine mul_le_mul_of_nonneg_right ?_ hp.le
      have := nearestEven_mono ((div_le_iff₀ hp).2 hy)
      rw [nearestEven_int] at this
      exact_mod_cast this
    have h1 := hle x ((le_abs_self x).trans hx)
    have h2 := hle (-x) ((neg_le_abs x).trans hx)
    rw [neg_div, nearestEven_neg, Int.cast_neg, neg_mul] at h2
    refine (abs_le.2 ⟨by linarith, h1⟩).trans_lt ?_
    have e3 : (2 : K) ^ 1024 = 2 ^ 53 * 2 ^ (971 : Int) := by rw [show (2 : K) ^ (971 : Int) = 2 ^ 971 from zpow_natCast _ _, ← pow_add]
    rw [e3]
    exact mul_lt_mul_of_pos_right (by norm_num) (by positivity)
  rw [hg]
  have hbig : (2 : K) ^ (-1022 : Int) ≤ |x| → gradual 53 (-1074) x = roundEven 53 x := by
    intro h
    have hpos : 0 < |x| := lt_of_lt_of_le (by positivity) h
    have : -1022 ≤ Int.log 2 |x| := (Int.zpow_le_iff_le_log (b := 2) (by norm_num) hpos).1 (by exact_mod_cast h)
    unfold gradual roundEven
    rw [max_eq_left (by push_cast; omega)]
  have hsmall : x ≠ 0 → |x| < (2 : K) ^ (-1022 : Int) → gradual 53 (-1074) x = (nearestEven (x / 2 ^ (-1074 : Int)) : K) * 2 ^ (-1074 : Int) := by
    intro h0 h
    have hpos : 0 < |x| := abs_pos.2 h0
    have : Int.log 2 |x| < -1022 := (Int.lt_zpow_iff_log_lt (b := 2) (by norm_num) hpos).1 (by exact_mod_cast h)
    unfold gradual
    rw [max_eq_right (by push_cast; omega)]
  have hzero : gradual 53 (-1074) (0 : K) = 0 := by
    unfold gradual
    have := nearestEven_int (K := K) 0
    rw [Int.cast_zero] at this
    rw [zero_div, this]
    simp
  refine ⟨hbig, fun h => ?_, ?_⟩
  · by_cases h0 : x = 0
    · subst h0
      rw [hzero]
      exact ⟨by rw [sub_self, abs_zero]; positivity, 0, by simp⟩
    · rw [hsmall h0 h]
      exact ⟨near_unit x (-1074), _, rfl⟩
  · rintro ⟨k, hk⟩
    by_cases h : (2 : K) ^ (-1022 : Int) ≤ |x|
    · rw [hbig h]
      exact roundEven_close 53 x
    · by_cases h0 : x = 0
      · subst h0
        rw [hzero]
        simp
      · rw [hsmall h0 (not_le.1 h)]
        have : x / 2 ^ (-1074 : Int) = (k : K) := by rw [hk]; exact mul_div_cancel_right₀ _ (by positivity)
        rw [this, nearestEven_int, ← hk, sub_self, abs_zero]
        positivity

/-- C108. So the rounding of `double`, overflow and underflow included, is one the theorems below are about. -/
theorem _root_.SpatialOps.C108_double_is_limited (special : K → K) :
    Limited ((2 : K) ^ (-53 : Int)) (2 ^ (-1075 : Int)) ((2 ^ 53 - 1) * 2 ^ (971 : Int)) (ieee special) where
  unit_nonneg := by positivity
  tiny_nonneg := by positivity
  close x hx := by
    obtain ⟨h1, h2, -⟩ := C108_double special x hx
    by_cases h : (2 : K) ^ (-1022 : Int) ≤ |x|
    · rw [h1 h]
      have : (0 : K) < 2 ^ (-1075 : Int) := by positivity
      exact (roundEven_close 53 x).trans (by push_cast; linarith)
    · refine (h2 (not_le.1 h)).1.trans ?_
      have : (0 : K) ≤ 2 ^ (-53 : Int) * |x| := by positivity
      linarith

end

/-! ## Assignments and sums -/

section
variable {K : Type} [Field K] [LinearOrder K] [IsStrictOrderedRing K] {u tiny top : K} {rnd : K → K}

/-- C108. `lhs <<= formula` and `interior_assign(lhs, formula)` in floating point with overflow and underflow. At each cell at which the numbers are such that no
operation of the formula can overflow, the value written differs from the exact value by at most the rounding errors of C77 and what underflow can lose. -/
theorem _root_.SpatialOps.C108_assign (hl : Limited u tiny top rnd) (n : IntVec) (hn : IntVec.Lt 0 n) (l : FieldObj) (b : Nat) (ht : Target n l b)
    (f : Formula rnd) (he : f.expr.Wf n) (hd : ∀ c, Interior n l c → f.expr.DefinedAt n c) (hi : f.expr.Independent l 0) (m : Mem (Fl rnd)) :
    (∃ m', assign l f.expr m = .ok m' ∧ ∀ c, Stored n l c → f.expr.DefinedAt n c → Fits u tiny top m f c →
      |(m' b (cellAddr l.geo c)).val - f.exact m c| ≤ grow u f.depth * f.size m c + lost u tiny m f c) ∧
    (∃ m', interiorAssign l f.expr m = .ok m' ∧ ∀ c, Interior n l c → Fits u tiny top m f c →
      |(m' b (cellAddr l.geo c)).val - f.exact m c| ≤ grow u f.depth * f.size m c + lost u tiny m f c) := by
  constructor
  · obtain ⟨m', h1, h2, -⟩ := C22_assign_pointwise n hn l b ht f.expr he hd hi m
    refine ⟨m', h1, fun c hs hc hf => ?_⟩
    rw [h2 c ⟨hs, hc⟩]
    exact (near_formula hl m f c hf).1
  · obtain ⟨m', h1, h2, -⟩ := C22_interior_assign_pointwise n hn l b ht f.expr he hd hi m
    refine ⟨m', h1, fun c hc hf => ?_⟩
    rw [h2 c hc]
    exact (near_formula hl m f c hf).1

/-- C108. `nebo_sum(formula)` and `nebo_sum_interior(formula)` with overflow and underflow: if no operation of the formula can overflow at any cell, nor the sum of
all sizes, then the sum differs from the exact one by at most the rounding errors of C77 and what underflow can lose at each cell and in each addition. -/
theorem _root_.SpatialOps.C108_sum (hl : Limited u tiny top rnd) (n : IntVec) (hn : IntVec.Lt 0 n) (f : Formula rnd) (he : f.expr.Wf n)
    (hs : f.expr.StencilFree) (ho : f.expr.HasOperand) (hd : ∀ c, InBlock n c → f.expr.DefinedAt n c) (m : Mem (Fl rnd)) :
    (∃ (cells : List IntVec) (r : Fl rnd), Lists cells (f.expr.DefinedAt n) ∧ Returns (neboSum f.expr m) r ∧
      ((∀ c ∈ cells, Fits u tiny top m f c) →
        (1 + u) ^ (f.depth + (cells.length - 1)) * (cells.map (f.size m)).sum +
          (1 + u) ^ (cells.length - 1) * ((cells.map (lost u tiny m f)).sum + (cells.length - 1 : Nat) * tiny) ≤ top →
        |r.val - (cells.map (f.exact m)).sum| ≤ grow u (f.depth + (cells.length - 1)) * (cells.map (f.size m)).sum +
          (1 + u) ^ (cells.length - 1) * ((cells.map (lost u tiny m f)).sum + (cells.length - 1 : Nat) * tiny))) ∧
    (∃ (cells : List IntVec) (r : Fl rnd), Lists cells (InBlock n) ∧ Returns (neboSumInterior f.expr m) r ∧
      ((∀ c ∈ cells, Fits u tiny top m f c) →
        (1 + u) ^ (f.depth + (cells.length - 1)) * (cells.map (f.size m)).sum +
          (1 + u) ^ (cells.length - 1) * ((cells.map (lost u tiny m f)).sum + (cells.length - 1 : Nat) * tiny) ≤ top →
        |r.val - (cells.map (f.exact m)).sum| ≤ grow u (f.depth + (cells.length - 1)) * (cells.map (f.size m)).sum +
          (1 + u) ^ (cells.length - 1) * ((cells.map (lost u tiny m f)).sum + (cells.length - 1 : Nat) * tiny))) := by
  have key : ∀ (first : IntVec) (rest : List IntVec), (∀ c ∈ first :: rest, Fits u tiny top m f c) →
      (1 + u) ^ (f.depth + ((first :: rest).length - 1)) * ((first :: rest).map (f.size m)).sum +
        (1 + u) ^ ((first :: rest).length - 1) * (((first :: rest).map (lost u tiny m f)).sum + ((first :: rest).length - 1 : Nat) * tiny) ≤ top →
      |(rest.foldl (fun s c => s + f.expr.value m c) (f.expr.value m first : Fl rnd)).val - ((first :: rest).map (f.exact m)).sum| ≤
        grow u (f.depth + ((first :: rest).length - 1)) * ((first :: rest).map (f.size m)).sum +
        (1 + u) ^ ((first :: rest).length - 1) * (((first :: rest).map (lost u tiny m f)).sum + ((first :: rest).length - 1 : Nat) * tiny) := by
    intro first rest hf ht
    have e : (first :: rest).length - 1 = rest.length := by simp
    rw [e] at ht ⊢
    simp only [List.map_cons, List.sum_cons] at ht ⊢
    exact (near_foldl hl rest (fun c => (f.expr.value m c : Fl rnd)) (lost u tiny m f) (f.exact m) (f.size m) f.depth 0 _ _ _ _
      (near_formula hl m f first (hf first (by simp))) (fun c hc => near_formula hl m f c (hf c (by simp [hc]))) ht).1
  constructor
  · obtain ⟨first, rest, h1, h2⟩ := C27_reduce_all_cells n hn f.expr he hs ho hd (fun a b => a + b) m
    exact ⟨_, _, h1, h2, key first rest⟩
  · obtain ⟨first, rest, h1, h2⟩ := C28_interior_reduce n hn f.expr he hs ho hd (fun a b => a + b) m
    exact ⟨_, _, h1, h2, key first rest⟩

/-- C108. The registered operators with overflow and underflow. Applying an operator to a field is assigning a formula: the stencil of the operator, or for the
filters the sum over the box times a constant, with the coefficients as computed. The result differs from the exact one by at most the rounding errors and what
underflow can lose, wherever no operation can overflow. -/
theorem _root_.SpatialOps.C108_operators (hl : Limited u tiny top rnd) (h : Dir → Fl rnd) (r : Reg) (hr : r ∈ registrations) (n : IntVec)
    (hn : IntVec.Lt 0 n) (src dest : FieldObj) (b : Nat) (ha : Readable n r src dest b) (m : Mem (Fl rnd)) :
    ∃ (f : Formula rnd) (m' : Mem (Fl rnd)), r.apply h (.field src) = some f.expr ∧ f.depth ≤ r.reads.length + 1 ∧ r.applyToField h src dest m = .ok m' ∧
      ∀ c, Interior n dest c → Fits u tiny top m f c →
        |(valueAt m' dest c).val - f.exact m c| ≤ grow u f.depth * f.size m c + lost u tiny m f c := by
  obtain ⟨t, w, den, s, ht, hw, -⟩ := reg_weights hr
  have ⟨f, hf, hdep⟩ : ∃ f : Formula rnd, t.apply (r.coef.build h) (.field src) = some f.expr ∧ f.depth ≤ r.reads.length + 1 := by
    rw [reads_eq ht]
    cases t with
    | coefs o pts sr de =>
      have key : ∀ cs, r.coef.build h = some cs → (∃ ps, pair pts cs = some ps) → ∃ f : Formula rnd,
          (OpType.coefs o pts sr de).apply (r.coef.build h) (.field src) = some f.expr ∧ f.depth ≤ (OpType.coefs o pts sr de).points.toList.length + 1 := by
        intro cs hb ⟨ps, hps⟩
        refine ⟨.stencil ps (.field src), ?_, ?_⟩
        · rw [hb]
          simp only [OpType.apply, hps, Option.map_some]
          rfl
        · show 0 + ps.toList.length ≤ pts.toList.length + 1
          rw [← (pair_lists hps).1, List.length_map]
          omega
      generalize r.coef = cf at hw key
      have some_pair : ∀ (g : Int → Fl rnd) (cs : Pts Int), (∃ w, pair pts cs = some w) → ∃ ps, pair pts (pmap g cs) = some ps := by
        rintro g cs ⟨w, hw⟩
        exact ⟨_, by rw [pair_pmap, hw]; rfl⟩
      have exists_of : ∀ cs : Pts Int, ∀ x, (pair pts cs).map x = some (w, den, s) → ∃ w, pair pts cs = some w := by
        intro cs x hx
        cases hp : pair pts cs with
        | none => rw [hp] at hx; simp at hx
        | some w' => exact ⟨w', rfl⟩
      cases cf with
      | half => exact key _ rfl (some_pair (fun _ => 1 / 2) (coef2 1 1) (exists_of _ _ hw))
      | per d => exact key _ rfl (some_pair (fun k => if k = 1 then 1 / h d else -1 / h d) (coef2 (-1) 1) (exists_of _ _ hw))
      | quarter => exact key _ rfl (some_pair (fun _ => 1 / 4) (coef4 1 1 1 1) (exists_of _ _ hw))
      | halfPer d => exact key _ rfl (some_pair (fun k => if k = 1 then 1 / 2 / h d else -(1 / 2) / h d) (coef2 (-1) 1) (exists_of _ _ hw))
      | absent => simp [weights] at hw
    | sum pts sr de =>
      cases hcf : r.coef with
      | absent =>
        refine ⟨.sumStencil pts (.field src), rfl, ?_⟩
        show 0 + (pts.toList.length - 1) ≤ pts.toList.length + 1
        omega
      | _ => rw [hcf] at hw; simp [weights] at hw
    | average pts sr de =>
      cases hcf : r.coef with
      | absent =>
        refine ⟨.mul (.sumStencil pts (.field src)) (.const (1 / (len pts : Fl rnd))), rfl, ?_⟩
        show 0 + (pts.toList.length - 1) + 0 + 1 ≤ pts.toList.length + 1
        omega
      | _ => rw [hcf] at hw; simp [weights] at hw
  obtain ⟨m', h1, h2, -⟩ := apply_expr h ht hn hf ha m
  refine ⟨f, m', ?_, hdep, h1, fun c hc hfit => ?_⟩
  · unfold Reg.apply
    unfold Reg.type at ht
    rw [ht]
    exact hf
  · rw [h2 c hc]
    exact (near_formula hl m f c hfit).1

end

/-! ## Within the range -/

section
variable {K : Type} [Field K] [LinearOrder K] {rnd rnd' : K → K}

omit [LinearOrder K] in
theorem same_sum {A B : Type} {P : K → Prop} (hP : ∀ x, P x → rnd x = rnd' x) (g : A → B) (t : B → Fl rnd) (t' : B → Fl rnd') (pts : Pts A)
    (ht : ∀ a ∈ pts.toList, (t (g a)).val = (t' (g a)).val) (h : SumsMeet P (fun a => t (g a)) pts) :
    (pts.sum fun a => t (g a)).val = (pts.sum fun a => t' (g a)).val := by
  induction pts with
  | one a => exact ht a (by simp [Pts.toList])
  | more e a ih =>
    have h1 := ih (fun b hb => ht b (by simp [Pts.toList, hb])) h.1
    show rnd ((e.sum fun a => t (g a)).val + (t (g a)).val) = rnd' ((e.sum fun a => t' (g a)).val + (t' (g a)).val)
    rw [← h1, ← ht a (by simp [Pts.toList]), hP _ h.2]

omit [Field K] [LinearOrder K] in
theorem weighted_eq (pts : Pts (IntVec × K)) : weighted rnd pts = pmap (fun q => (q.1, (⟨q.2⟩ : Fl rnd))) pts := by
  induction pts with
  | one a => rfl
  | more e a ih => simp only [weighted, pmap, ih]

omit [LinearOrder K] in
theorem sumsMeet_pmap {A B : Type} {P : K → Prop} (g : A → B) (t : B → Fl rnd) (pts : Pts A) (h : SumsMeet P t (pmap g pts)) :
    SumsMeet P (fun a => t (g a)) pts := by
  induction pts with
  | one a => trivial
  | more e a ih =>
    refine ⟨ih h.1, ?_⟩
    have := h.2
    rwa [sum_pmap] at this

omit [LinearOrder K] in
/-- Two formats that round alike the numbers that come up give the same results. -/
theorem same_value {P : K → Prop} (hP : ∀ x, P x → rnd x = rnd' x) (m : Mem (Fl rnd)) (m' : Mem (Fl rnd')) (hm : ∀ b x, (m b x).val = (m' b x).val)
    {f : Formula rnd} {f' : Formula rnd'} (hs : Same f f') (c : IntVec) (h : Meets P m f c) :
    (f.expr.value m c : Fl rnd).val = (f'.expr.value m' c : Fl rnd').val := by
  induction hs generalizing c with
  | const v => rfl
  | field f => exact hm _ _
  | single f => exact hm _ _
  | add _ _ iha ihb =>
    obtain ⟨h1, h2, h3⟩ := h
    refine (hP _ h3).trans ?_
    rw [iha c h1, ihb c h2]
    rfl
  | sub _ _ iha ihb =>
    obtain ⟨h1, h2, h3⟩ := h
    refine (hP _ h3).trans ?_
    rw [iha c h1, ihb c h2]
    rfl
  | mul _ _ iha ihb =>
    obtain ⟨h1, h2, h3⟩ := h
    refine (hP _ h3).trans ?_
    rw [iha c h1, ihb c h2]
    rfl
  | neg _ iha => exact congrArg Neg.neg (iha c h)
  | overConst v _ iha =>
    refine (hP _ h.2).trans ?_
    rw [iha c h.1]
    rfl
  | overField f _ iha =>
    refine (hP _ h.2).trans ?_
    rw [iha c h.1, show (valueAt m f c).val = (valueAt m' f c).val from hm _ _]
    rfl
  | @stencil a a' pts _ iha =>
    rw [weighted_eq, weighted_eq]
    rw [weighted_eq] at h
    obtain ⟨h1, h2⟩ := h
    have e1 : ((Formula.stencil (pmap (fun q => (q.1, (⟨q.2⟩ : Fl rnd))) pts) a).expr.value m c : Fl rnd) =
        pts.sum fun q => (a.expr.value m (c + q.1) : Fl rnd) * ⟨q.2⟩ := by
      simp only [Formula.expr, Expr.value]
      rw [sum_pmap]
    have e2 : ((Formula.stencil (pmap (fun q => (q.1, (⟨q.2⟩ : Fl rnd'))) pts) a').expr.value m' c : Fl rnd') =
        pts.sum fun q => (a'.expr.value m' (c + q.1) : Fl rnd') * ⟨q.2⟩ := by
      simp only [Formula.expr, Expr.value]
      rw [sum_pmap]
    rw [e1, e2]
    refine same_sum (B := IntVec × K) hP id (fun q => (a.expr.value m (c + q.1) : Fl rnd) * ⟨q.2⟩)
      (fun q => (a'.expr.value m' (c + q.1) : Fl rnd') * ⟨q.2⟩) pts (fun q hq => ?_) (sumsMeet_pmap (fun q => (q.1, (⟨q.2⟩ : Fl rnd))) _ pts h2)
    have h3 := h1 (q.1, ⟨q.2⟩) (by rw [toList_pmap]; exact List.mem_map_of_mem hq)
    refine (hP _ h3.2).trans ?_
    rw [iha _ h3.1]
    rfl
  | @sumStencil a a' pts _ iha =>
    exact same_sum (B := IntVec) hP id (fun q => (a.expr.value m (c + q) : Fl rnd)) (fun q => (a'.expr.value m' (c + q) : Fl rnd')) pts
      (fun q hq => iha _ (h.1 q hq)) h.2
  | @cond t t' a b a' b' ht _ _ _ iha ihb =>
    show (if t.value m c then (a.expr.value m c : Fl rnd) else b.expr.value m c).val =
      (if t'.value m' c then (a'.expr.value m' c : Fl rnd') else b'.expr.value m' c).val
    simp only [Meets] at h
    rw [← ht m m' hm c]
    by_cases hc : t.value m c = true
    · rw [if_pos hc] at h ⊢
      rw [if_pos hc]
      exact iha c h
    · rw [if_neg hc] at h ⊢
      rw [if_neg hc]
      exact ihb c h

end

/-- Where `double` has 53 digits and no number overflows it rounds as with exponents of any size. -/
theorem normal_alike {K : Type} [Field K] [LinearOrder K] [IsStrictOrderedRing K] [FloorRing K] (special : K → K) (x : K) (hx : Normal x) :
    ieee special x = roundEven 53 x := by
  rcases hx with rfl | ⟨hlo, hhi⟩
  · have h0 := (C108_double special (0 : K) (by rw [abs_zero]; exact mul_nonneg (by norm_num) (by positivity))).2.2 ⟨0, by simp⟩
    rw [abs_zero, mul_zero] at h0
    rw [sub_eq_zero.1 (abs_eq_zero.1 (le_antisymm h0 (abs_nonneg _))), roundEven_zero]
  · exact (C108_double special x hhi).1 hlo

/-- C108. Where every operation yields zero or a number in the range in which `double` has 53 digits, an assignment in `double` writes exactly the numbers it
writes with exponents of any size, about which C77, C85, C103 and C105 to C107 are. -/
theorem _root_.SpatialOps.C108_within_range {K : Type} [Field K] [LinearOrder K] [IsStrictOrderedRing K] [FloorRing K] (special : K → K) (n : IntVec)
    (hn : IntVec.Lt 0 n) (l : FieldObj) (b : Nat) (ht : Target n l b) (f : Formula (ieee special)) (f' : Formula (K := K) (roundEven 53)) (hs : Same f f')
    (he : f.expr.Wf n) (he' : f'.expr.Wf n) (hd : ∀ c, Interior n l c → f.expr.DefinedAt n c ∧ f'.expr.DefinedAt n c)
    (hi : f.expr.Independent l 0) (hi' : f'.expr.Independent l 0) (m : Mem (Fl (ieee special))) (m' : Mem (Fl (K := K) (roundEven 53)))
    (hm : ∀ b x, (m b x).val = (m' b x).val) :
    ∃ w w', interiorAssign l f.expr m = .ok w ∧ interiorAssign l f'.expr m' = .ok w' ∧
      ∀ c, Interior n l c → Meets Normal m f c → (w b (cellAddr l.geo c)).val = (w' b (cellAddr l.geo c)).val := by
  obtain ⟨w, h1, h2, -⟩ := C22_interior_assign_pointwise n hn l b ht f.expr he (fun c hc => (hd c hc).1) hi m
  obtain ⟨w', h3, h4, -⟩ := C22_interior_assign_pointwise n hn l b ht f'.expr he' (fun c hc => (hd c hc).2) hi' m'
  refine ⟨w, w', h1, h3, fun c hc hr => ?_⟩
  rw [h2 c hc, h4 c hc]
  exact same_value (normal_alike special) m m' hm hs c hr

/-! ## Neither condition can be left out -/

section
variable {K : Type} [Field K] [LinearOrder K] [IsStrictOrderedRing K] [FloorRing K]

/-- C108. Overflow: twice the largest power of two of the format is not a number of the format, and the result is whatever the format gives then. -/
theorem _root_.SpatialOps.C108_overflow (special : K → K) (a : Fl (ieee special)) (ha : a.val = 2 ^ (1023 : Int)) :
    ieee special a.val = a.val ∧ (a + a).val = special (2 ^ (1024 : Int)) := by
  have kept : ∀ k : Int, -1022 ≤ k → gradual 53 (-1074) ((2 : K) ^ k) = 2 ^ k := by
    intro k hk
    have h0 : (0 : K) < 2 ^ k := by positivity
    have hlog : Int.log 2 |(2 : K) ^ k| = k := by
      rw [abs_of_pos h0]
      exact log_eq le_rfl (zpow_lt_zpow_right₀ (by norm_num) (by omega))
    unfold gradual
    rw [hlog, max_eq_left (by push_cast; omega), ← zpow_sub₀ (by norm_num), show k - (k - ((53 : Nat) - 1 : Int)) = ((52 : Nat) : Int) by push_cast; ring,
      zpow_natCast]
    have := nearestEven_int (K := K) (2 ^ 52)
    rw [Int.cast_pow, Int.cast_ofNat] at this
    rw [this, Int.cast_pow, Int.cast_ofNat, ← zpow_natCast, ← zpow_add₀ (by norm_num)]
    congr 1
    push_cast
    ring
  constructor
  · rw [ha]
    unfold ieee
    rw [kept 1023 (by norm_num), if_pos]
    rw [abs_of_pos (by positivity), show (2 : K) ^ 1024 = 2 ^ (1024 : Int) from (zpow_natCast _ _).symm]
    exact zpow_lt_zpow_right₀ (by norm_num) (by norm_num)
  · have e : a.val + a.val = (2 : K) ^ (1024 : Int) := by
      rw [ha, ← mul_two, ← zpow_add_one₀ (by norm_num)]
      norm_num
    show ieee special (a.val + a.val) = _
    rw [e]
    unfold ieee
    rw [kept 1024 (by norm_num), if_neg]
    rw [abs_of_pos (by positivity), show (2 : K) ^ 1024 = 2 ^ (1024 : Int) from (zpow_natCast _ _).symm]
    exact lt_irrefl _

/-- C108. Underflow: the product of two numbers of the format that are not zero can be zero; no bound relative to the exact product holds. -/
theorem _root_.SpatialOps.C108_underflow (special : K → K) (a : Fl (ieee special)) (ha : a.val = 2 ^ (-600 : Int)) : (a * a).val = 0 ∧ a.val * a.val ≠ 0 := by
  have h0 : (0 : K) < 2 ^ (-600 : Int) := by positivity
  have hx : |a.val * a.val| = (2 : K) ^ (-1200 : Int) := by
    rw [ha, ← zpow_add₀ (by norm_num), abs_of_pos (by positivity)]
    norm_num
  refine ⟨?_, mul_ne_zero (by rw [ha]; exact h0.ne') (by rw [ha]; exact h0.ne')⟩
  have hle : (2 : K) ^ (-1200 : Int) ≤ (2 ^ 53 - 1) * 2 ^ (971 : Int) := by
    refine (zpow_le_zpow_right₀ (by norm_num) (show (-1200 : Int) ≤ 971 by norm_num)).trans ?_
    exact le_mul_of_one_le_left (by positivity) (by norm_num)
  obtain ⟨h1, k, hk⟩ := (C108_double special (a.val * a.val) (by rw [hx]; exact hle)).2.1 (by
    rw [hx]; exact zpow_lt_zpow_right₀ (by norm_num) (by norm_num))
  show ieee special (a.val * a.val) = 0
  -- a multiple of `2^-1074` that is less than that
  have h2 : |(k : K) * 2 ^ (-1074 : Int)| < 2 ^ (-1074 : Int) := by
    have a1 := abs_add_le (ieee special (a.val * a.val) - a.val * a.val) (a.val * a.val)
    rw [sub_add_cancel, hx, hk] at a1
    rw [hk] at h1
    have a2 : (2 : K) ^ (-1200 : Int) < 2 ^ (-1075 : Int) := zpow_lt_zpow_right₀ (by norm_num) (by norm_num)
    have a3 : (2 : K) ^ (-1074 : Int) = 2 ^ (-1075 : Int) + 2 ^ (-1075 : Int) := by
      rw [← mul_two, ← zpow_add_one₀ (by norm_num)]
      norm_num
    rw [a3]
    rw [a3] at a1 h1
    linarith
  rw [abs_mul, abs_of_pos (show (0 : K) < 2 ^ (-1074 : Int) by positivity)] at h2
  have h3 : |(k : K)| < 1 := by
    by_contra h
    exact absurd h2 (not_lt.2 (le_mul_of_one_le_left (by positivity) (not_lt.1 h)))
  have h4 : |k| < 1 := by exact_mod_cast h3
  rw [hk, Int.abs_lt_one_iff.1 h4]
  simp

end

/-! ## Examples -/

namespace RangeEx

/-- `double`; overflow gives the number 7. -/
abbrev R : ℚ → ℚ := ieee fun _ => 7

/-- `(a + b) * a - 0.1`. -/
def formula : Formula R :=
  .sub (.mul (.add (.field (NeboEx.fld false 1)) (.field (NeboEx.fld false 2))) (.field (NeboEx.fld false 1))) (.const ⟨R (1 / 10)⟩)

end RangeEx

/-- The limits of `double`, as far as the examples need them. -/
theorem RangeEx.limits : (0 : ℚ) ≤ 2 ^ (-1075 : Int) ∧ (2 : ℚ) ^ (-1075 : Int) ≤ 2 ^ (-200 : Int) ∧ (2 : ℚ) ^ (200 : Int) ≤ (2 ^ 53 - 1) * 2 ^ (971 : Int) := by
  refine ⟨by positivity, zpow_le_zpow_right₀ (by norm_num) (by norm_num), ?_⟩
  exact (zpow_le_zpow_right₀ (by norm_num) (by norm_num)).trans (le_mul_of_one_le_left (show (0 : ℚ) ≤ 2 ^ (971 : Int) by positivity) (by norm_num))

/-- Example: `(a + b) * a - 0.1` does not overflow if the values of `a` and `b` are at most `2^60`, and underflow loses less than `2^-100`. -/
example (m : Mem (Fl RangeEx.R)) (c : IntVec) (ha : |(valueAt m (NeboEx.fld false 1) c).val| ≤ 2 ^ 60)
    (hb : |(valueAt m (NeboEx.fld false 2) c).val| ≤ 2 ^ 60) :
    Fits ((2 : ℚ) ^ (-53 : Int)) (2 ^ (-1075 : Int)) ((2 ^ 53 - 1) * 2 ^ (971 : Int)) m RangeEx.formula c ∧
      lost ((2 : ℚ) ^ (-53 : Int)) (2 ^ (-1075 : Int)) m RangeEx.formula c ≤ 2 ^ (-100 : Int) := by
  obtain ⟨t0, t1, T1⟩ := RangeEx.limits
  have hk : |RangeEx.R (1 / 10)| ≤ 1 := by
    have h := (C108_double_is_limited (fun _ : ℚ => 7)).close (1 / 10) (le_trans (by norm_num [abs_of_pos]) T1)
    have h1 := abs_sub_abs_le_abs_sub (RangeEx.R (1 / 10)) (1 / 10)
    have h3 : |(1 / 10 : ℚ)| = 1 / 10 := by norm_num [abs_of_pos]
    have h4 := h1.trans h
    rw [h3] at h4
    have h5 : (2 : ℚ) ^ (-200 : Int) ≤ 1 / 10 := by norm_num
    have h6 : (2 : ℚ) ^ (-53 : Int) * (1 / 10) ≤ 1 / 10 := by norm_num
    have h7 := h4.trans (add_le_add h6 (t1.trans h5))
    linarith
  have hx := abs_nonneg (valueAt m (NeboEx.fld false 1) c).val
  have hy := abs_nonneg (valueAt m (NeboEx.fld false 2) c).val
  have hz := abs_nonneg (RangeEx.R (1 / 10))
  simp only [RangeEx.formula, Fits, peak, lost, Formula.depth, Formula.size]
  generalize |(valueAt m (NeboEx.fld false 1) c).val| = x at *
  generalize |(valueAt m (NeboEx.fld false 2) c).val| = y at *
  generalize |RangeEx.R (1 / 10)| = z at *
  generalize ((2 : ℚ) ^ (-1075 : Int)) = t at *
  generalize ((2 ^ 53 - 1) * (2 : ℚ) ^ (971 : Int)) = T at *
  have hxx : (x + y) * x ≤ 2 ^ 121 := by nlinarith
  have hxy : 0 ≤ (x + y) * x := by positivity
  have hxt : x * t ≤ 2 ^ 60 * 2 ^ (-200 : Int) := mul_le_mul ha t1 t0 (by norm_num)
  norm_num at ha hb t1 T1 hxx hxt ⊢
  generalize (x + y) * x = p at *
  generalize x * t = q at *
  refine ⟨⟨⟨?_, ?_⟩, ?_⟩, ?_⟩ <;> linarith

/-- Example: an interpolant of the example mesh, in `double`, meets the conditions of `C108_operators`. -/
example (m : Mem (Fl RangeEx.R)) (h : Dir → Fl RangeEx.R) :=
  C108_operators (C108_double_is_limited (fun _ : ℚ => 7)) h (Reg.mk .interpolant .sVol .sSurfX .half) (by decide +kernel) ⟨4, 3, 1⟩ (by decide) _ _ 3
    (ConserveEx.interpReads 1 3 (by decide)) m

/-- Example: the average of two neighbours does not overflow if their values are at most `2^60`. -/
example (m : Mem (Fl RangeEx.R)) (c : IntVec) (f : FieldObj) (hc : ∀ c, |(valueAt m f c).val| ≤ 2 ^ 60) :
    Fits ((2 : ℚ) ^ (-53 : Int)) (2 ^ (-1075 : Int)) ((2 ^ 53 - 1) * 2 ^ (971 : Int)) m
      (.stencil (.more (.one (0, ⟨1 / 2⟩)) (⟨1, 0, 0⟩, ⟨1 / 2⟩)) (.field f)) c := by
  obtain ⟨t0, t1, T1⟩ := RangeEx.limits
  have h1 := hc (c + 0)
  have h2 := hc (c + ⟨1, 0, 0⟩)
  refine ⟨fun q _ => trivial, ?_⟩
  simp only [peak, lost, Formula.depth, Formula.size, Pts.toList, List.map_append, List.map_cons, List.map_nil, List.sum_append, List.sum_cons, List.sum_nil,
    List.length_append, List.length_cons, List.length_nil]
  generalize |(valueAt m f (c + 0)).val| = x at *
  generalize |(valueAt m f (c + ⟨1, 0, 0⟩)).val| = y at *
  generalize ((2 : ℚ) ^ (-1075 : Int)) = t at *
  generalize ((2 ^ 53 - 1) * (2 : ℚ) ^ (971 : Int)) = T at *
  rw [show |(1 / 2 : ℚ)| = 1 / 2 by norm_num]
  norm_num at h1 h2 t1 T1 ⊢
  linarith

/-- Example: the average of two neighbours whose values are from 1 to `2^60` meets the condition of `C108_within_range`. -/
example (m : Mem (Fl RangeEx.R)) (c : IntVec) (f : FieldObj) (hc : ∀ c, 1 ≤ (valueAt m f c).val ∧ (valueAt m f c).val ≤ 2 ^ 60) :
    Same (rnd' := roundEven 53) (.stencil (weighted RangeEx.R (.more (.one (0, 1 / 2)) (⟨1, 0, 0⟩, 1 / 2))) (.field f))
      (.stencil (weighted (roundEven 53) (.more (.one (0, 1 / 2)) (⟨1, 0, 0⟩, 1 / 2))) (.field f)) ∧
    Meets Normal m (.stencil (weighted RangeEx.R (.more (.one (0, 1 / 2)) (⟨1, 0, 0⟩, 1 / 2))) (.field f)) c := by
  obtain ⟨t0, t1, T1⟩ := RangeEx.limits
  have hlo : (2 : ℚ) ^ (-1022 : Int) ≤ 1 / 2 :=
    le_trans (zpow_le_zpow_right₀ (by norm_num) (by norm_num : (-1022 : Int) ≤ -1)) (by norm_num)
  have key : ∀ x : ℚ, 1 / 2 ≤ x → x ≤ 2 ^ 61 → Normal x := by
    intro x h1 h2
    refine Or.inr ?_
    rw [abs_of_nonneg (by linarith)]
    exact ⟨hlo.trans h1, h2.trans (le_trans (by norm_num) T1)⟩
  have round : ∀ x : ℚ, 1 ≤ x → x ≤ 2 ^ 60 → 1 / 4 ≤ RangeEx.R (x * (1 / 2)) ∧ RangeEx.R (x * (1 / 2)) ≤ 2 ^ 60 := by
    intro x h1 h2
    have h : |RangeEx.R (x * (1 / 2)) - x * (1 / 2)| ≤ 2 ^ (-53 : Int) * |x * (1 / 2)| + 2 ^ (-1075 : Int) :=
      (C108_double_is_limited (fun _ : ℚ => 7)).close (x * (1 / 2))
        (by rw [abs_of_nonneg (by linarith)]; exact le_trans (by norm_num at h2 ⊢; linarith) T1)
    rw [abs_of_nonneg (by linarith : 0 ≤ x * (1 / 2))] at h
    have h3 := abs_le.1 (h.trans (add_le_add le_rfl t1))
    generalize RangeEx.R (x * (1 / 2)) = r at *
    norm_num at h2 h3 ⊢
    constructor <;> linarith [h3.1, h3.2]
  have all : ∀ q : IntVec, Normal ((valueAt m f (c + q)).val * (1 / 2)) := by
    intro q
    have h := hc (c + q)
    exact key _ (by linarith) (by norm_num at h ⊢; linarith)
  refine ⟨.stencil _ (.field f), ?_, trivial, ?_⟩
  · intro q hq
    simp only [weighted, Pts.toList, List.cons_append, List.nil_append, List.mem_cons, List.not_mem_nil, or_false] at hq
    rcases hq with rfl | rfl
    · exact ⟨trivial, all _⟩
    · exact ⟨trivial, all _⟩
  · have pair : ∀ a b : ℚ, 1 ≤ a ∧ a ≤ 2 ^ 60 → 1 ≤ b ∧ b ≤ 2 ^ 60 → Normal (RangeEx.R (a * (1 / 2)) + RangeEx.R (b * (1 / 2))) := by
      intro a b ha hb
      have h1 := round a ha.1 ha.2
      have h2 := round b hb.1 hb.2
      refine key _ (by linarith [h1.1, h2.1]) ?_
      norm_num at h1 h2 ⊢
      linarith [h1.2, h2.2]
    exact pair _ _ (hc _) (hc _)

/-- Example: `cond(f < 0, -f)(f)` is the same formula in both formats. -/
example (f : FieldObj) : Same (rnd := RangeEx.R) (rnd' := roundEven 53)
    (.cond (.bin (s := .num) (t := .bool) (fun a b : Fl RangeEx.R => decide (a.val < b.val)) (.field f) (.scalar (t := .num) ⟨0⟩)) (.neg (.field f)) (.field f))
    (.cond (.bin (s := .num) (t := .bool) (fun a b : Fl (roundEven 53 : ℚ → ℚ) => decide (a.val < b.val)) (.field f) (.scalar (t := .num) ⟨0⟩)) (.neg (.field f))
      (.field f)) :=
  .cond (fun m m' hm c => by
    show decide ((valueAt m f c).val < 0) = decide ((valueAt m' f c).val < 0)
    rw [show (valueAt m f c).val = (valueAt m' f c).val from hm _ _]) (fun _ _ => Iff.rfl) (.neg (.field f)) (.field f)

end Range
end SpatialOps
