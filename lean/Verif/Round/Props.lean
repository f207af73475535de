import Verif.Round.Filter
import Verif.Loops.Props
import Mathlib.Analysis.SpecialFunctions.Sqrt

/-!
# Property C77: arithmetic with rounding

How far the results computed in floating point are from the exact ones, and what holds exactly in spite of rounding.
-/

namespace SpatialOps
open Nebo Stencil Round

variable {K : Type} [Field K] [LinearOrder K] [IsStrictOrderedRing K] {u : K} {rnd : K → K}

/-! ## The format -/

/-- C77. What the other theorems assume holds for rounding to nearest, ties to even, with `p` binary digits: the relative error
is at most `2^-p`. For `double` `p` is 53. -/
theorem C77_nearest_even_is_format [FloorRing K] (p : Nat) (hp : 1 ≤ p) : Format ((2 : K) ^ (-(p : Int))) (roundEven p) :=
  roundEven_format hp

/-- C77. It rounds to nearest, ties to even: the result is a number with `p` binary digits, none is nearer, and if another one `v` is as near, then
they are neighbours in a row of numbers a power of two apart, and the result is an even multiple of it. -/
theorem C77_nearest_even [FloorRing K] (p : Nat) (hp : 1 ≤ p) (x : K) :
    HasDigits p (roundEven p x) ∧ ∀ v, HasDigits p v → |roundEven p x - x| ≤ |v - x| ∧
      (|v - x| = |roundEven p x - x| → v ≠ roundEven p x → ∃ m e : Int, roundEven p x = ((2 * m : Int) : K) * 2 ^ e ∧ |v - roundEven p x| = 2 ^ e) :=
  roundEven_nearest hp x

/-- C77. The factor in the error bounds is the usual one: for `k` roundings at most `ku / (1 - ku)`. -/
theorem C77_growth (hu : 0 ≤ u) (k : Nat) (h : k * u < 1) : 0 ≤ grow u k ∧ grow u k ≤ k * u / (1 - k * u) :=
  ⟨grow_nonneg hu k, grow_le hu k h⟩

/-! ## Assignments -/

/-- C77. `lhs <<= formula` and `interior_assign(lhs, formula)` in floating point succeed, and each value they write differs from the exact
value of the formula by at most `grow u depth` times the value of the formula with all terms taken positive. -/
theorem C77_assign (hf : Format u rnd) (n : IntVec) (hn : IntVec.Lt 0 n) (l : FieldObj) (b : Nat) (ht : Target n l b)
    (f : Formula rnd) (he : f.expr.Wf n) (hd : ∀ c, Interior n l c → f.expr.DefinedAt n c) (hi : f.expr.Independent l 0)
    (m : Mem (Fl rnd)) :
    (∃ m', assign l f.expr m = .ok m' ∧ ∀ c, Stored n l c → f.expr.DefinedAt n c →
      |(m' b (cellAddr l.geo c)).val - f.exact m c| ≤ grow u f.depth * f.size m c) ∧
    (∃ m', interiorAssign l f.expr m = .ok m' ∧ ∀ c, Interior n l c →
      |(m' b (cellAddr l.geo c)).val - f.exact m c| ≤ grow u f.depth * f.size m c) := by
  constructor
  · obtain ⟨m', h1, h2, -⟩ := C22_assign_pointwise n hn l b ht f.expr he hd hi m
    refine ⟨m', h1, fun c hs hc => ?_⟩
    rw [h2 c ⟨hs, hc⟩]
    exact (err_formula hf m f c).1
  · obtain ⟨m', h1, h2, -⟩ := C22_interior_assign_pointwise n hn l b ht f.expr he hd hi m
    refine ⟨m', h1, fun c hc => ?_⟩
    rw [h2 c hc]
    exact (err_formula hf m f c).1

/-! ## Reductions -/

/-- C77. `nebo_sum(formula)` and `nebo_sum_interior(formula)` of `N` cells differ from the exact sum by at most `grow u (depth + N - 1)` times
the sum of the formula with all terms taken positive. -/
theorem C77_sum (hf : Format u rnd) (n : IntVec) (hn : IntVec.Lt 0 n) (f : Formula rnd) (he : f.expr.Wf n) (hs : f.expr.StencilFree)
    (ho : f.expr.HasOperand) (hd : ∀ c, InBlock n c → f.expr.DefinedAt n c) (m : Mem (Fl rnd)) :
    (∃ (cells : List IntVec) (r : Fl rnd), Lists cells (f.expr.DefinedAt n) ∧ Returns (neboSum f.expr m) r ∧
      |r.val - (cells.map (f.exact m)).sum| ≤ grow u (f.depth + (cells.length - 1)) * (cells.map (f.size m)).sum) ∧
    (∃ (cells : List IntVec) (r : Fl rnd), Lists cells (InBlock n) ∧ Returns (neboSumInterior f.expr m) r ∧
      |r.val - (cells.map (f.exact m)).sum| ≤ grow u (f.depth + (cells.length - 1)) * (cells.map (f.size m)).sum) := by
  constructor
  · obtain ⟨first, rest, h1, h2⟩ := C27_reduce_all_cells n hn f.expr he hs ho hd (fun a b => a + b) m
    exact ⟨_, _, h1, h2, (err_reduce hf first rest (fun c => f.expr.value m c) _ _ _ fun c _ => err_formula hf m f c).1⟩
  · obtain ⟨first, rest, h1, h2⟩ := C28_interior_reduce n hn f.expr he hs ho hd (fun a b => a + b) m
    exact ⟨_, _, h1, h2, (err_reduce hf first rest (fun c => f.expr.value m c) _ _ _ fun c _ => err_formula hf m f c).1⟩

/-- C77. `nebo_norm` of a field of `N` cells, for `pow(x, 2)` and `sqrt` that are correct up to one rounding: it differs from the exact norm by a
factor between `(1-u)` times the root of `(1-u)^N` and `(1+u)` times the root of `(1+u)^N`. -/
theorem C77_norm {u : ℝ} {rnd : ℝ → ℝ} (hf : Format u rnd) (hu : u ≤ 1) (n : IntVec) (hn : IntVec.Lt 0 n) (a : FieldObj) (ha : OnMesh n a.geo)
    (hv : a.values ≠ none) (sqrt : Fl rnd → Fl rnd) (pow : Fl rnd → Fl rnd → Fl rnd) (two : Fl rnd)
    (hsqrt : ∀ x, 0 ≤ x.val → (sqrt x).val = rnd (Real.sqrt x.val)) (hpow : ∀ x, (pow x two).val = rnd (x.val ^ 2))
    (hcell : ∀ c, HasCell a.geo c → IntVec.Le (-⟨ghostMax, ghostMax, ghostMax⟩) c ∧ IntVec.Lt c (n + ⟨ghostMax, ghostMax, ghostMax⟩))
    (m : Mem (Fl rnd)) :
    ∃ (cells : List IntVec) (r : Fl rnd), Lists cells (HasCell a.geo) ∧ Returns (neboNorm sqrt pow two (.field a) m) r ∧
      (1 - u) * Real.sqrt ((1 - u) ^ cells.length * (cells.map fun c => (valueAt m a c).val ^ 2).sum) ≤ r.val ∧
      r.val ≤ (1 + u) * Real.sqrt ((1 + u) ^ cells.length * (cells.map fun c => (valueAt m a c).val ^ 2).sum) := by
  have h0 := hf.nonneg
  let e : Expr (Fl rnd) .num := .bin (s := .num) (t := .num) pow (.field a) (.scalar (t := .num) two)
  obtain ⟨first, rest, h1, k, h2⟩ := C27_reduce_all_cells n hn e ⟨⟨ha, hv⟩, trivial⟩ ⟨trivial, trivial⟩ (.inl trivial)
    (fun c hc => by
      have : HasCell a.geo c := (hasCell_iff ha c).2 (by
        have hx := ha.extra
        have hv := ha.valid
        unfold GhostData.Valid at hv
        unfold InBox
        generalize a.geo.bc.hasExtra = ex at *
        iv_omega)
      exact ⟨this, hcell c this⟩) (fun a b => a + b) m
  have hl : Lists (first :: rest) (HasCell a.geo) := ⟨h1.1, fun c => (h1.2 c).trans ⟨fun h => h.1, fun h => ⟨h, hcell c h⟩⟩⟩
  have hev : ∀ c, (e.value m c : Fl rnd).val = rnd ((valueAt m a c).val ^ 2) := fun c => hpow _
  have hone : ∀ c, (1 - u) ^ 1 * (valueAt m a c).val ^ 2 ≤ (e.value m c : Fl rnd).val ∧
      (e.value m c : Fl rnd).val ≤ (1 + u) ^ 1 * (valueAt m a c).val ^ 2 := by
    intro c
    rw [hev]
    have := abs_le.1 (hf.close ((valueAt m a c).val ^ 2))
    rw [abs_of_nonneg (sq_nonneg _)] at this
    constructor <;> nlinarith
  have hb := fold_between hf hu rest (fun c => e.value m c) (fun c => (valueAt m a c).val ^ 2) 1 0 (e.value m first)
    ((valueAt m a first).val ^ 2) (fun c _ => sq_nonneg _) (sq_nonneg _) (hone first) (fun c _ => hone c)
  have hsum : 0 ≤ (valueAt m a first).val ^ 2 + (rest.map fun c => (valueAt m a c).val ^ 2).sum := by
    refine add_nonneg (sq_nonneg _) (List.sum_nonneg ?_)
    intro x hx
    obtain ⟨c, -, rfl⟩ := List.mem_map.1 hx
    exact sq_nonneg _
  generalize hS : rest.foldl (fun s c => s + (e.value m c : Fl rnd)) (e.value m first) = S at *
  have hS0 : 0 ≤ S.val := (mul_nonneg (pow_nonneg (by linarith) _) hsum).trans hb.1
  refine ⟨first :: rest, sqrt S, hl, ⟨k, fun j hj => ?_⟩, ?_⟩
  · unfold neboNorm neboSum
    rw [h2 j hj]
  · rw [hsqrt S hS0]
    have hc := abs_le.1 (hf.close (Real.sqrt S.val))
    rw [abs_of_nonneg (Real.sqrt_nonneg _)] at hc
    have e1 : (first :: rest).length = 1 + 0 + rest.length := by simp; omega
    rw [e1, List.map_cons, List.sum_cons]
    have s1 := Real.sqrt_le_sqrt hb.1
    have s2 := Real.sqrt_le_sqrt hb.2
    constructor
    · nlinarith
    · nlinarith

/-! ## Operators -/

/-- C77. Every registered operator in floating point differs from itself in exact arithmetic, applied to the same numbers, by at most
`grow u (k + 1)` times the sum of the absolute values of its coefficients times the largest number read, `k` being the number
of values it reads. -/
theorem C77_operators (hf : Format u rnd) (h : Dir → Fl rnd) (r : Reg) (hr : r ∈ registrations) (n : IntVec) (hn : IntVec.Lt 0 n)
    (src dest : FieldObj) (b : Nat) (ha : Readable n r src dest b) (m : Mem (Fl rnd)) :
    ∃ m' m'', r.applyToField h src dest m = .ok m' ∧
      r.applyToField (fun d => (h d).val) src dest (exactly m) = .ok m'' ∧
      ∀ c, Interior n dest c → ∀ B, (∀ p ∈ r.reads, |(valueAt m src (c + p)).val| ≤ B) →
        |(valueAt m' dest c).val - valueAt m'' dest c| ≤ grow u (r.reads.length + 1) * (amplification (fun d => (h d).val) r * B) := by
  obtain ⟨t, w, den, s, ht, hw, hreads, hamp⟩ := amp_bound hr (fun d => (h d).val)
  obtain ⟨e, he, hv⟩ := err_apply hf h t r.coef src w den s hw
  obtain ⟨m', h1, h2, -⟩ := apply_expr h ht hn he ha m
  obtain ⟨m'', h3, h4, -⟩ := apply_any (fun d => (h d).val) ht hw hn ha (exactly m)
  refine ⟨m', m'', h1, h3, fun c hc B hB => ?_⟩
  rw [h2 c hc, h4 c hc, sum_toList]
  have h5 := (hv m c).1
  rw [show w.toList.length = r.reads.length by rw [← hreads, List.length_map]] at h5
  exact h5.trans (mul_le_mul_of_nonneg_left (hamp _ B hB) (grow_nonneg hf.nonneg _))

/-- C77. The divergence theorem with rounding: over any block of interior cells the sum of what a gradient or divergence
computed, times the spacing, differs from the flow through the far end minus that through the near end by at most
`grow u 3` times the sum of the absolute values read. -/
theorem C77_divergence_theorem (hf : Format u rnd) (h : Dir → Fl rnd) (r : Reg) (hr : r ∈ registrations)
    (ho : r.op = .gradient ∨ r.op = .divergence) (d : Dir) (hd : OnlyDirection r.src r.dest d) (hh : (h d).val ≠ 0) (n : IntVec)
    (hn : IntVec.Lt 0 n) (flux dest : FieldObj) (b : Nat) (ha : Applicable n r d flux dest b) (m m' : Mem (Fl rnd))
    (happ : r.applyToField h flux dest m = .ok m') (lo ext : IntVec) (hext : IntVec.Le 0 ext)
    (hin : ∀ c, InExtent lo ext c → Interior n dest c) :
    |blockSum lo ext (fun c => (valueAt m' dest c).val) * (h d).val -
      (blockSum (lo + along (comp ext d) d) (layer ext d) (fun c => (valueAt m flux (lowSide r.dest d c)).val) -
       blockSum lo (layer ext d) (fun c => (valueAt m flux (lowSide r.dest d c)).val))| ≤
      grow u 3 * blockSum lo ext (fun c => |(valueAt m flux (highSide r.dest d c)).val| + |(valueAt m flux (lowSide r.dest d c)).val|) := by
  obtain ⟨m1, h1, h2, -⟩ := err_twoPoint hf h hr ho hd hn ha m
  rw [happ] at h1
  injection h1 with h1
  subst h1
  rw [← telescope r.dest d lo ext hext (fun c => (valueAt m flux c).val) (h d).val hh]
  refine scaled (err_blockSum fun c hc => h2 c (hin c hc)) ?_
  rw [← blockSum_mul]
  exact blockSum_congr fun c _ => div_mul_cancel₀ _ (abs_ne_zero.2 hh)

/-- C77. Conservation as a user computes it, with rounding: `nebo_sum_interior(dest)` after `div.apply_to_field(flux, dest)` on a mesh of
`N` cells, times the spacing, differs from the flow through the far side of the mesh minus that through the near side by at most
`grow u (N + 2)` times the sum of the absolute values read. -/
theorem C77_conservation (hf : Format u rnd) (h : Dir → Fl rnd) (r : Reg) (hr : r ∈ registrations)
    (ho : r.op = .gradient ∨ r.op = .divergence) (d : Dir) (hd : OnlyDirection r.src r.dest d) (hh : (h d).val ≠ 0) (n : IntVec)
    (hn : IntVec.Lt 0 n) (flux dest : FieldObj) (b : Nat) (ha : Applicable n r d flux dest b) (m : Mem (Fl rnd)) :
    ∃ (m' : Mem (Fl rnd)) (total : Fl rnd) (cells : List IntVec), r.applyToField h flux dest m = .ok m' ∧ Lists cells (InBlock n) ∧
      Returns (neboSumInterior (.field dest) m') total ∧
      |total.val * (h d).val -
        (blockSum (along (comp n d) d) (layer n d) (fun c => (valueAt m flux (lowSide r.dest d c)).val) -
         blockSum 0 (layer n d) (fun c => (valueAt m flux (lowSide r.dest d c)).val))| ≤
        grow u (cells.length + 2) *
          blockSum 0 n (fun c => |(valueAt m flux (highSide r.dest d c)).val| + |(valueAt m flux (lowSide r.dest d c)).val|) := by
  obtain ⟨m', h1, h2, -⟩ := err_twoPoint hf h hr ho hd hn ha m
  have hI : ∀ c, InBlock n c → Interior n dest c := by
    intro c hc
    have hx := ha.target.mesh.extra
    unfold Interior
    generalize dest.geo.bc.hasExtra = ex at *
    iv_omega
  obtain ⟨first, rest, h3, h4⟩ := C28_interior_reduce n hn (.field dest)
    (by unfold Expr.Wf; exact ⟨ha.target.mesh, by rw [ha.target.mem]; simp⟩)
    (by unfold Expr.StencilFree; trivial) (by unfold Expr.HasOperand; trivial) (fun c hc => by
      unfold Expr.DefinedAt; exact (hasCell_iff ha.target.mesh c).2 (by
      have hx := ha.target.mesh.extra
      have hv := ha.target.mesh.valid
      unfold GhostData.Valid at hv
      unfold InBox
      generalize dest.geo.bc.hasExtra = ex at *
      iv_omega)) (fun a b => a + b) m'
  refine ⟨m', _, first :: rest, h1, h3, h4, ?_⟩
  have h5 := err_reduce hf first rest (fun c => valueAt m' dest c) _ _ 3 fun c hc => h2 c (hI c ((h3.2 c).1 hc))
  have e1 := telescope r.dest d 0 n (by iv_omega) (fun c => (valueAt m flux c).val) (h d).val hh
  rw [show (0 : IntVec) + along (comp n d) d = along (comp n d) d by apply IntVec.ext <;> simp] at e1
  rw [← e1]
  rw [sum_list_eq hn h3, sum_list_eq hn h3, show 3 + ((first :: rest).length - 1) = (first :: rest).length + 2 by simp; omega] at h5
  refine scaled h5 ?_
  rw [← blockSum_mul]
  exact blockSum_congr fun c _ => div_mul_cancel₀ _ (abs_ne_zero.2 hh)

/-! ## What holds exactly -/

/-- C77. With any rounding that treats both signs alike, a gradient or divergence, also of the kind that takes twice the spacing, of equal values is exactly
zero, whatever the spacing. -/
theorem C77_difference_of_equal_values (hf : Format u rnd) (hodd : ∀ x, rnd (-x) = -rnd x) (h : Dir → Fl rnd) (r : Reg)
    (hr : r ∈ registrations) (ho : r.op = .gradient ∨ r.op = .divergence ∨ ∃ d, r.op = .gradientD d) (n : IntVec) (hn : IntVec.Lt 0 n)
    (src dest : FieldObj) (b : Nat) (ha : Readable n r src dest b) (m : Mem (Fl rnd)) :
    ∃ m', r.applyToField h src dest m = .ok m' ∧
      ∀ c, Interior n dest c → ∀ v, (∀ p ∈ r.reads, valueAt m src (c + p) = v) → (valueAt m' dest c).val = 0 := by
  have hzero : rnd 0 = 0 := by simpa using hf.close 0
  have hok := List.all_eq_true.1 all_zeroOk r hr
  unfold zeroOk at hok
  have key : ∀ (o : Tag) (p q : IntVec) (sr de : FieldType) (k : Fl rnd), r.type = some (.coefs o (.more (.one p) q) sr de) →
      r.coef.build h = some (coef2 (-k) k) → ∃ m', r.applyToField h src dest m = .ok m' ∧
      ∀ c, Interior n dest c → ∀ v, (∀ p ∈ r.reads, valueAt m src (c + p) = v) → (valueAt m' dest c).val = 0 := by
    intro o p q sr de k ht hc
    have he : (OpType.coefs o (.more (.one p) q) sr de).apply (r.coef.build h) (.field src) =
        some (.stencil (.more (.one (p, -k)) (q, k)) (.field src)) := by
      rw [hc]; rfl
    obtain ⟨m', h1, h2, -⟩ := apply_expr h ht hn he ha m
    refine ⟨m', h1, fun c hc v hv => ?_⟩
    rw [h2 c hc]
    have hreads : r.reads = [p, q] := by rw [reads_eq ht]; rfl
    rw [hreads] at hv
    have e : ((Expr.stencil (.more (.one (p, -k)) (q, k)) (.field src)).value m c : Fl rnd) =
        valueAt m src (c + p) * -k + valueAt m src (c + q) * k := rfl
    rw [e, hv p (by simp), hv q (by simp)]
    show rnd (rnd (v.val * -k.val) + rnd (v.val * k.val)) = 0
    rw [mul_neg, hodd, neg_add_cancel, hzero]
  have hneg : ∀ x y : Fl rnd, -x / y = -(x / y) := by
    intro x y
    ext
    show rnd (-x.val / y.val) = -rnd (x.val / y.val)
    rw [neg_div, hodd]
  have hok' : (match r.type, r.coef with
    | some (.coefs _ (.more (.one _) _) _ _), .per _ => true
    | some (.coefs _ (.more (.one _) _) _ _), .halfPer _ => true
    | _, _ => false) = true := by
    rcases ho with ho | ho | ⟨d, ho⟩ <;> rw [ho] at hok <;> exact hok
  split at hok'
  · rename_i o p q sr de d ht hc
    exact key o p q sr de (1 / h d) ht (by rw [hc]; simp only [Coef.build, hneg])
  · rename_i o p q sr de d ht hc
    exact key o p q sr de (1 / 2 / h d) ht (by rw [hc]; simp only [Coef.build, hneg])
  · simp at hok'

/-- C77. With rounding to nearest even, interpolants (to faces, edges, between staggered cells, and to the same type) create no new extrema:
if the numbers they read are between two numbers of the format, so is the result. In particular they reproduce constants
exactly (the case `lo = hi`). -/
theorem C77_interpolants_bounded [FloorRing K] (p : Nat) (hp : 2 ≤ p) (h : Dir → Fl (K := K) (roundEven p)) (r : Reg) (hr : r ∈ registrations)
    (ho : r.op = .interpolant ∨ ∃ d, r.op = .interpolantD d) (n : IntVec) (hn : IntVec.Lt 0 n) (src dest : FieldObj) (b : Nat)
    (ha : Readable n r src dest b) (m : Mem (Fl (K := K) (roundEven p))) :
    ∃ m', r.applyToField h src dest m = .ok m' ∧
      ∀ c, Interior n dest c → ∀ lo hi : K, roundEven p lo = lo → roundEven p hi = hi →
        (∀ q ∈ r.reads, lo ≤ (valueAt m src (c + q)).val ∧ (valueAt m src (c + q)).val ≤ hi) →
        lo ≤ (valueAt m' dest c).val ∧ (valueAt m' dest c).val ≤ hi := by
  have hm : ∀ {x y : K}, x ≤ y → roundEven p x ≤ roundEven p y := roundEven_mono (by omega)
  have h2' : roundEven p (1 / 2 : K) = 1 / 2 := (roundEven_format (by omega)).half
  have h4' : roundEven p (1 / 4 : K) = 1 / 4 := by
    have := roundEven_half p (1 / 2 : K)
    rw [h2'] at this
    norm_num at this
    simpa using this
  have halves : ∀ x : K, roundEven p x = x → roundEven p (roundEven p (x * (1 / 2)) + roundEven p (x * (1 / 2))) = x := by
    intro x hx
    rw [roundEven_half, hx]
    rw [show x * (1 / 2) + x * (1 / 2) = x by ring, hx]
  have quarters : ∀ x : K, roundEven p x = x → roundEven p (roundEven p (roundEven p (roundEven p (x * (1 / 4)) + roundEven p (x * (1 / 4))) +
      roundEven p (x * (1 / 4))) + roundEven p (x * (1 / 4))) = x := by
    intro x hx
    rw [roundEven_quarter, hx, show x * (1 / 4) + x * (1 / 4) = x * (1 / 2) by ring, roundEven_half, hx]
    exact three_quarters hp hx
  have hok := List.all_eq_true.1 all_meanOk r hr
  unfold meanOk at hok
  have hok' : (match r.type, r.coef with
    | some (.coefs _ (.more (.one _) _) _ _), .half => true
    | some (.coefs _ (.more (.more (.more (.one _) _) _) _) _ _), .quarter => true
    | some (.sum (.one _) _ _), .absent => true
    | _, _ => false) = true := by
    rcases ho with ho | ⟨d, ho⟩ <;> rw [ho] at hok <;> exact hok
  split at hok'
  · rename_i o p1 p2 sr de ht hc
    obtain ⟨m', h1, h2, -⟩ := apply_expr h ht hn (e := .stencil (.more (.one (p1, 1 / 2)) (p2, 1 / 2)) (.field src)) (by rw [hc]; rfl) ha m
    refine ⟨m', h1, fun c hc lo hi hlo hhi hb => ?_⟩
    have hreads : r.reads = [p1, p2] := by rw [reads_eq ht]; rfl
    rw [hreads] at hb
    have e : ((Expr.stencil (.more (.one (p1, 1 / 2)) (p2, 1 / 2)) (.field src)).value m c : Fl (roundEven p)).val =
        roundEven p (roundEven p ((valueAt m src (c + p1)).val * (1 / 2)) + roundEven p ((valueAt m src (c + p2)).val * (1 / 2))) := by
      conv_rhs => rw [← h2', ← val_two (K := K) (rnd := roundEven p)]
      rfl
    rw [h2 c hc, e]
    have b1 := hb p1 (by simp)
    have b2 := hb p2 (by simp)
    have hmono : ∀ {x y x' y' : K}, x ≤ y → x' ≤ y' → roundEven p (roundEven p (x * (1 / 2)) + roundEven p (x' * (1 / 2))) ≤
        roundEven p (roundEven p (y * (1 / 2)) + roundEven p (y' * (1 / 2))) := fun hx hy =>
      hm (add_le_add (hm (by linarith)) (hm (by linarith)))
    exact ⟨(halves lo hlo).symm.trans_le (hmono b1.1 b2.1), (hmono b1.2 b2.2).trans_eq (halves hi hhi)⟩
  · rename_i o p1 p2 p3 p4 sr de ht hc
    obtain ⟨m', h1, h2, -⟩ := apply_expr h ht hn
      (e := .stencil (.more (.more (.more (.one (p1, 1 / 4)) (p2, 1 / 4)) (p3, 1 / 4)) (p4, 1 / 4)) (.field src)) (by rw [hc]; rfl) ha m
    refine ⟨m', h1, fun c hc lo hi hlo hhi hb => ?_⟩
    have hreads : r.reads = [p1, p2, p3, p4] := by rw [reads_eq ht]; rfl
    rw [hreads] at hb
    have e : ((Expr.stencil (.more (.more (.more (.one (p1, 1 / 4)) (p2, 1 / 4)) (p3, 1 / 4)) (p4, 1 / 4)) (.field src)).value m c :
        Fl (roundEven p)).val = roundEven p (roundEven p (roundEven p (roundEven p ((valueAt m src (c + p1)).val * (1 / 4)) +
          roundEven p ((valueAt m src (c + p2)).val * (1 / 4))) + roundEven p ((valueAt m src (c + p3)).val * (1 / 4))) +
          roundEven p ((valueAt m src (c + p4)).val * (1 / 4))) := by
      conv_rhs => rw [← h4', ← val_four (K := K) (rnd := roundEven p)]
      rfl
    rw [h2 c hc, e]
    have b1 := hb p1 (by simp)
    have b2 := hb p2 (by simp)
    have b3 := hb p3 (by simp)
    have b4 := hb p4 (by simp)
    have hmono : ∀ {x1 x2 x3 x4 y1 y2 y3 y4 : K}, x1 ≤ y1 → x2 ≤ y2 → x3 ≤ y3 → x4 ≤ y4 →
        roundEven p (roundEven p (roundEven p (roundEven p (x1 * (1 / 4)) + roundEven p (x2 * (1 / 4))) +
          roundEven p (x3 * (1 / 4))) + roundEven p (x4 * (1 / 4))) ≤
        roundEven p (roundEven p (roundEven p (roundEven p (y1 * (1 / 4)) + roundEven p (y2 * (1 / 4))) +
          roundEven p (y3 * (1 / 4))) + roundEven p (y4 * (1 / 4))) := fun h1 h2 h3 h4 =>
      hm (add_le_add (hm (add_le_add (hm (add_le_add (hm (by linarith)) (hm (by linarith)))) (hm (by linarith)))) (hm (by linarith)))
    exact ⟨(quarters lo hlo).symm.trans_le (hmono b1.1 b2.1 b3.1 b4.1), (hmono b1.2 b2.2 b3.2 b4.2).trans_eq (quarters hi hhi)⟩
  · rename_i p1 sr de ht hc
    obtain ⟨m', h1, h2, -⟩ := apply_expr h ht hn (e := .sumStencil (.one p1) (.field src)) (by rw [hc]; rfl) ha m
    refine ⟨m', h1, fun c hc lo hi hlo hhi hb => ?_⟩
    rw [h2 c hc]
    exact hb p1 (by rw [reads_eq ht]; exact List.mem_singleton.2 rfl)
  · simp at hok'

/-- C77, deviation. The box filters do not reproduce constants in `double`: the filter of a field that is `1 + 2^-52` everywhere, a number of the
format, is 1 everywhere. (`C77_operators` bounds how far off they are.) -/
theorem C77_filter_changes_constants [FloorRing K] (h : Dir → Fl (K := K) (roundEven 53)) (r : Reg) (hr : r ∈ registrations)
    (ho : r.op = .filter) (n : IntVec) (hn : IntVec.Lt 0 n) (src dest : FieldObj) (b : Nat) (ha : Readable n r src dest b)
    (m : Mem (Fl (K := K) (roundEven 53))) (hm : ∀ c, (valueAt m src c).val = 1 + 1 / 2 ^ 52) :
    roundEven 53 (1 + 1 / 2 ^ 52 : K) = 1 + 1 / 2 ^ 52 ∧
    ∃ m', r.applyToField h src dest m = .ok m' ∧ ∀ c, Interior n dest c → (valueAt m' dest c).val = 1 := by
  have e0 : (1 + 1 / 2 ^ 52 : K) = (oneUp : K) * 2 ^ (-52 : Int) := by
    unfold oneUp; rw [zpow_neg]; norm_num
  refine ⟨?_, ?_⟩
  · rw [e0, roundEven_scale, roundNat_eq _ (by unfold oneUp; omega)]
    have : roundNat oneUp = oneUp := by decide +kernel
    rw [this]
  · have hok := List.all_eq_true.1 all_boxOk r hr
    unfold boxOk at hok
    rw [ho] at hok
    simp only [Bool.and_eq_true, beq_iff_eq] at hok
    obtain ⟨ht, hc⟩ := hok
    obtain ⟨m', h1, h2, -⟩ := apply_expr h ht hn (e := .bin (s := .num) (t := .num) (fun a b : Fl (K := K) (roundEven 53) => a * b)
      (.sumStencil box3D (.field src)) (.scalar (t := .num) (1 / (len box3D : Fl (K := K) (roundEven 53))))) (by rw [hc]; rfl) ha m
    refine ⟨m', h1, fun c hc => ?_⟩
    have hv : ∀ c, valueAt m src c = ⟨(oneUp : K) * 2 ^ (-52 : Int)⟩ := fun c => Fl.ext ((hm c).trans e0)
    have e : ((Expr.bin (s := .num) (t := .num) (fun a b : Fl (K := K) (roundEven 53) => a * b)
      (.sumStencil box3D (.field src)) (.scalar (t := .num) (1 / (len box3D : Fl (K := K) (roundEven 53))))).value m c : Fl (K := K) (roundEven 53)) =
      (box3D.sum fun q => valueAt m src (c + q)) * (1 / (len box3D : Fl (K := K) (roundEven 53))) := rfl
    rw [h2 c hc, e]
    simp only [hv]
    rw [val_mul, sum_oneUp _ (by decide +kernel), val_div, val_one, val_nat]
    have e1 : box3D.toList.length - 1 = 26 := by decide +kernel
    have e2 : len box3D = 27 := by decide +kernel
    rw [e1, e2]
    push_cast
    exact filter_oneUp

/-! ## Examples -/

namespace RoundEx

/-- Rounding of `double`. -/
abbrev R : ℚ → ℚ := roundEven 53

theorem format : Format ((2 : ℚ) ^ (-53 : Int)) R := C77_nearest_even_is_format 53 (by norm_num)

/-- `(a + b) * a - 0.1`. -/
def formula : Formula R :=
  .sub (.mul (.add (.field (NeboEx.fld false 1)) (.field (NeboEx.fld false 2))) (.field (NeboEx.fld false 1))) (.const ⟨R (1 / 10)⟩)

end RoundEx

/-- A tie: `2^53 + 1` is rounded to `2^53`, though `2^53 + 2` is as near. -/
example : RoundEx.R (2 ^ 53 + 1) = 2 ^ 53 ∧ HasDigits 53 (2 ^ 53 + 2 : ℚ) ∧ |(2 ^ 53 + 2 : ℚ) - (2 ^ 53 + 1)| = |RoundEx.R (2 ^ 53 + 1) - (2 ^ 53 + 1)| := by
  have e : RoundEx.R (2 ^ 53 + 1) = 2 ^ 53 := by
    unfold RoundEx.R
    rw [roundEven_unit 53 (j := 1) (by norm_num) (by norm_num), nearestEven_of_even (M := 2 ^ 52) (by norm_num) (by norm_num)]
    norm_num
  exact ⟨e, ⟨2 ^ 52 + 1, 1, by norm_num, by norm_num⟩, by rw [e]; norm_num⟩

/-- The bounds are not trivial: for up to a thousand roundings the relative error is below `10^-12`. -/
example (k : Nat) (hk : k ≤ 1000) : grow ((2 : ℚ) ^ (-53 : Int)) k < 1 / 10 ^ 12 := by
  refine (grow_mono (by positivity) hk).trans_lt ((C77_growth (by positivity) 1000 (by norm_num)).2.trans_lt ?_)
  norm_num

/-- `a0 <<= (a1 + a2) * a1 - 0.1` in `double`: three roundings. -/
example (m : Mem (Fl RoundEx.R)) : ∃ m', interiorAssign (NeboEx.fld false 0) RoundEx.formula.expr m = .ok m' ∧
    ∀ c, Interior ⟨4, 3, 1⟩ (NeboEx.fld false 0) c →
    |(m' 0 (cellAddr (NeboEx.geo false) c)).val - (((valueAt m (NeboEx.fld false 1) c).val + (valueAt m (NeboEx.fld false 2) c).val) *
      (valueAt m (NeboEx.fld false 1) c).val - RoundEx.R (1 / 10))| ≤ grow ((2 : ℚ) ^ (-53 : Int)) 3 *
      ((|(valueAt m (NeboEx.fld false 1) c).val| + |(valueAt m (NeboEx.fld false 2) c).val|) * |(valueAt m (NeboEx.fld false 1) c).val| +
        |RoundEx.R (1 / 10)|) := by
  have hw : ∀ b, (Expr.field (V := Fl RoundEx.R) (NeboEx.fld false b)).Wf ⟨4, 3, 1⟩ := fun b =>
    ⟨NeboEx.onMesh false, by simp [NeboEx.fld]⟩
  have hd : ∀ b c, Interior ⟨4, 3, 1⟩ (NeboEx.fld false 0) c → (Expr.field (V := Fl RoundEx.R) (NeboEx.fld false b)).DefinedAt ⟨4, 3, 1⟩ c := by
    intro b c hc
    rw [ConserveEx.interior] at hc
    show HasCell (NeboEx.geo false) c
    rw [ConserveEx.hasCell]
    simp only [Bool.false_eq_true, if_false] at hc ⊢
    omega
  have hi : ∀ b, b ≠ 0 → (Expr.field (V := Fl RoundEx.R) (NeboEx.fld false b)).Independent (NeboEx.fld false 0) 0 := fun b hb =>
    .inl (by simpa [NeboEx.fld] using hb)
  refine (C77_assign RoundEx.format ⟨4, 3, 1⟩ (by decide) (NeboEx.fld false 0) 0 (NeboEx.target false 0) RoundEx.formula
    ⟨⟨⟨hw 1, hw 2⟩, hw 1⟩, trivial⟩ (fun c hc => ⟨⟨⟨hd 1 c hc, hd 2 c hc⟩, hd 1 c hc⟩, ?_⟩)
    ⟨⟨⟨hi 1 (by decide), hi 2 (by decide)⟩, hi 1 (by decide)⟩, trivial⟩ m).2
  rw [ConserveEx.interior] at hc
  show IntVec.Le (-⟨ghostMax, ghostMax, ghostMax⟩) c ∧ IntVec.Lt c ((⟨4, 3, 1⟩ : IntVec) + ⟨ghostMax, ghostMax, ghostMax⟩)
  simp only [ghostMax]
  simp only [Bool.false_eq_true, if_false] at hc
  iv_omega

/-- Conservation in `double` on the example mesh. -/
example (m : Mem (Fl RoundEx.R)) (h : Dir → Fl RoundEx.R) (hh : (h .x).val ≠ 0) :=
  C77_conservation RoundEx.format h ConserveEx.div (by decide +kernel) (.inr rfl) .x (onlyDir_iff (by decide)) hh ⟨4, 3, 1⟩ (by decide) _ _ 0
    ConserveEx.divApplies m

/-- The interpolant of a constant number of the format is that constant, in `double`. -/
example (m : Mem (Fl RoundEx.R)) (h : Dir → Fl RoundEx.R) (v : Fl RoundEx.R) (hv : RoundEx.R v.val = v.val)
    (hm : ∀ c, valueAt m (NeboEx.fld false 1) c = v) :
    ∃ m', (Reg.mk .interpolant .sVol .sSurfX .half).applyToField h (NeboEx.fld false 1) (NeboEx.fld true 3) m = .ok m' ∧
      ∀ c, Interior ⟨4, 3, 1⟩ (NeboEx.fld true 3) c → valueAt m' (NeboEx.fld true 3) c = v := by
  obtain ⟨m', h1, h2⟩ := C77_interpolants_bounded 53 (by norm_num) h _ (by decide +kernel) (.inl rfl) ⟨4, 3, 1⟩ (by decide) _ _ 3
    (ConserveEx.interpReads 1 3 (by decide)) m
  refine ⟨m', h1, fun c hc => Fl.ext ?_⟩
  have := h2 c hc v.val v.val hv hv fun q _ => by rw [hm]; exact ⟨le_refl _, le_refl _⟩
  exact le_antisymm this.2 this.1

/-- Both filter theorems apply to the example fields of C76. -/
example (m : Mem (Fl RoundEx.R)) (h : Dir → Fl RoundEx.R) (hm : ∀ c, (valueAt m (LoopsEx.fld false 1) c).val = 1 + 1 / 2 ^ 52) :
    ∃ m' m'', (Reg.mk .filter .sVol .sVol .absent).applyToField h (LoopsEx.fld false 1) (LoopsEx.fld false 0) m = .ok m' ∧
      (Reg.mk .filter .sVol .sVol .absent).applyToField (fun d => (h d).val) (LoopsEx.fld false 1) (LoopsEx.fld false 0) (exactly m) = .ok m'' ∧
      ∀ c, Interior ⟨4, 3, 2⟩ (LoopsEx.fld false 0) c → (valueAt m' (LoopsEx.fld false 0) c).val = 1 ∧
        |(valueAt m' (LoopsEx.fld false 0) c).val - valueAt m'' (LoopsEx.fld false 0) c| ≤ grow ((2 : ℚ) ^ (-53 : Int)) 28 * (1 + 1 / 2 ^ 52) := by
  have hr : (Reg.mk .filter .sVol .sVol .absent) ∈ registrations := by decide +kernel
  have ha := Loops.readable hr (LoopsEx.twins false false 1 0 (by decide))
  obtain ⟨m', m'', h1, h2, h3⟩ := C77_operators RoundEx.format h _ hr ⟨4, 3, 2⟩ (by decide) _ _ 0 ha m
  obtain ⟨-, m1, h4, h5⟩ := C77_filter_changes_constants h _ hr rfl ⟨4, 3, 2⟩ (by decide) _ _ 0 ha m hm
  rw [h1] at h4
  injection h4 with h4
  subst h4
  refine ⟨m', m'', h1, h2, fun c hc => ⟨h5 c hc, ?_⟩⟩
  have h6 := h3 c hc (1 + 1 / 2 ^ 52) fun p _ => by rw [hm, abs_of_pos (by positivity)]
  have e : (Reg.mk .filter .sVol .sVol .absent).reads.length = 27 := by decide +kernel
  rw [e] at h6
  simpa [amplification] using h6

/-- The norm of a field of the example mesh. -/
example (m : Mem (Fl (roundEven (K := ℝ) 53))) := by
  have hc : ∀ c, HasCell (NeboEx.fld false 1).geo c → IntVec.Le (-⟨ghostMax, ghostMax, ghostMax⟩) c ∧
      IntVec.Lt c (⟨4, 3, 1⟩ + ⟨ghostMax, ghostMax, ghostMax⟩) := by
    intro c hc
    have hc : HasCell (NeboEx.geo false) c := hc
    rw [ConserveEx.hasCell] at hc
    simp only [Bool.false_eq_true, if_false] at hc
    simp only [ghostMax]
    iv_omega
  exact C77_norm (C77_nearest_even_is_format (K := ℝ) 53 (by norm_num)) (by norm_num) ⟨4, 3, 1⟩ (by decide) (NeboEx.fld false 1) (NeboEx.onMesh false)
    (by decide) (fun x => ⟨roundEven 53 (Real.sqrt x.val)⟩) (fun x _ => ⟨roundEven 53 (x.val ^ 2)⟩) 2 (fun _ _ => rfl) (fun _ => rfl) hc m

/-- Equal values on the example mesh. -/
example (m : Mem (Fl RoundEx.R)) (h : Dir → Fl RoundEx.R) :=
  C77_difference_of_equal_values RoundEx.format (roundEven_neg 53) h ⟨.gradientD .y, .sVol, .sVol, .halfPer .y⟩ (by decide +kernel) (.inr (.inr ⟨.y, rfl⟩))
    ⟨4, 3, 2⟩ (by decide) _ _ 0 (Loops.readable (by decide +kernel) (LoopsEx.twins false false 1 0 (by decide))) m

end SpatialOps
