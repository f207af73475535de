import Verif.Accuracy.Lemmas
import Verif.Conserve.Props
import Mathlib.Analysis.SpecialFunctions.Trigonometric.Deriv

/-!
# C79: the operators are accurate to second order

For a field that samples a smooth function, what each registered operator computes differs
from the function, or its derivative, by a constant times the square of the spacing, and the
constant is the best possible.
-/

namespace SpatialOps
namespace Accuracy

open Nebo Stencil

theorem mean_of {r : Reg} (hr : r ∈ registrations) (ho : r.op = .interpolant ∨ r.op = .filter ∨ ∃ d, r.op = .interpolantD d)
    (h : Dir → ℝ) {n : IntVec} (hn : IntVec.Lt 0 n) {src dest : FieldObj} {b : Nat} (ha : Readable n r src dest b)
    {m : Mem ℝ} {lo hi : Dir → ℝ} {F : (Dir → ℝ) → ℝ} (hF : Samples h r.src lo hi m src F) :
    ∃ m', r.applyToField h src dest m = .ok m' ∧ ∀ c, Interior n dest c →
      valueAt m' dest c = (mean (offs r .z) fun k => mean (offs r .y) fun j => mean (offs r .x) fun i =>
        F (pt (position h r.dest c .x + h .x * i / 2) (position h r.dest c .y + h .y * j / 2)
          (position h r.dest c .z + h .z * k / 2))) ∧
      ∀ d, ∀ o ∈ offs r d, lo d ≤ position h r.dest c d + h d * o / 2 ∧ position h r.dest c d + h d * o / 2 ≤ hi d := by
  obtain ⟨t, w, den, s, ht, hw, -⟩ := reg_weights hr
  obtain ⟨m', h1, h2, -⟩ := apply_any h ht hw hn ha m
  have hok := List.all_eq_true.1 all_mean r hr
  unfold meanOk at hok
  rw [ht] at hok
  dsimp only at hok
  rw [hw] at hok
  have hok' : (s == none && (w.toList.all fun q => q.2 == 1) &&
        (w.toList.map fun q => (⟨off r.src r.dest q.1 .x, off r.src r.dest q.1 .y, off r.src r.dest q.1 .z⟩ : IntVec)) ==
          combos (offs r .x) (offs r .y) (offs r .z) &&
        den == (offs r .x).length * (offs r .y).length * (offs r .z).length) = true := by
    rcases ho with ho | ho | ⟨d, ho⟩ <;> rw [ho] at hok <;> exact hok
  simp only [Bool.and_eq_true, beq_iff_eq] at hok'
  obtain ⟨⟨⟨rfl, hone⟩, hpts⟩, hden⟩ := hok'
  refine ⟨m', h1, fun c hc => ?_⟩
  have hread : ∀ q ∈ w.toList, InBox lo hi (position h r.src (c + q.1)) ∧
      valueAt m src (c + q.1) = F (position h r.src (c + q.1)) := fun q hq =>
    hF _ (ha.reads c hc q.1 (by rw [reads_eq ht]; exact weights_points hw q hq))
  have hpos : ∀ q : IntVec × Int, position h r.src (c + q.1) =
      pt (position h r.dest c .x + h .x * (off r.src r.dest q.1 .x : ℝ) / 2)
        (position h r.dest c .y + h .y * (off r.src r.dest q.1 .y : ℝ) / 2)
        (position h r.dest c .z + h .z * (off r.src r.dest q.1 .z : ℝ) / 2) := by
    intro q
    funext d
    cases d <;> simp only [pt] <;> exact position_off h r.src r.dest c q.1 _
  constructor
  · rw [h2 c hc, sum_toList]
    have e1 : (w.toList.map fun q => valueAt m src (c + q.1) * (q.2 : ℝ)) =
        (w.toList.map fun q => (⟨off r.src r.dest q.1 .x, off r.src r.dest q.1 .y, off r.src r.dest q.1 .z⟩ : IntVec)).map
          fun o => F (pt (position h r.dest c .x + h .x * (o.x : ℝ) / 2) (position h r.dest c .y + h .y * (o.y : ℝ) / 2)
            (position h r.dest c .z + h .z * (o.z : ℝ) / 2)) := by
      rw [List.map_map]
      refine List.map_congr_left fun q hq => ?_
      have := List.all_eq_true.1 hone q hq
      rw [beq_iff_eq] at this
      rw [this, (hread q hq).2, hpos]
      simp
    rw [e1, hpts]
    unfold factor
    rw [mul_one_div, hden, combos_mean]
  · intro d o hO
    have hnonempty : ∀ d, ∃ o, o ∈ offs r d := fun d => by
      obtain ⟨o, h1, -⟩ := (offs_share r d).neg
      exact ⟨o, h1⟩
    have hmem : ∀ i ∈ offs r .x, ∀ j ∈ offs r .y, ∀ k ∈ offs r .z, ∃ q ∈ w.toList,
        off r.src r.dest q.1 .x = i ∧ off r.src r.dest q.1 .y = j ∧ off r.src r.dest q.1 .z = k := by
      intro i hi' j hj k hk
      have : (⟨i, j, k⟩ : IntVec) ∈ combos (offs r .x) (offs r .y) (offs r .z) := by
        unfold combos
        simp only [List.mem_flatMap, List.mem_map]
        exact ⟨k, hk, j, hj, i, hi', rfl⟩
      rw [← hpts, List.mem_map] at this
      obtain ⟨q, hq, e⟩ := this
      exact ⟨q, hq, congrArg IntVec.x e, congrArg IntVec.y e, congrArg IntVec.z e⟩
    obtain ⟨q, hq, e⟩ : ∃ q ∈ w.toList, off r.src r.dest q.1 d = o := by
      obtain ⟨i, hi'⟩ := hnonempty .x
      obtain ⟨j, hj⟩ := hnonempty .y
      obtain ⟨k, hk⟩ := hnonempty .z
      cases d with
      | x => obtain ⟨q, hq, e, -, -⟩ := hmem o hO j hj k hk; exact ⟨q, hq, e⟩
      | y => obtain ⟨q, hq, -, e, -⟩ := hmem i hi' o hO k hk; exact ⟨q, hq, e⟩
      | z => obtain ⟨q, hq, -, -, e⟩ := hmem i hi' j hj o hO; exact ⟨q, hq, e⟩
    have := (hread q hq).1 d
    rw [position_off h r.src r.dest, e] at this
    exact this

/-- C79. Interpolants, filters and directional interpolants are accurate to second order. Let the source sample a
function `F` whose second derivatives along the axes are bounded by `M`. Then the result differs from `F` at the place of
the destination's value by at most the sum over the directions of `share * h² * M`, where the share is `1/8` in each
direction in which an interpolant's source and destination are staggered, `1/2` in the direction of a directional
interpolant, and `1/3` in each direction for the filter. -/
theorem _root_.SpatialOps.C79_averages (h : Dir → ℝ) (hh : ∀ d, 0 < h d) (r : Reg) (hr : r ∈ registrations)
    (ho : r.op = .interpolant ∨ r.op = .filter ∨ ∃ d, r.op = .interpolantD d)
    (n : IntVec) (hn : IntVec.Lt 0 n) (src dest : FieldObj) (b : Nat) (ha : Readable n r src dest b)
    (m : Mem ℝ) (lo hi : Dir → ℝ) (F : (Dir → ℝ) → ℝ) (hF : Samples h r.src lo hi m src F)
    (F1 F2 : Dir → (Dir → ℝ) → ℝ) (h1 : ∀ d, IsPartial lo hi d F (F1 d)) (h2 : ∀ d, IsPartial lo hi d (F1 d) (F2 d))
    (M : Dir → ℝ) (hM : ∀ d p, InBox lo hi p → |F2 d p| ≤ M d) :
    ∃ m', r.applyToField h src dest m = .ok m' ∧ ∀ c, Interior n dest c →
      |valueAt m' dest c - F (position h r.dest c)| ≤
        share r .x * h .x ^ 2 * M .x + share r .y * h .y ^ 2 * M .y + share r .z * h .z ^ 2 * M .z := by
  obtain ⟨m', e1, e2⟩ := mean_of hr ho h hn ha hF
  refine ⟨m', e1, fun c hc => ?_⟩
  obtain ⟨e3, e4⟩ := e2 c hc
  rw [e3]
  exact product_bound (offs_share r) hh h1 h2 hM e4

theorem slope_of {r : Reg} (hr : r ∈ registrations) {d : Dir} {k : Nat} (hk : 0 < k) (hok : slopeOk r d k = true)
    (h : Dir → ℝ) (hh : 0 < h d) {n : IntVec} (hn : IntVec.Lt 0 n) {src dest : FieldObj} {b : Nat}
    (ha : Readable n r src dest b) {m : Mem ℝ} {lo hi : Dir → ℝ} {F : (Dir → ℝ) → ℝ} (hF : Samples h r.src lo hi m src F) :
    ∃ m', r.applyToField h src dest m = .ok m' ∧ ∀ c, Interior n dest c →
      valueAt m' dest c =
        (F (Function.update (position h r.dest c) d (position h r.dest c d + h d * (k : ℝ) / 2)) -
          F (Function.update (position h r.dest c) d (position h r.dest c d + h d * -(k : ℝ) / 2))) / (k * h d) ∧
      InBox lo hi (Function.update (position h r.dest c) d (position h r.dest c d + h d * -(k : ℝ) / 2)) ∧
      InBox lo hi (Function.update (position h r.dest c) d (position h r.dest c d + h d * (k : ℝ) / 2)) := by
  obtain ⟨t, w, den, s, ht, hw, -⟩ := reg_weights hr
  obtain ⟨m', h1, h2, -⟩ := apply_any h ht hw hn ha m
  unfold slopeOk at hok
  rw [ht] at hok
  dsimp only at hok
  rw [hw] at hok
  dsimp only at hok
  rw [Bool.and_eq_true, Bool.and_eq_true, beq_iff_eq, beq_iff_eq] at hok
  obtain ⟨⟨rfl, rfl⟩, hok⟩ := hok
  split at hok
  · rename_i a b'
    simp only [Bool.and_eq_true, beq_iff_eq] at hok
    obtain ⟨⟨⟨wa, wb⟩, pa⟩, pb⟩ := hok
    refine ⟨m', h1, fun c hc => ?_⟩
    have hread : ∀ q ∈ (Pts.more (Pts.one a) b').toList, InBox lo hi (position h r.src (c + q.1)) ∧
        valueAt m src (c + q.1) = F (position h r.src (c + q.1)) := fun q hq =>
      hF _ (ha.reads c hc q.1 (by rw [reads_eq ht]; exact weights_points hw q hq))
    have ra := hread a (by simp [Pts.toList])
    have rb := hread b' (by simp [Pts.toList])
    rw [position_only h r.src r.dest c a.1 d _ pa] at ra
    rw [position_only h r.src r.dest c b'.1 d _ pb] at rb
    push_cast at ra rb
    refine ⟨?_, ra.1, rb.1⟩
    rw [h2 c hc]
    simp only [Pts.sum]
    rw [ra.2, rb.2, wa, wb]
    unfold factor
    have hk' : (den : ℝ) ≠ 0 := by exact_mod_cast hk.ne'
    field_simp
    push_cast
    ring
  · cases hok

theorem slopeOk_one {r : Reg} (hr : r ∈ registrations) (ho : r.op = .gradient ∨ r.op = .divergence) {d : Dir}
    (hd : OnlyDirection r.src r.dest d) : slopeOk r d 1 = true := by
  have := List.all_eq_true.1 all_slopes r hr
  unfold slopesOk at this
  have hx : ([Dir.x, .y, .z].all fun d => !onlyDir r.src r.dest d || slopeOk r d 1) = true := by
    rcases ho with ho | ho <;> rw [ho] at this <;> exact this
  have := all_dirs hx d
  have honly : onlyDir r.src r.dest d = true := by
    unfold onlyDir
    rw [List.all_eq_true]
    intro e _
    have := hd e
    generalize staggered r.src e = b1 at *
    generalize staggered r.dest e = b2 at *
    by_cases he : e = d <;> cases b1 <;> cases b2 <;> simp_all
  simpa [honly] using this

theorem slopeOk_two {r : Reg} (hr : r ∈ registrations) {d : Dir} (ho : r.op = .gradientD d) : slopeOk r d 2 = true := by
  have := List.all_eq_true.1 all_slopes r hr
  unfold slopesOk at this
  rw [ho] at this
  exact this

/-- C79. Gradients and divergences are accurate to second order: if the source samples a function whose third derivative
in the direction of the operator is bounded by `M`, the result differs from the derivative at the place of the
destination's value by at most `h² M / 24`. -/
theorem _root_.SpatialOps.C79_derivatives (h : Dir → ℝ) (r : Reg) (hr : r ∈ registrations)
    (ho : r.op = .gradient ∨ r.op = .divergence) (d : Dir) (hd : OnlyDirection r.src r.dest d) (hh : 0 < h d)
    (n : IntVec) (hn : IntVec.Lt 0 n) (src dest : FieldObj) (b : Nat) (ha : Readable n r src dest b)
    (m : Mem ℝ) (lo hi : Dir → ℝ) (F : (Dir → ℝ) → ℝ) (hF : Samples h r.src lo hi m src F)
    (F1 F2 F3 : (Dir → ℝ) → ℝ) (h1 : IsPartial lo hi d F F1) (h2 : IsPartial lo hi d F1 F2)
    (h3 : IsPartial lo hi d F2 F3) (M : ℝ) (hM : ∀ p, InBox lo hi p → |F3 p| ≤ M) :
    ∃ m', r.applyToField h src dest m = .ok m' ∧ ∀ c, Interior n dest c →
      |valueAt m' dest c - F1 (position h r.dest c)| ≤ 1 / 24 * h d ^ 2 * M := by
  obtain ⟨m', e1, e2⟩ := slope_of hr (by decide) (slopeOk_one hr ho hd) h hh hn ha hF
  refine ⟨m', e1, fun c hc => ?_⟩
  obtain ⟨e3, e4, e5⟩ := e2 c hc
  push_cast at e3 e4 e5
  rw [e3]
  have := slope_bound hh h1 h2 h3 hM one_pos e4 e5
  simpa using this

/-- C79. Likewise the directional gradients, with `h² M / 6`: their points are two cells apart. -/
theorem _root_.SpatialOps.C79_directional_derivatives (h : Dir → ℝ) (r : Reg) (hr : r ∈ registrations) (d : Dir)
    (ho : r.op = .gradientD d) (hh : 0 < h d)
    (n : IntVec) (hn : IntVec.Lt 0 n) (src dest : FieldObj) (b : Nat) (ha : Readable n r src dest b)
    (m : Mem ℝ) (lo hi : Dir → ℝ) (F : (Dir → ℝ) → ℝ) (hF : Samples h r.src lo hi m src F)
    (F1 F2 F3 : (Dir → ℝ) → ℝ) (h1 : IsPartial lo hi d F F1) (h2 : IsPartial lo hi d F1 F2)
    (h3 : IsPartial lo hi d F2 F3) (M : ℝ) (hM : ∀ p, InBox lo hi p → |F3 p| ≤ M) :
    ∃ m', r.applyToField h src dest m = .ok m' ∧ ∀ c, Interior n dest c →
      |valueAt m' dest c - F1 (position h r.dest c)| ≤ 1 / 6 * h d ^ 2 * M := by
  obtain ⟨m', e1, e2⟩ := slope_of hr (by decide) (slopeOk_two hr ho) h hh hn ha hF
  refine ⟨m', e1, fun c hc => ?_⟩
  obtain ⟨e3, e4, e5⟩ := e2 c hc
  push_cast at e3 e4 e5
  rw [e3]
  have := slope_bound hh h1 h2 h3 hM two_pos e4 e5
  rw [show (2 : ℝ) ^ 2 / 24 = 1 / 6 by norm_num] at this
  exact this

/-! ## The bounds are attained -/

theorem mean_add (l : List Int) (φ ψ : Int → ℝ) : mean l (fun o => φ o + ψ o) = mean l φ + mean l ψ := by
  unfold mean
  rw [← add_div]
  congr 1
  induction l with
  | nil => simp
  | cons a l ih => simp only [List.map_cons, List.sum_cons, ih]; ring

theorem mean_sq {l : List Int} {κ : ℝ} (hl : Offs l κ) (a η M : ℝ) :
    mean l (fun o => M / 2 * (a + η * o / 2) ^ 2) = M / 2 * a ^ 2 + κ * η ^ 2 * M := by
  cases hl <;> simp [mean] <;> ring

/-- C79. The bound for averages is the best possible: for the function `Mx x² / 2 + My y² / 2 + Mz z² / 2`, whose second
derivatives are exactly `M`, every interpolant, filter and directional interpolant is wrong by exactly the bound, in every
cell. -/
theorem _root_.SpatialOps.C79_averages_attained (h : Dir → ℝ) (r : Reg) (hr : r ∈ registrations)
    (ho : r.op = .interpolant ∨ r.op = .filter ∨ ∃ d, r.op = .interpolantD d)
    (n : IntVec) (hn : IntVec.Lt 0 n) (src dest : FieldObj) (b : Nat) (ha : Readable n r src dest b)
    (m : Mem ℝ) (M lo hi : Dir → ℝ)
    (hF : Samples h r.src lo hi m src fun p => M .x / 2 * p .x ^ 2 + M .y / 2 * p .y ^ 2 + M .z / 2 * p .z ^ 2) :
    ∃ m', r.applyToField h src dest m = .ok m' ∧ ∀ c, Interior n dest c →
      valueAt m' dest c - (M .x / 2 * position h r.dest c .x ^ 2 + M .y / 2 * position h r.dest c .y ^ 2 +
          M .z / 2 * position h r.dest c .z ^ 2) =
        share r .x * h .x ^ 2 * M .x + share r .y * h .y ^ 2 * M .y + share r .z * h .z ^ 2 * M .z := by
  obtain ⟨m', e1, e2⟩ := mean_of hr ho h hn ha hF
  refine ⟨m', e1, fun c hc => ?_⟩
  rw [(e2 c hc).1]
  simp only [pt, mean_add, mean_const (offs_share r _).ne, mean_sq (offs_share r _)]
  ring

/-- C79. The bounds for derivatives are the best possible: for the function `M s³ / 6` of the coordinate `s` in the
operator's direction, whose third derivative is exactly `M`, gradients and divergences are wrong by exactly
`h² M / 24`, directional gradients by exactly `h² M / 6`. -/
theorem _root_.SpatialOps.C79_derivatives_attained (h : Dir → ℝ) (r : Reg) (hr : r ∈ registrations) (d : Dir) (hh : 0 < h d)
    (ho : ((r.op = .gradient ∨ r.op = .divergence) ∧ OnlyDirection r.src r.dest d) ∨ r.op = .gradientD d)
    (n : IntVec) (hn : IntVec.Lt 0 n) (src dest : FieldObj) (b : Nat) (ha : Readable n r src dest b)
    (m : Mem ℝ) (M : ℝ) (lo hi : Dir → ℝ) (hF : Samples h r.src lo hi m src fun p => M / 6 * p d ^ 3) :
    ∃ m', r.applyToField h src dest m = .ok m' ∧ ∀ c, Interior n dest c →
      valueAt m' dest c - M / 2 * position h r.dest c d ^ 2 =
        (if r.op = .gradientD d then 1 / 6 else 1 / 24) * h d ^ 2 * M := by
  obtain ⟨k, hk, hok⟩ : ∃ k : Nat, (0 < k ∧ (k : ℝ) ^ 2 / 24 = if r.op = .gradientD d then 1 / 6 else 1 / 24) ∧
      slopeOk r d k = true := by
    rcases ho with ⟨ho, hd⟩ | ho
    · refine ⟨1, ?_, slopeOk_one hr ho hd⟩
      rw [if_neg (by rcases ho with e | e <;> rw [e] <;> simp)]
      norm_num
    · refine ⟨2, ?_, slopeOk_two hr ho⟩
      rw [if_pos ho]
      norm_num
  obtain ⟨m', e1, e2⟩ := slope_of hr hk.1 hok h hh hn ha hF
  refine ⟨m', e1, fun c hc => ?_⟩
  rw [(e2 c hc).1, ← hk.2, Function.update_self, Function.update_self]
  have : (k : ℝ) ≠ 0 := by exact_mod_cast hk.1.ne'
  field_simp
  ring

/-! ## Gradient followed by divergence -/

/-- C79. The divergence of the gradient is accurate to second order: if `phi` samples a function whose fourth derivative in
direction `d` is bounded by `M`, then after `grad.apply_to_field(phi, g)` and `div.apply_to_field(g, q)`, at every
interior cell whose two faces are interior, `q` differs from the second derivative by at most `h² M / 12`. -/
theorem _root_.SpatialOps.C79_second_derivative (h : Dir → ℝ) (v f : FieldType) (d : Dir) (hf : v.face d = some f)
    (hh : 0 < h d) (n : IntVec) (hn : IntVec.Lt 0 n) (phi g q : FieldObj) (bg bq : Nat)
    (hg : Applicable n ⟨.gradient, v, f, .per d⟩ d phi g bg) (hq : Applicable n ⟨.divergence, f, v, .per d⟩ d g q bq)
    (m : Mem ℝ) (lo hi : Dir → ℝ) (F : (Dir → ℝ) → ℝ) (hF : Samples h v lo hi m phi F)
    (F1 F2 F3 F4 : (Dir → ℝ) → ℝ) (h1 : IsPartial lo hi d F F1) (h2 : IsPartial lo hi d F1 F2)
    (h3 : IsPartial lo hi d F2 F3) (h4 : IsPartial lo hi d F3 F4) (M : ℝ) (hM : ∀ p, InBox lo hi p → |F4 p| ≤ M) :
    ∃ m1 m2, (Reg.mk .gradient v f (.per d)).applyToField h phi g m = .ok m1 ∧
      (Reg.mk .divergence f v (.per d)).applyToField h g q m1 = .ok m2 ∧
      ∀ c, Interior n q c → Interior n g (lowSide v d c) → Interior n g (highSide v d c) →
        |valueAt m2 q c - F2 (position h v c)| ≤ 1 / 12 * h d ^ 2 * M := by
  have hreg : (Reg.mk .gradient v f (.per d)) ∈ registrations ∧ (Reg.mk .divergence f v (.per d)) ∈ registrations ∧
      onlyDir v f d = true ∧ onlyDir f v d = true ∧ lowPt f d = -(lowPt v d + unit d) := by
    cases v <;> cases d <;> simp only [FieldType.face, Option.some.injEq, reduceCtorEq] at hf <;> subst hf <;> decide +kernel
  obtain ⟨r1, r2, d1, d2, hpt⟩ := hreg
  obtain ⟨m1, a1, v1, -⟩ := apply_twoPoint h r1 (.inl rfl) (onlyDir_iff d1) hh.ne' hn hg m
  obtain ⟨m2, a2, v2, -⟩ := apply_twoPoint h r2 (.inr rfl) (onlyDir_iff d2) hh.ne' hn hq m1
  refine ⟨m1, m2, a1, a2, fun c hc hl hr => ?_⟩
  dsimp only at v1 v2
  have hsides : lowSide f d (highSide v d c) = c ∧ highSide f d (highSide v d c) = c + unit d ∧
      lowSide f d (lowSide v d c) = c + -unit d ∧ highSide f d (lowSide v d c) = c := by
    unfold highSide
    simp only [lowSide_eq, hpt]
    generalize lowPt v d = w
    generalize unit d = u
    refine ⟨?_, ?_, ?_, ?_⟩ <;> apply IntVec.ext <;> simp <;> omega
  have w1 := v1 _ hr
  have w2 := v1 _ hl
  have w3 := v2 c hc
  have c1 := hF _ (hg.high _ hr)
  have c2 := hF _ (hg.low _ hr)
  have c3 := hF _ (hg.low _ hl)
  dsimp only at c1 c2 c3
  rw [hsides.1, hsides.2.1] at w1
  rw [hsides.2.2.1, hsides.2.2.2] at w2
  rw [hsides.2.1] at c1
  rw [hsides.1] at c2
  rw [hsides.2.2.1] at c3
  have hpos : ∀ p : IntVec, ∀ k : Int, (∀ e, comp p e = if e = d then k else 0) →
      position h v (c + p) = Function.update (position h v c) d (position h v c d + h d * (k : ℝ)) := by
    intro p k hp
    funext e
    rw [position_add, hp]
    by_cases he : e = d
    · subst he; simp
    · simp [he]
  have p1 := hpos (unit d) 1 (by intro e; cases e <;> cases d <;> rfl)
  have p2 := hpos (-unit d) (-1) (by intro e; cases e <;> cases d <;> rfl)
  rw [p1] at c1
  rw [p2] at c3
  push_cast at c1 c3
  set P := position h v c
  have b1 := c1.1 d
  have b3 := c3.1 d
  rw [Function.update_self] at b1 b3
  have hs : ∀ t ∈ Set.Icc (P d - h d) (P d + h d), t ∈ Set.Icc (lo d) (hi d) :=
    fun t ht => ⟨by linarith [b3.1, ht.1], by linarith [b1.2, ht.2]⟩
  have := fourth (f := fun t => F (Function.update P d t)) (a := P d) (δ := h d) hh.le
    (fun t ht => h1.line c2.1 t (hs t ht)) (fun t ht => h2.line c2.1 t (hs t ht)) (fun t ht => h3.line c2.1 t (hs t ht))
    (fun t ht => h4.line c2.1 t (hs t ht)) (fun t ht => hM _ (update_inBox c2.1 (hs t ht)))
  simp only [Function.update_eq_self] at this
  rw [show P d + h d * 1 = P d + h d by ring] at c1
  rw [show P d + h d * -1 = P d - h d by ring] at c3
  rw [← c1.2, ← c3.2, ← c2.2] at this
  have h2pos : 0 < h d ^ 2 := by positivity
  have e : valueAt m2 q c = (valueAt m phi (c + unit d) + valueAt m phi (c + -unit d) - 2 * valueAt m phi c) / h d ^ 2 := by
    field_simp
    linear_combination h d * w3 + w1 - w2
  rw [e, show ∀ A B : ℝ, A / h d ^ 2 - B = (A - h d ^ 2 * B) / h d ^ 2 from fun A B => by field_simp, abs_div,
    abs_of_pos h2pos, div_le_iff₀ h2pos]
  refine this.trans (le_of_eq ?_)
  ring

/-! ### Example -/

/-- Non-vacuity: on the example mesh with spacing `1/10`, a scalar field that samples the sine of `x`, interpolated to the
x faces: at most `1/800` away from the sine. -/
example : ∃ (m m' : Mem ℝ), Samples (fun _ => 1 / 10) .sVol (fun _ => -1) (fun _ => 1) m (NeboEx.fld false 0)
      (fun p => Real.sin (p .x)) ∧
    (Reg.mk .interpolant .sVol .sSurfX .half).applyToField (fun _ => (1 / 10 : ℝ)) (NeboEx.fld false 0) (NeboEx.fld true 3) m =
      .ok m' ∧
    ∀ c, Interior ⟨4, 3, 1⟩ (NeboEx.fld true 3) c →
      |valueAt m' (NeboEx.fld true 3) c - Real.sin (position (fun _ => (1 / 10 : ℝ)) .sSurfX c .x)| ≤ 1 / 800 := by
  obtain ⟨m, hm⟩ := exists_values (NeboEx.onMesh false) (f := NeboEx.fld false 0) (fun _ => (1 / 10 : ℝ)) .sVol
    (fun p => Real.sin (p .x))
  have hS : Samples (fun _ => 1 / 10) .sVol (fun _ => -1) (fun _ => 1) m (NeboEx.fld false 0) (fun p => Real.sin (p .x)) := by
    intro c hc
    refine ⟨?_, hm c hc⟩
    have hc' := (ConserveEx.hasCell false c).1 hc
    simp only [Bool.false_eq_true, if_false] at hc'
    obtain ⟨x1, x2, y1, y2, z1, z2⟩ := hc'
    have x1' : (-1 : ℝ) ≤ c.x := by exact_mod_cast x1
    have x2' : (c.x : ℝ) < 5 := by exact_mod_cast x2
    have y1' : (-1 : ℝ) ≤ c.y := by exact_mod_cast y1
    have y2' : (c.y : ℝ) < 4 := by exact_mod_cast y2
    have z1' : (0 : ℝ) ≤ c.z := by exact_mod_cast z1
    have z2' : (c.z : ℝ) < 1 := by exact_mod_cast z2
    intro d
    cases d <;> simp only [position, staggered, comp, Bool.false_eq_true, if_false] <;> constructor <;> linarith
  have hp : ∀ (d : Dir) (G G' : ℝ → ℝ), (∀ x, HasDerivAt G (G' x) x) →
      IsPartial (fun _ => -1) (fun _ => 1) d (fun p => G (p .x)) (fun p => if d = .x then G' (p .x) else 0) := by
    intro d G G' hG p _
    by_cases e : d = .x
    · subst e
      simpa using hG (p .x)
    · simp only [Function.update_of_ne (Ne.symm e), e, if_false]
      exact hasDerivAt_const _ _
  obtain ⟨m', h1, h2⟩ := C79_averages (fun _ => (1 / 10 : ℝ)) (fun _ => by norm_num) ⟨.interpolant, .sVol, .sSurfX, .half⟩
    (by decide +kernel) (.inl rfl) ⟨4, 3, 1⟩ (by decide) _ _ 3 (ConserveEx.interpReads 0 3 (by decide)) m _ _ _ hS
    (fun d p => if d = .x then Real.cos (p .x) else 0) (fun d p => if d = .x then -Real.sin (p .x) else 0)
    (fun d => hp d _ _ Real.hasDerivAt_sin)
    (fun d => by
      by_cases e : d = .x
      · have := hp d Real.cos (fun x => -Real.sin x) Real.hasDerivAt_cos
        simpa [e] using this
      · simp only [e, if_false]
        intro p _
        exact hasDerivAt_const _ _)
    (fun _ => 1) (fun d p _ => by
      split
      · rw [abs_neg]; exact Real.abs_sin_le_one _
      · simp)
  refine ⟨m, m', hS, h1, fun c hc => (h2 c hc).trans ?_⟩
  have sx : share ⟨.interpolant, .sVol, .sSurfX, .half⟩ .x = 1 / 8 := by
    unfold share
    exact if_neg (by decide)
  have sy : share ⟨.interpolant, .sVol, .sSurfX, .half⟩ .y = 0 := by
    unfold share
    exact if_pos (by decide)
  have sz : share ⟨.interpolant, .sVol, .sSurfX, .half⟩ .z = 0 := by
    unfold share
    exact if_pos (by decide)
  rw [sx, sy, sz]
  norm_num

end Accuracy
end SpatialOps
