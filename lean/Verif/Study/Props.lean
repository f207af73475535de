import Verif.Study.Lemmas
import Mathlib.Analysis.SpecialFunctions.Trigonometric.Deriv

/-!
# C83: studies of convergence
-/

namespace SpatialOps
namespace Study

open Nebo Stencil Accuracy

variable {n : IntVec} {plus : Dir → Bool}

theorem build_ok (hn : IntVec.Lt ⟨1, 1, 1⟩ n) (plus : Dir → Bool) (s d : FieldType) (blk : Nat → Nat) :
    ∃ S, build n plus s d blk = .ok S ∧ Good n plus s S.src (blk 0) ∧
      (∀ e, Good n plus s (S.srcCoord e) (blk (match e with | .x => 1 | .y => 2 | .z => 3))) ∧ Good n plus d S.dest (blk 4) ∧
      (∀ e, Good n plus d (S.destCoord e) (blk (match e with | .x => 5 | .y => 6 | .z => 7))) ∧ Good n plus d S.exact (blk 8) := by
  obtain ⟨f0, a0, g0⟩ := newField_ok hn plus s (blk 0)
  obtain ⟨f1, a1, g1⟩ := newField_ok hn plus s (blk 1)
  obtain ⟨f2, a2, g2⟩ := newField_ok hn plus s (blk 2)
  obtain ⟨f3, a3, g3⟩ := newField_ok hn plus s (blk 3)
  obtain ⟨f4, a4, g4⟩ := newField_ok hn plus d (blk 4)
  obtain ⟨f5, a5, g5⟩ := newField_ok hn plus d (blk 5)
  obtain ⟨f6, a6, g6⟩ := newField_ok hn plus d (blk 6)
  obtain ⟨f7, a7, g7⟩ := newField_ok hn plus d (blk 7)
  obtain ⟨f8, a8, g8⟩ := newField_ok hn plus d (blk 8)
  refine ⟨⟨f0, fun | .x => f1 | .y => f2 | .z => f3, f4, fun | .x => f5 | .y => f6 | .z => f7, f8⟩, ?_, g0, ?_, g4, ?_, g8⟩
  · unfold build
    rw [a0, Outcome.ok_bind, a1, Outcome.ok_bind, a2, Outcome.ok_bind, a3, Outcome.ok_bind, a4, Outcome.ok_bind, a5, Outcome.ok_bind,
      a6, Outcome.ok_bind, a7, Outcome.ok_bind, a8, Outcome.ok_bind]
    rfl
  · intro e
    cases e
    · exact g1
    · exact g2
    · exact g3
  · intro e
    cases e
    · exact g5
    · exact g6
    · exact g7

theorem valueAt_frame {t : FieldType} {f : FieldObj} {b : Nat} (h : Good n plus t f b) {m m' : Mem ℝ} (e : ∀ a, m' b a = m b a) (c : IntVec) :
    valueAt m' f c = valueAt m f c := by
  unfold valueAt
  rw [h.target.mem]
  exact e _

theorem study (hn : IntVec.Lt ⟨2, 2, 2⟩ n) {L : Dir → ℝ} (hL : ∀ d, 0 < L d) (plus : Dir → Bool) {r : Reg} (hr : r ∈ registrations)
    {blk : Nat → Nat} (hb : Separate blk) (F G : Fn ℝ) {lo hi : Dir → ℝ} (ha : Around n L lo hi) (E : ℝ)
    (hop : ∀ src dest b m, Readable n r src dest b → Samples (meshSpacing n L) r.src lo hi m src F.at →
      ∃ m', r.applyToField (meshSpacing n L) src dest m = .ok m' ∧
        ∀ c, Interior n dest c → |valueAt m' dest c - G.at (position (meshSpacing n L) r.dest c)| ≤ E) (m : Mem ℝ) :
    ∃ S m', applyStencil r n L plus F G blk m = .ok (S, m') ∧ Measured n L plus r.dest G.at E S m' := by
  have hn1 : IntVec.Lt ⟨1, 1, 1⟩ n := by iv_omega
  have hn0 : IntVec.Lt 0 n := by iv_omega
  obtain ⟨S, hS, gs, gsc, gd, gdc, ge⟩ := build_ok hn1 plus r.src r.dest blk
  have hne : ∀ i j, i < 9 → j < 9 → i ≠ j → blk i ≠ blk j := fun i j hi hj => hb i hi j hj
  obtain ⟨m1, a1, a2, a3⟩ := setCoords_ok hn1 L gsc (by
    intro d d' hd
    cases d <;> cases d' <;> first | exact absurd rfl hd | exact hne _ _ (by decide) (by decide) (by decide)) m
  obtain ⟨m2, b1, b2, b3⟩ := setCoords_ok hn1 L gdc (by
    intro d d' hd
    cases d <;> cases d' <;> first | exact absurd rfl hd | exact hne _ _ (by decide) (by decide) (by decide)) m1
  obtain ⟨m3, c1, c2, c3⟩ := assign_fn hn1 (hK n L) F gsc gs (by
    intro d
    cases d <;> exact hne _ _ (by decide) (by decide) (by decide)) m2 (by
    intro d c hc
    rw [← a2 d c hc]
    refine valueAt_frame (gsc d) (b3 _ fun d' => ?_) c
    cases d <;> cases d' <;> exact hne _ _ (by decide) (by decide) (by decide))
  obtain ⟨m4, d1, d2, d3⟩ := assign_fn hn1 (hK n L) G gdc ge (by
    intro d
    cases d <;> exact hne _ _ (by decide) (by decide) (by decide)) m3 (by
    intro d c hc
    rw [← b2 d c hc]
    refine valueAt_frame (gdc d) (c3 _ ?_) c
    cases d <;> exact hne _ _ (by decide) (by decide) (by decide))
  have hsamp : Samples (meshSpacing n L) r.src lo hi m4 S.src F.at := fun c hc =>
    ⟨gs.box hn1 hL ha hc, (valueAt_frame gs (d3 _ (hne _ _ (by decide) (by decide) (by decide))) c).trans (c2 c hc)⟩
  have hread : Readable n r S.src S.dest (blk 4) := Loops.readable hr (C76_new_fields_are_twins n hn1 G1 (by decide) rfl (by decide)
    (plus .x) (plus .y) (plus .z) r.src r.dest S.src S.dest (blk 0) (blk 4) gs.built gd.built (hne _ _ (by decide) (by decide) (by decide))).1
  obtain ⟨m5, e1, e2⟩ := hop S.src S.dest (blk 4) m4 hread hsamp
  have e3 := apply_frame (meshSpacing n L) hr hn0 hread e1
  have hexact : ∀ c, Interior n S.dest c → valueAt m5 S.exact c = G.at (position (meshSpacing n L) r.dest c) := by
    intro c hc
    rw [valueAt_frame ge (e3 _ (hne _ _ (by decide) (by decide) (by decide))) c]
    exact d2 c (ge.interior_has ((ge.interior_iff c).2 ((gd.interior_iff c).1 hc)))
  obtain ⟨cells, l1, l2⟩ := interiorNorm_ok hn gd ge m5
  have hE : 0 ≤ E := (abs_nonneg _).trans (e2 0 ((gd.interior_iff 0).2 (by
    have := extra_nonneg plus r.dest
    generalize extra plus r.dest = ex at *
    iv_omega)))
  refine ⟨S, m5, ?_, ⟨gd.bcs, e2, hexact, cells, l1, fun _ => ?_⟩⟩
  · unfold applyStencil
    rw [hS, Outcome.ok_bind, a1, Outcome.ok_bind, b1, Outcome.ok_bind, c1, Outcome.ok_bind, d1, Outcome.ok_bind, retrieve_ok hr,
      Outcome.ok_bind, spacing_eq hn1, show hK n L = meshSpacing n L from rfl, e1, Outcome.ok_bind]
    rfl
  · have w1 : (cells.map fun c => (valueAt m5 S.dest c - valueAt m5 S.exact c) ^ 2) =
        cells.map fun c => (valueAt m5 S.dest c - G.at (position (meshSpacing n L) r.dest c)) ^ 2 :=
      List.map_congr_left fun c hc => by rw [hexact c ((l1.2 c).1 hc)]
    have w2 : (cells.map fun c => valueAt m5 S.exact c ^ 2) = cells.map fun c => G.at (position (meshSpacing n L) r.dest c) ^ 2 :=
      List.map_congr_left fun c hc => by rw [hexact c ((l1.2 c).1 hc)]
    rw [w1, w2] at l2
    exact ⟨_, l2, rfl, div_le_div_of_nonneg_right (sqrt_sum_le hE fun c hc => e2 c ((l1.2 c).1 hc)) (Real.sqrt_nonneg _)⟩

theorem meshSpacing_pos (hn : IntVec.Lt ⟨2, 2, 2⟩ n) {L : Dir → ℝ} (hL : ∀ d, 0 < L d) (d : Dir) : 0 < meshSpacing n L d := by
  have hnd : 0 < comp n d := by
    unfold IntVec.Lt at hn
    cases d <;> simp only [comp] <;> simp at hn <;> omega
  exact div_pos (hL d) (by exact_mod_cast hnd)

/-- C83. Interpolating or filtering a function is accurate to second order from beginning to end. On any mesh with more than two cells in
each direction and any boundaries, with the operator retrieved from the database: fields are built, coordinates set, the function
assigned and the operator applied, without failure; at every interior cell of the destination the result differs from the function at that
place by at most the sum over the directions of `share * h² * M`, `h` the length over the number of cells and `M` a bound on
the second derivative; and the relative error `interior_norm` returns is bounded accordingly. -/
theorem _root_.SpatialOps.C83_averages (n : IntVec) (hn : IntVec.Lt ⟨2, 2, 2⟩ n) (L : Dir → ℝ) (hL : ∀ d, 0 < L d) (plus : Dir → Bool)
    (r : Reg) (hr : r ∈ registrations) (ho : r.op = .interpolant ∨ r.op = .filter ∨ ∃ d, r.op = .interpolantD d)
    (blk : Nat → Nat) (hb : Separate blk) (F : Fn ℝ) (lo hi : Dir → ℝ) (ha : Around n L lo hi)
    (F1 F2 : Dir → (Dir → ℝ) → ℝ) (h1 : ∀ d, IsPartial lo hi d F.at (F1 d)) (h2 : ∀ d, IsPartial lo hi d (F1 d) (F2 d))
    (M : Dir → ℝ) (hM : ∀ d p, Accuracy.InBox lo hi p → |F2 d p| ≤ M d) (m : Mem ℝ) :
    ∃ S m', applyStencil r n L plus F F blk m = .ok (S, m') ∧
      Measured n L plus r.dest F.at (share r .x * meshSpacing n L .x ^ 2 * M .x + share r .y * meshSpacing n L .y ^ 2 * M .y +
        share r .z * meshSpacing n L .z ^ 2 * M .z) S m' :=
  study hn hL plus hr hb F F ha _ (fun src dest b m hread hsamp => C79_averages (meshSpacing n L) (meshSpacing_pos hn hL) r hr ho n
    (by iv_omega) src dest b hread m lo hi F.at hsamp F1 F2 h1 h2 M hM) m

/-- C83. Likewise differentiating a function: with gradients and divergences the error is at most `h² M / 24`, with directional
gradients `h² M / 6`, `h` the spacing in the operator's direction and `M` a bound on the third derivative. -/
theorem _root_.SpatialOps.C83_derivatives (n : IntVec) (hn : IntVec.Lt ⟨2, 2, 2⟩ n) (L : Dir → ℝ) (hL : ∀ d, 0 < L d) (plus : Dir → Bool)
    (r : Reg) (hr : r ∈ registrations) (d : Dir)
    (ho : ((r.op = .gradient ∨ r.op = .divergence) ∧ OnlyDirection r.src r.dest d) ∨ r.op = .gradientD d)
    (blk : Nat → Nat) (hb : Separate blk) (F G : Fn ℝ) (lo hi : Dir → ℝ) (ha : Around n L lo hi)
    (F2 F3 : (Dir → ℝ) → ℝ) (h1 : IsPartial lo hi d F.at G.at) (h2 : IsPartial lo hi d G.at F2) (h3 : IsPartial lo hi d F2 F3)
    (M : ℝ) (hM : ∀ p, Accuracy.InBox lo hi p → |F3 p| ≤ M) (m : Mem ℝ) :
    ∃ S m', applyStencil r n L plus F G blk m = .ok (S, m') ∧
      Measured n L plus r.dest G.at ((if r.op = .gradientD d then 1 / 6 else 1 / 24) * meshSpacing n L d ^ 2 * M) S m' := by
  refine study hn hL plus hr hb F G ha _ (fun src dest b m hread hsamp => ?_) m
  rcases ho with ⟨ho, hd⟩ | ho
  · have : r.op ≠ .gradientD d := by rcases ho with ho | ho <;> rw [ho] <;> simp
    rw [if_neg this]
    exact C79_derivatives (meshSpacing n L) r hr ho d hd (meshSpacing_pos hn hL d) n (by iv_omega) src dest b hread m lo hi F.at hsamp G.at
      F2 F3 h1 h2 h3 M hM
  · rw [if_pos ho]
    exact C79_directional_derivatives (meshSpacing n L) r hr d ho (meshSpacing_pos hn hL d) n (by iv_omega) src dest b hread m lo hi F.at
      hsamp G.at F2 F3 h1 h2 h3 M hM

/-- `sin(x) + cos(y) + sin(z)`, test_stencil_helper.h:26-30. -/
private noncomputable def exFn : Fn ℝ :=
  .bin (fun a b => a + b) (.bin (fun a b => a + b) (.un Real.sin (.coord .x)) (.un Real.cos (.coord .y))) (.un Real.sin (.coord .z))

/-- `cos(x)`, test_stencil_helper.h:31-35. -/
private noncomputable def exDer : Fn ℝ := .un Real.cos (.coord .x)

private theorem exPartial {lo hi : Dir → ℝ} (f g : ℝ → ℝ) (hf : ∀ x, HasDerivAt f (g x) x) (u v : (Dir → ℝ) → ℝ) (d : Dir)
    (hu : ∀ p, u p = f (p d) + v p) (hv : ∀ p t, v (Function.update p d t) = v p) : IsPartial lo hi d u (fun p => g (p d)) := by
  intro p _
  have : (fun t => u (Function.update p d t)) = fun t => f t + v p := by
    funext t
    rw [hu, hv, Function.update_self]
  rw [this]
  exact (hf (p d)).add_const _

private theorem exSep : Separate fun i => i := fun _ _ _ _ h => h

/-- Non-vacuity: the study of the library's own test, `sin(x) + cos(y) + sin(z)` on the unit cube with any number of cells above two and
any boundaries; the gradient to the x faces is at most `h²/24` away from `cos(x)`. -/
example (n : IntVec) (hn : IntVec.Lt ⟨2, 2, 2⟩ n) (plus : Dir → Bool) (m : Mem ℝ) :
    ∃ S m', applyStencil ⟨.gradient, .sVol, .sSurfX, .per .x⟩ n (fun _ => 1) plus exFn exDer (fun i => i) m = .ok (S, m') ∧
      Measured n (fun _ => 1) plus .sSurfX (fun p => Real.cos (p .x)) (1 / 24 * (1 / (n.x : ℝ)) ^ 2) S m' := by
  have := C83_derivatives n hn (fun _ => 1) (fun _ => one_pos) plus ⟨.gradient, .sVol, .sSurfX, .per .x⟩ (by decide +kernel) .x
    (.inl ⟨.inl rfl, fun e => by cases e <;> decide⟩) (fun i => i) exSep exFn exDer (fun d => -meshSpacing n (fun _ => 1) d)
    (fun d => 1 + meshSpacing n (fun _ => 1) d) (fun d => ⟨le_rfl, le_rfl⟩) (fun p => -Real.sin (p .x)) (fun p => -Real.cos (p .x))
    (exPartial Real.sin Real.cos Real.hasDerivAt_sin _ (fun p => Real.cos (p .y) + Real.sin (p .z)) .x
      (fun p => by simp only [exFn, Fn.at]; ring) (fun p t => by simp [Function.update]))
    (exPartial Real.cos (fun x => -Real.sin x) Real.hasDerivAt_cos _ (fun _ => 0) .x (fun p => by simp only [exDer, Fn.at]; ring) (fun p t => rfl))
    (exPartial (fun x => -Real.sin x) (fun x => -Real.cos x) (fun x => (Real.hasDerivAt_sin x).neg) _ (fun _ => 0) .x (fun p => by ring)
      (fun p t => rfl)) 1 (fun p _ => by rw [abs_neg]; exact Real.abs_cos_le_one _) m
  simpa [meshSpacing, comp, exDer, Fn.at] using this

/-- Non-vacuity: likewise the interpolant to the x faces, at most `h²/8` away. -/
example (n : IntVec) (hn : IntVec.Lt ⟨2, 2, 2⟩ n) (plus : Dir → Bool) (m : Mem ℝ) :
    ∃ S m', applyStencil ⟨.interpolant, .sVol, .sSurfX, .half⟩ n (fun _ => 1) plus exFn exFn (fun i => i) m = .ok (S, m') ∧
      Measured n (fun _ => 1) plus .sSurfX exFn.at (1 / 8 * (1 / (n.x : ℝ)) ^ 2) S m' := by
  have hx := fun (lo hi : Dir → ℝ) => exPartial (lo := lo) (hi := hi) Real.sin Real.cos Real.hasDerivAt_sin exFn.at
    (fun p => Real.cos (p .y) + Real.sin (p .z)) .x (fun p => by simp only [exFn, Fn.at]; ring) (fun p t => by simp [Function.update])
  have hy := fun (lo hi : Dir → ℝ) => exPartial (lo := lo) (hi := hi) Real.cos (fun x => -Real.sin x) Real.hasDerivAt_cos exFn.at
    (fun p => Real.sin (p .x) + Real.sin (p .z)) .y (fun p => by simp only [exFn, Fn.at]; ring) (fun p t => by simp [Function.update])
  have hz := fun (lo hi : Dir → ℝ) => exPartial (lo := lo) (hi := hi) Real.sin Real.cos Real.hasDerivAt_sin exFn.at
    (fun p => Real.sin (p .x) + Real.cos (p .y)) .z (fun p => by simp only [exFn, Fn.at]; ring) (fun p t => by simp [Function.update])
  have := C83_averages n hn (fun _ => 1) (fun _ => one_pos) plus ⟨.interpolant, .sVol, .sSurfX, .half⟩ (by decide +kernel) (.inl rfl)
    (fun i => i) exSep exFn (fun d => -meshSpacing n (fun _ => 1) d) (fun d => 1 + meshSpacing n (fun _ => 1) d) (fun d => ⟨le_rfl, le_rfl⟩)
    (fun | .x => fun p => Real.cos (p .x) | .y => fun p => -Real.sin (p .y) | .z => fun p => Real.cos (p .z))
    (fun | .x => fun p => -Real.sin (p .x) | .y => fun p => -Real.cos (p .y) | .z => fun p => -Real.sin (p .z))
    (fun d => by cases d; exacts [hx _ _, hy _ _, hz _ _])
    (fun d => by
      cases d
      · exact exPartial Real.cos (fun x => -Real.sin x) Real.hasDerivAt_cos _ (fun _ => 0) .x (fun p => by ring) (fun p t => rfl)
      · exact exPartial (fun x => -Real.sin x) (fun x => -Real.cos x) (fun x => (Real.hasDerivAt_sin x).neg) _ (fun _ => 0) .y
          (fun p => by ring) (fun p t => rfl)
      · exact exPartial Real.cos (fun x => -Real.sin x) Real.hasDerivAt_cos _ (fun _ => 0) .z (fun p => by ring) (fun p t => rfl))
    (fun _ => 1) (fun d p _ => by cases d <;> simp only [abs_neg] <;> first | exact Real.abs_sin_le_one _ | exact Real.abs_cos_le_one _) m
  simpa [meshSpacing, comp, share, staggered] using this

end Study
end SpatialOps
