import Verif.FloatErr.Lemmas

/-!
# C85: the total error of the operators in floating point
-/

namespace SpatialOps
namespace FloatErr

open Nebo Stencil Accuracy Round

variable {u : ℝ} {rnd : ℝ → ℝ}

/-- C85. Gradients and divergences in floating point: if the source holds the values of a function `F`, bounded by `B` and with third derivative
bounded by `M`, up to errors of `eps`, then the result differs from the derivative at the place of the destination's value by at most
`h² M / 24` (discretisation) plus `2 eps / h` (errors of the data) plus `2 (B + eps) / h` times the error of three roundings. -/
theorem _root_.SpatialOps.C85_derivatives (hf : Format u rnd) (h : Dir → Fl rnd) (r : Reg) (hr : r ∈ registrations)
    (ho : r.op = .gradient ∨ r.op = .divergence) (d : Dir) (hd : OnlyDirection r.src r.dest d) (hh : 0 < (h d).val)
    (n : IntVec) (hn : IntVec.Lt 0 n) (src dest : FieldObj) (b : Nat) (ha : Readable n r src dest b)
    (m : Mem (Fl rnd)) (lo hi : Dir → ℝ) (F : (Dir → ℝ) → ℝ) (eps : ℝ) (hF : NearSamples h r.src lo hi m src F eps)
    (F1 F2 F3 : (Dir → ℝ) → ℝ) (h1 : IsPartial lo hi d F F1) (h2 : IsPartial lo hi d F1 F2) (h3 : IsPartial lo hi d F2 F3)
    (B M : ℝ) (hB : ∀ p, Accuracy.InBox lo hi p → |F p| ≤ B) (hM : ∀ p, Accuracy.InBox lo hi p → |F3 p| ≤ M) :
    ∃ m', r.applyToField h src dest m = .ok m' ∧ ∀ c, Interior n dest c →
      |(valueAt m' dest c).val - F1 (position (fun d => (h d).val) r.dest c)| ≤
        1 / 24 * (h d).val ^ 2 * M + 2 * eps / (h d).val + grow u 3 * (2 * (B + eps) / (h d).val) := by
  obtain ⟨hc, hl⟩ := coef_slope hr ho hd
  obtain ⟨m', e1, e2⟩ := total hf h hr hn ha hF hB fun m0 hm0 => C79_derivatives (fun d => (h d).val) r hr ho d hd hh n hn src dest b ha m0 lo hi F hm0
    F1 F2 F3 h1 h2 h3 M hM
  refine ⟨m', e1, fun c hcell => (e2 c hcell).trans (le_of_eq ?_)⟩
  unfold amplification
  rw [hc, hl]
  simp only [abs_of_pos hh]
  ring

/-- C85. Likewise the directional gradients, whose points are two cells apart: `h² M / 6`, `eps / h` and `(B + eps) / h`. -/
theorem _root_.SpatialOps.C85_directional_derivatives (hf : Format u rnd) (h : Dir → Fl rnd) (r : Reg) (hr : r ∈ registrations) (d : Dir)
    (ho : r.op = .gradientD d) (hh : 0 < (h d).val)
    (n : IntVec) (hn : IntVec.Lt 0 n) (src dest : FieldObj) (b : Nat) (ha : Readable n r src dest b)
    (m : Mem (Fl rnd)) (lo hi : Dir → ℝ) (F : (Dir → ℝ) → ℝ) (eps : ℝ) (hF : NearSamples h r.src lo hi m src F eps)
    (F1 F2 F3 : (Dir → ℝ) → ℝ) (h1 : IsPartial lo hi d F F1) (h2 : IsPartial lo hi d F1 F2) (h3 : IsPartial lo hi d F2 F3)
    (B M : ℝ) (hB : ∀ p, Accuracy.InBox lo hi p → |F p| ≤ B) (hM : ∀ p, Accuracy.InBox lo hi p → |F3 p| ≤ M) :
    ∃ m', r.applyToField h src dest m = .ok m' ∧ ∀ c, Interior n dest c →
      |(valueAt m' dest c).val - F1 (position (fun d => (h d).val) r.dest c)| ≤
        1 / 6 * (h d).val ^ 2 * M + eps / (h d).val + grow u 3 * ((B + eps) / (h d).val) := by
  obtain ⟨hc, hl⟩ := coef_slopeD hr ho
  obtain ⟨m', e1, e2⟩ := total hf h hr hn ha hF hB fun m0 hm0 => C79_directional_derivatives (fun d => (h d).val) r hr d ho hh n hn src dest b ha m0 lo hi F
    hm0 F1 F2 F3 h1 h2 h3 M hM
  refine ⟨m', e1, fun c hcell => (e2 c hcell).trans (le_of_eq ?_)⟩
  unfold amplification
  rw [hc, hl]
  simp only [abs_of_pos hh]
  ring

/-- C85. Interpolants, filters and directional interpolants in floating point: the error of C79 plus the error of the data, which is not
amplified, plus the error of as many roundings as values are read and one. -/
theorem _root_.SpatialOps.C85_averages (hf : Format u rnd) (h : Dir → Fl rnd) (hh : ∀ d, 0 < (h d).val) (r : Reg) (hr : r ∈ registrations)
    (ho : r.op = .interpolant ∨ r.op = .filter ∨ ∃ d, r.op = .interpolantD d)
    (n : IntVec) (hn : IntVec.Lt 0 n) (src dest : FieldObj) (b : Nat) (ha : Readable n r src dest b)
    (m : Mem (Fl rnd)) (lo hi : Dir → ℝ) (F : (Dir → ℝ) → ℝ) (eps : ℝ) (hF : NearSamples h r.src lo hi m src F eps)
    (F1 F2 : Dir → (Dir → ℝ) → ℝ) (h1 : ∀ d, IsPartial lo hi d F (F1 d)) (h2 : ∀ d, IsPartial lo hi d (F1 d) (F2 d))
    (B : ℝ) (M : Dir → ℝ) (hB : ∀ p, Accuracy.InBox lo hi p → |F p| ≤ B) (hM : ∀ d p, Accuracy.InBox lo hi p → |F2 d p| ≤ M d) :
    ∃ m', r.applyToField h src dest m = .ok m' ∧ ∀ c, Interior n dest c →
      |(valueAt m' dest c).val - F (position (fun d => (h d).val) r.dest c)| ≤
        share r .x * (h .x).val ^ 2 * M .x + share r .y * (h .y).val ^ 2 * M .y + share r .z * (h .z).val ^ 2 * M .z +
          eps + grow u (r.reads.length + 1) * (B + eps) := by
  obtain ⟨m', e1, e2⟩ := total hf h hr hn ha hF hB fun m0 hm0 => C79_averages (fun d => (h d).val) hh r hr ho n hn src dest b ha m0 lo hi F hm0
    F1 F2 h1 h2 M hM
  refine ⟨m', e1, fun c hcell => (e2 c hcell).trans (le_of_eq ?_)⟩
  rw [coef_mean hr ho, one_mul, one_mul]

namespace FloatErrEx

/-- Rounding of `double`. -/
noncomputable abbrev R : ℝ → ℝ := roundEven 53

theorem format : Format ((2 : ℝ) ^ (-53 : Int)) R := C77_nearest_even_is_format 53 (by norm_num)

/-- Spacing 1/8. -/
noncomputable def eighth : Dir → Fl R := fun _ => ⟨1 / 8⟩

/-- The sine of `x`, rounded to `double`, on the example field. -/
theorem sine : ∃ m : Mem (Fl R), NearSamples eighth .sVol (fun _ => -1) (fun _ => 1) m (NeboEx.fld false 0) (fun p => Real.sin (p .x))
    ((2 : ℝ) ^ (-53 : Int)) := by
  obtain ⟨m, hm⟩ := exists_values (NeboEx.onMesh false) (f := NeboEx.fld false 0) (fun d => (eighth d).val) .sVol (fun p => Real.sin (p .x))
  refine ⟨fun b a => ⟨R (m b a)⟩, fun c hc => ⟨?_, ?_⟩⟩
  · have hc' := (ConserveEx.hasCell false c).1 hc
    simp only [Bool.false_eq_true, if_false] at hc'
    obtain ⟨x1, x2, y1, y2, z1, z2⟩ := hc'
    have x1' : (-1 : ℝ) ≤ c.x := by exact_mod_cast x1
    have x2' : (c.x : ℝ) < 5 := by exact_mod_cast x2
    have y1' : (-1 : ℝ) ≤ c.y := by exact_mod_cast y1
    have y2' : (c.y : ℝ) < 4 := by exact_mod_cast y2
    have z1' : (0 : ℝ) ≤ c.z := by exact_mod_cast z1
    have z2' : (c.z : ℝ) < 1 := by exact_mod_cast z2
    intro d
    cases d <;> simp only [position, staggered, comp, Bool.false_eq_true, if_false, eighth] <;> constructor <;> linarith
  · dsimp only
    rw [← hm c hc]
    show |R (valueAt m (NeboEx.fld false 0) c) - valueAt m (NeboEx.fld false 0) c| ≤ _
    refine (format.close _).trans ?_
    rw [hm c hc]
    have := mul_le_mul_of_nonneg_left (Real.abs_sin_le_one (position (fun d => (eighth d).val) .sVol c .x)) format.nonneg
    rwa [mul_one] at this

theorem partials (G G' : ℝ → ℝ) (hG : ∀ x, HasDerivAt G (G' x) x) :
    IsPartial (fun _ => -1) (fun _ => 1) .x (fun p => G (p .x)) (fun p => G' (p .x)) := by
  intro p _
  simpa using hG (p .x)

/-- The hypotheses of the theorem on gradients hold of it: the gradient is within `1/1500` of the cosine. -/
example : ∃ (m m' : Mem (Fl R)), NearSamples eighth .sVol (fun _ => -1) (fun _ => 1) m (NeboEx.fld false 0) (fun p => Real.sin (p .x))
      ((2 : ℝ) ^ (-53 : Int)) ∧
    (Reg.mk .gradient .sVol .sSurfX (.per .x)).applyToField eighth (NeboEx.fld false 0) (NeboEx.fld true 3) m = .ok m' ∧
    ∀ c, Interior ⟨4, 3, 1⟩ (NeboEx.fld true 3) c →
      |(valueAt m' (NeboEx.fld true 3) c).val - Real.cos (position (fun d => (eighth d).val) .sSurfX c .x)| ≤ 1 / 1500 := by
  obtain ⟨m, hm⟩ := sine
  have ha : Readable ⟨4, 3, 1⟩ ⟨.gradient, .sVol, .sSurfX, .per .x⟩ (NeboEx.fld false 0) (NeboEx.fld true 3) 3 :=
    let h := ConserveEx.interpReads 0 3 (by decide)
    ⟨h.target, h.extra, h.mesh, h.mem, h.apart, h.self, fun c hc p hp => h.reads c hc p (by
      have : (Reg.mk .gradient .sVol .sSurfX (.per .x)).reads = (Reg.mk .interpolant .sVol .sSurfX .half).reads := by decide +kernel
      rwa [this] at hp)⟩
  obtain ⟨m', h1, h2⟩ := C85_derivatives format eighth ⟨.gradient, .sVol, .sSurfX, .per .x⟩ (by decide +kernel) (.inl rfl) .x
    (onlyDir_iff (by decide)) (by norm_num [eighth]) ⟨4, 3, 1⟩ (by decide) _ _ 3 ha m _ _ _ _ hm
    (fun p => Real.cos (p .x)) (fun p => -Real.sin (p .x)) (fun p => -Real.cos (p .x))
    (partials _ _ Real.hasDerivAt_sin) (partials _ (fun x => -Real.sin x) Real.hasDerivAt_cos)
    (partials (fun x => -Real.sin x) (fun x => -Real.cos x) fun x => (Real.hasDerivAt_sin x).neg) 1 1
    (fun p _ => Real.abs_sin_le_one _) (fun p _ => by rw [abs_neg]; exact Real.abs_cos_le_one _)
  refine ⟨m, m', hm, h1, fun c hc => (h2 c hc).trans ?_⟩
  unfold grow eighth
  norm_num

end FloatErrEx

end FloatErr
end SpatialOps
