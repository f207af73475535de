import Mathlib.Analysis.Calculus.MeanValue
import Mathlib.Analysis.Calculus.Deriv.Pow
import Mathlib.Analysis.Calculus.Deriv.Shift

/-!
# Bounds on central averages and differences of a smooth function of one variable
-/

namespace SpatialOps
namespace Accuracy

open Set

/-- Integrating a bound on the derivative from zero. -/
theorem fence {g g' B B' : ℝ → ℝ} {δ : ℝ} (hδ : 0 ≤ δ) (hg : ∀ s ∈ Icc 0 δ, HasDerivAt g (g' s) s)
    (hB : ∀ s, HasDerivAt B (B' s) s) (h0 : g 0 = 0) (hB0 : B 0 = 0) (hb : ∀ s ∈ Icc 0 δ, |g' s| ≤ B' s) :
    |g δ| ≤ B δ :=
  image_norm_le_of_norm_deriv_right_le_deriv_boundary (a := 0) (b := δ)
    (fun s hs => (hg s hs).continuousAt.continuousWithinAt)
    (fun s hs => (hg s ⟨hs.1, hs.2.le⟩).hasDerivWithinAt) (by simp [h0, hB0]) hB
    (fun s hs => hb s ⟨hs.1, hs.2.le⟩) ⟨hδ, le_rfl⟩

theorem at_add {f f' : ℝ → ℝ} {a δ s : ℝ} (hf : ∀ t ∈ Icc (a - δ) (a + δ), HasDerivAt f (f' t) t) (hs : s ∈ Icc 0 δ) :
    HasDerivAt (fun s => f (a + s)) (f' (a + s)) s := by
  have h := hf (a + s) ⟨by linarith [hs.1, hs.2], by linarith [hs.2]⟩
  exact h.comp_const_add a s

theorem at_sub {f f' : ℝ → ℝ} {a δ s : ℝ} (hf : ∀ t ∈ Icc (a - δ) (a + δ), HasDerivAt f (f' t) t) (hs : s ∈ Icc 0 δ) :
    HasDerivAt (fun s => f (a - s)) (-f' (a - s)) s := by
  have h := hf (a - s) ⟨by linarith [hs.2], by linarith [hs.1, hs.2]⟩
  exact h.comp_const_sub a s

theorem shrink {P : ℝ → Prop} {a δ s : ℝ} (h : ∀ t ∈ Icc (a - δ) (a + δ), P t) (hs : s ∈ Icc 0 δ) :
    ∀ t ∈ Icc (a - s) (a + s), P t := fun t ht => h t ⟨by linarith [ht.1, hs.2], by linarith [ht.2, hs.2]⟩

theorem diff1 {f f1 : ℝ → ℝ} {a δ M : ℝ} (hδ : 0 ≤ δ) (h1 : ∀ t ∈ Icc (a - δ) (a + δ), HasDerivAt f (f1 t) t)
    (hM : ∀ t ∈ Icc (a - δ) (a + δ), |f1 t| ≤ M) : |f (a + δ) - f (a - δ)| ≤ 2 * M * δ := by
  refine fence (g := fun s => f (a + s) - f (a - s)) (g' := fun s => f1 (a + s) - -f1 (a - s)) (B := fun s => 2 * M * s)
    (B' := fun _ => 2 * M) hδ (fun s hs => (at_add h1 hs).sub (at_sub h1 hs)) (fun s => ?_) (by simp) (by simp) ?_
  · simpa using (hasDerivAt_id s).const_mul (2 * M)
  · intro s hs
    have e1 := hM (a + s) ⟨by linarith [hs.1], by linarith [hs.2]⟩
    have e2 := hM (a - s) ⟨by linarith [hs.2], by linarith [hs.1]⟩
    rw [abs_le] at e1 e2 ⊢
    constructor <;> linarith [e1.1, e1.2, e2.1, e2.2]

/-- The second central difference is at most `M δ²`, `M` a bound on the second derivative. -/
theorem second {f f1 f2 : ℝ → ℝ} {a δ M : ℝ} (hδ : 0 ≤ δ) (h1 : ∀ t ∈ Icc (a - δ) (a + δ), HasDerivAt f (f1 t) t)
    (h2 : ∀ t ∈ Icc (a - δ) (a + δ), HasDerivAt f1 (f2 t) t) (hM : ∀ t ∈ Icc (a - δ) (a + δ), |f2 t| ≤ M) :
    |f (a + δ) + f (a - δ) - 2 * f a| ≤ M * δ ^ 2 := by
  refine fence (g := fun s => f (a + s) + f (a - s) - 2 * f a) (g' := fun s => f1 (a + s) + -f1 (a - s))
    (B := fun s => M * s ^ 2) (B' := fun s => 2 * M * s) hδ
    (fun s hs => ((at_add h1 hs).add (at_sub h1 hs)).sub_const _) (fun s => ?_) (by simp; ring) (by simp) ?_
  · have := (hasDerivAt_pow 2 s).const_mul M
    refine this.congr_deriv ?_
    push_cast; ring
  · intro s hs
    rw [← sub_eq_add_neg]
    exact diff1 hs.1 (shrink h2 hs) (shrink hM hs)

/-- The central difference differs from `2 δ` times the derivative by at most `M δ³ / 3`, `M` a bound on the third
derivative. -/
theorem third {f f1 f2 f3 : ℝ → ℝ} {a δ M : ℝ} (hδ : 0 ≤ δ) (h1 : ∀ t ∈ Icc (a - δ) (a + δ), HasDerivAt f (f1 t) t)
    (h2 : ∀ t ∈ Icc (a - δ) (a + δ), HasDerivAt f1 (f2 t) t) (h3 : ∀ t ∈ Icc (a - δ) (a + δ), HasDerivAt f2 (f3 t) t)
    (hM : ∀ t ∈ Icc (a - δ) (a + δ), |f3 t| ≤ M) :
    |f (a + δ) - f (a - δ) - 2 * δ * f1 a| ≤ M * δ ^ 3 / 3 := by
  refine fence (g := fun s => f (a + s) - f (a - s) - 2 * s * f1 a) (g' := fun s => f1 (a + s) - -f1 (a - s) - 2 * f1 a)
    (B := fun s => M * s ^ 3 / 3) (B' := fun s => M * s ^ 2) hδ
    (fun s hs => ((at_add h1 hs).sub (at_sub h1 hs)).sub ?_) (fun s => ?_) (by simp) (by simp) ?_
  · have := ((hasDerivAt_id s).const_mul 2).mul_const (f1 a)
    simpa using this
  · have := ((hasDerivAt_pow 3 s).const_mul M).div_const 3
    refine this.congr_deriv ?_
    push_cast; ring
  · intro s hs
    rw [sub_neg_eq_add]
    exact second hs.1 (shrink h2 hs) (shrink h3 hs) (shrink hM hs)

/-- The second central difference differs from `δ²` times the second derivative by at most `M δ⁴ / 12`, `M` a bound on
the fourth derivative. -/
theorem fourth {f f1 f2 f3 f4 : ℝ → ℝ} {a δ M : ℝ} (hδ : 0 ≤ δ)
    (h1 : ∀ t ∈ Icc (a - δ) (a + δ), HasDerivAt f (f1 t) t)
    (h2 : ∀ t ∈ Icc (a - δ) (a + δ), HasDerivAt f1 (f2 t) t) (h3 : ∀ t ∈ Icc (a - δ) (a + δ), HasDerivAt f2 (f3 t) t)
    (h4 : ∀ t ∈ Icc (a - δ) (a + δ), HasDerivAt f3 (f4 t) t) (hM : ∀ t ∈ Icc (a - δ) (a + δ), |f4 t| ≤ M) :
    |f (a + δ) + f (a - δ) - 2 * f a - δ ^ 2 * f2 a| ≤ M * δ ^ 4 / 12 := by
  refine fence (g := fun s => f (a + s) + f (a - s) - 2 * f a - s ^ 2 * f2 a)
    (g' := fun s => f1 (a + s) + -f1 (a - s) - 2 * s * f2 a)
    (B := fun s => M * s ^ 4 / 12) (B' := fun s => M * s ^ 3 / 3) hδ
    (fun s hs => (((at_add h1 hs).add (at_sub h1 hs)).sub_const _).sub ?_) (fun s => ?_) (by simp; ring) (by simp) ?_
  · have := (hasDerivAt_pow 2 s).mul_const (f2 a)
    simpa using this
  · have := ((hasDerivAt_pow 4 s).const_mul M).div_const 12
    refine this.congr_deriv ?_
    push_cast; ring
  · intro s hs
    rw [← sub_eq_add_neg]
    exact third hs.1 (shrink h2 hs) (shrink h3 hs) (shrink h4 hs) (shrink hM hs)

end Accuracy
end SpatialOps
