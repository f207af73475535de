import Verif.FloatErr.Spec
import Verif.Round.Props
import Verif.Accuracy.Props

/-!
# Lemmas for the error of the operators in floating point
-/

namespace SpatialOps
namespace FloatErr

open Nebo Stencil Accuracy Round

variable {u : ℝ} {rnd : ℝ → ℝ}

/-- The check of the coefficients and the number of values read. -/
def coefOk (r : Reg) : Bool :=
  match r.op with
  | .gradient | .divergence => [Dir.x, .y, .z].all (fun d => !onlyDir r.src r.dest d || decide (r.coef = .per d)) && decide (r.reads.length = 2)
  | .gradientD d => decide (r.coef = .halfPer d) && decide (r.reads.length = 2)
  | _ => match r.coef with
    | .per _ | .halfPer _ => false
    | _ => true

theorem all_coefOk : registrations.all coefOk = true := by decide +kernel

theorem onlyDir_of {src dest : FieldType} {d : Dir} (hd : OnlyDirection src dest d) : onlyDir src dest d = true := by
  unfold onlyDir
  rw [List.all_eq_true]
  intro e _
  have := hd e
  generalize staggered src e = b1 at *
  generalize staggered dest e = b2 at *
  by_cases he : e = d <;> cases b1 <;> cases b2 <;> simp_all

theorem coef_slope {r : Reg} (hr : r ∈ registrations) (ho : r.op = .gradient ∨ r.op = .divergence) {d : Dir}
    (hd : OnlyDirection r.src r.dest d) : r.coef = .per d ∧ r.reads.length = 2 := by
  have := List.all_eq_true.1 all_coefOk r hr
  unfold coefOk at this
  have h2 : ([Dir.x, .y, .z].all (fun d => !onlyDir r.src r.dest d || decide (r.coef = .per d)) && decide (r.reads.length = 2)) = true := by
    rcases ho with ho | ho <;> rw [ho] at this <;> exact this
  rw [Bool.and_eq_true] at h2
  have h3 := all_dirs h2.1 d
  rw [onlyDir_of hd] at h3
  exact ⟨by simpa using h3, by simpa using h2.2⟩

theorem coef_slopeD {r : Reg} (hr : r ∈ registrations) {d : Dir} (ho : r.op = .gradientD d) : r.coef = .halfPer d ∧ r.reads.length = 2 := by
  have := List.all_eq_true.1 all_coefOk r hr
  unfold coefOk at this
  rw [ho] at this
  simpa using this

theorem coef_mean {r : Reg} (hr : r ∈ registrations) (ho : r.op = .interpolant ∨ r.op = .filter ∨ ∃ d, r.op = .interpolantD d) (h : Dir → ℝ) :
    amplification h r = 1 := by
  have := List.all_eq_true.1 all_coefOk r hr
  unfold coefOk at this
  unfold amplification
  rcases ho with ho | ho | ⟨d, ho⟩ <;> rw [ho] at this <;> cases hc : r.coef <;> simp_all

/-- Errors in the data are amplified by the sum of the absolute values of the coefficients. -/
theorem perturb {r : Reg} (hr : r ∈ registrations) (h : Dir → ℝ) {n : IntVec} (hn : IntVec.Lt 0 n) {src dest : FieldObj} {b : Nat}
    (ha : Readable n r src dest b) (m1 m2 : Mem ℝ) {eps : ℝ} (he : ∀ c, HasCell src.geo c → |valueAt m1 src c - valueAt m2 src c| ≤ eps)
    {m1' m2' : Mem ℝ} (e1 : r.applyToField h src dest m1 = .ok m1') (e2 : r.applyToField h src dest m2 = .ok m2') {c : IntVec}
    (hc : Interior n dest c) : |valueAt m1' dest c - valueAt m2' dest c| ≤ amplification h r * eps := by
  obtain ⟨t, w, den, s, ht, hw, hreads, hamp⟩ := amp_bound hr h
  obtain ⟨n1, a1, v1, -⟩ := apply_any h ht hw hn ha m1
  obtain ⟨n2, a2, v2, -⟩ := apply_any h ht hw hn ha m2
  obtain rfl := Outcome.ok.inj (e1.symm.trans a1)
  obtain rfl := Outcome.ok.inj (e2.symm.trans a2)
  rw [v1 c hc, v2 c hc, ← sub_mul, abs_mul, Accuracy.sum_toList, Accuracy.sum_toList]
  refine le_trans (mul_le_mul_of_nonneg_right ?_ (abs_nonneg _))
    (hamp (fun p => valueAt m1 src (c + p) - valueAt m2 src (c + p)) eps fun p hp => he _ (ha.reads c hc p hp))
  unfold wabs
  generalize w.toList = l
  induction l with
  | nil => simp
  | cons q l ih =>
    simp only [List.map_cons, List.sum_cons]
    have : valueAt m1 src (c + q.1) * (q.2 : ℝ) + (l.map fun q => valueAt m1 src (c + q.1) * (q.2 : ℝ)).sum -
        (valueAt m2 src (c + q.1) * (q.2 : ℝ) + (l.map fun q => valueAt m2 src (c + q.1) * (q.2 : ℝ)).sum) =
        (valueAt m1 src (c + q.1) - valueAt m2 src (c + q.1)) * (q.2 : ℝ) +
          ((l.map fun q => valueAt m1 src (c + q.1) * (q.2 : ℝ)).sum - (l.map fun q => valueAt m2 src (c + q.1) * (q.2 : ℝ)).sum) := by ring
    rw [this, ← abs_mul]
    exact (abs_add_le _ _).trans (add_le_add (le_refl _) ih)

/-- Rounding, errors in the data and discretisation together. -/
theorem total (hf : Format u rnd) (h : Dir → Fl rnd) {r : Reg} (hr : r ∈ registrations) {n : IntVec} (hn : IntVec.Lt 0 n)
    {src dest : FieldObj} {b : Nat} (ha : Readable n r src dest b) {m : Mem (Fl rnd)} {lo hi : Dir → ℝ} {F : (Dir → ℝ) → ℝ} {eps B : ℝ}
    (hF : NearSamples h r.src lo hi m src F eps) (hB : ∀ p, Accuracy.InBox lo hi p → |F p| ≤ B) {G : IntVec → ℝ} {e : ℝ}
    (hE : ∀ m0, Samples (fun d => (h d).val) r.src lo hi m0 src F → ∃ m', r.applyToField (fun d => (h d).val) src dest m0 = .ok m' ∧
      ∀ c, Interior n dest c → |valueAt m' dest c - G c| ≤ e) :
    ∃ m', r.applyToField h src dest m = .ok m' ∧ ∀ c, Interior n dest c →
      |(valueAt m' dest c).val - G c| ≤ e + amplification (fun d => (h d).val) r * eps +
        grow u (r.reads.length + 1) * (amplification (fun d => (h d).val) r * (B + eps)) := by
  obtain ⟨m', m'', h1, h2, h3⟩ := C77_operators hf h r hr n hn src dest b ha m
  obtain ⟨m0, hm0⟩ := exists_values ha.mesh (f := src) (fun d => (h d).val) r.src F
  obtain ⟨m0', h4, h5⟩ := hE m0 fun c hc => ⟨(hF c hc).1, hm0 c hc⟩
  refine ⟨m', h1, fun c hc => ?_⟩
  have e1 := h3 c hc (B + eps) fun p hp => by
    have hcell := ha.reads c hc p hp
    have q1 := hF _ hcell
    have q2 := hB _ q1.1
    have := abs_sub_abs_le_abs_sub ((valueAt m src (c + p)).val) (F (position (fun d => (h d).val) r.src (c + p)))
    linarith [q1.2]
  have e2 := perturb hr (fun d => (h d).val) hn ha (exactly m) m0 (eps := eps) (fun c hc => by
    rw [hm0 c hc]; exact (hF c hc).2) h2 h4 hc
  have e3 := h5 c hc
  have t1 := abs_sub_le (valueAt m' dest c).val (valueAt m'' dest c) (G c)
  have t2 := abs_sub_le (valueAt m'' dest c) (valueAt m0' dest c) (G c)
  linarith

end FloatErr
end SpatialOps
