import Verif.HeatErr.Spec
import Verif.Accuracy.Props
import Verif.Stencil.Props
import Mathlib.Analysis.SpecialFunctions.Trigonometric.Deriv

/-!
# Lemmas for the accuracy of the heat equation program
-/

namespace SpatialOps
namespace Heat

open Set Nebo Stencil Accuracy

/-- First-order expansion to the right. -/
theorem near_right {f f1 f2 : ℝ → ℝ} {a δ M : ℝ} (hδ : 0 ≤ δ) (h1 : ∀ t ∈ Icc (a - δ) (a + δ), HasDerivAt f (f1 t) t)
    (h2 : ∀ t ∈ Icc (a - δ) (a + δ), HasDerivAt f1 (f2 t) t) (hM : ∀ t ∈ Icc (a - δ) (a + δ), |f2 t| ≤ M) :
    |f (a + δ) - f a - δ * f1 a| ≤ M * δ ^ 2 / 2 := by
  have step : ∀ s ∈ Icc 0 δ, |f1 (a + s) - f1 a| ≤ M * s := fun s hs =>
    fence (g := fun s => f1 (a + s) - f1 a) (g' := fun s => f2 (a + s)) (B := fun s => M * s) (B' := fun _ => M) hs.1
      (fun r hr => (at_add h2 ⟨hr.1, hr.2.trans hs.2⟩).sub_const _) (fun r => by simpa using (hasDerivAt_id r).const_mul M) (by simp) (by simp)
      (fun r hr => hM _ ⟨by linarith [hr.1], by linarith [hr.2, hs.2]⟩)
  refine fence (g := fun s => f (a + s) - f a - s * f1 a) (g' := fun s => f1 (a + s) - 1 * f1 a) (B := fun s => M * s ^ 2 / 2)
    (B' := fun s => M * s) hδ (fun s hs => ((at_add h1 hs).sub_const _).sub ((hasDerivAt_id s).mul_const (f1 a))) (fun s => ?_) (by simp)
    (by simp) (fun s hs => by rw [one_mul]; exact step s hs)
  have := ((hasDerivAt_pow 2 s).const_mul M).div_const 2
  refine this.congr_deriv ?_
  push_cast; ring

/-- And to the left. -/
theorem near_left {f f1 f2 : ℝ → ℝ} {a δ M : ℝ} (hδ : 0 ≤ δ) (h1 : ∀ t ∈ Icc (a - δ) (a + δ), HasDerivAt f (f1 t) t)
    (h2 : ∀ t ∈ Icc (a - δ) (a + δ), HasDerivAt f1 (f2 t) t) (hM : ∀ t ∈ Icc (a - δ) (a + δ), |f2 t| ≤ M) :
    |f (a - δ) - f a + δ * f1 a| ≤ M * δ ^ 2 / 2 := by
  have hr : ∀ t ∈ Icc (-a - δ) (-a + δ), -t ∈ Icc (a - δ) (a + δ) := fun t ht => ⟨by linarith [ht.2], by linarith [ht.1]⟩
  have := near_right (f := fun t => f (-t)) (f1 := fun t => -f1 (-t)) (f2 := fun t => f2 (-t)) (a := -a) (M := M) hδ
    (fun t ht => by
      have := (h1 (-t) (hr t ht)).comp t (hasDerivAt_neg t)
      exact this.congr_deriv (by ring))
    (fun t ht => by
      have := ((h2 (-t) (hr t ht)).comp t (hasDerivAt_neg t)).neg
      exact this.congr_deriv (by ring))
    (fun t ht => hM _ (hr t ht))
  simpa [sub_eq_add_neg, add_comm, add_left_comm] using this

/-- The difference of the two fluxes of a cell. -/
theorem flux_diff {T T1 T2 T3 T4 k k1 k2 k3 : ℝ → ℝ} {a δ M1 M2 M3 M4 K0 K1 K2 K3 : ℝ} (hδ : 0 < δ)
    (t1 : ∀ t ∈ Icc (a - δ) (a + δ), HasDerivAt T (T1 t) t) (t2 : ∀ t ∈ Icc (a - δ) (a + δ), HasDerivAt T1 (T2 t) t)
    (t3 : ∀ t ∈ Icc (a - δ) (a + δ), HasDerivAt T2 (T3 t) t) (t4 : ∀ t ∈ Icc (a - δ) (a + δ), HasDerivAt T3 (T4 t) t)
    (c1 : ∀ t ∈ Icc (a - δ) (a + δ), HasDerivAt k (k1 t) t) (c2 : ∀ t ∈ Icc (a - δ) (a + δ), HasDerivAt k1 (k2 t) t)
    (c3 : ∀ t ∈ Icc (a - δ) (a + δ), HasDerivAt k2 (k3 t) t)
    (m1 : |T1 a| ≤ M1) (m2 : ∀ t ∈ Icc (a - δ) (a + δ), |T2 t| ≤ M2)
    (m3 : ∀ t ∈ Icc (a - δ) (a + δ), |T3 t| ≤ M3) (m4 : ∀ t ∈ Icc (a - δ) (a + δ), |T4 t| ≤ M4)
    (b0 : |k a| ≤ K0) (b1 : |k1 a| ≤ K1) (b2 : ∀ t ∈ Icc (a - δ) (a + δ), |k2 t| ≤ K2) (b3 : ∀ t ∈ Icc (a - δ) (a + δ), |k3 t| ≤ K3) :
    |((k a + k (a + δ)) / 2 * ((T (a + δ) - T a) / δ) - (k (a - δ) + k a) / 2 * ((T a - T (a - δ)) / δ)) / δ -
        (k1 a * T1 a + k a * T2 a)| ≤ δ ^ 2 * (K0 * M4 / 12 + K1 * M3 / 6 + K2 * M2 / 4 + K3 * M1 / 6) := by
  have tr := near_right hδ.le t1 t2 m2
  have tl := near_left hδ.le t1 t2 m2
  have ar := near_right hδ.le c1 c2 b2
  have al := near_left hδ.le c1 c2 b2
  have s3 := third hδ.le t1 t2 t3 m3
  have r3 := third hδ.le c1 c2 c3 b3
  have s4 := fourth hδ.le t1 t2 t3 t4 m4
  obtain ⟨τr, hτr⟩ : ∃ x, x = T (a + δ) - T a - δ * T1 a := ⟨_, rfl⟩
  obtain ⟨τl, hτl⟩ : ∃ x, x = T (a - δ) - T a + δ * T1 a := ⟨_, rfl⟩
  obtain ⟨αr, hαr⟩ : ∃ x, x = k (a + δ) - k a - δ * k1 a := ⟨_, rfl⟩
  obtain ⟨αl, hαl⟩ : ∃ x, x = k (a - δ) - k a + δ * k1 a := ⟨_, rfl⟩
  obtain ⟨S4, hS4⟩ : ∃ x, x = T (a + δ) + T (a - δ) - 2 * T a - δ ^ 2 * T2 a := ⟨_, rfl⟩
  rw [← hτr] at tr
  rw [← hτl] at tl
  rw [← hαr] at ar
  rw [← hαl] at al
  rw [← hS4] at s4
  rw [show T (a + δ) - T (a - δ) - 2 * δ * T1 a = τr - τl by rw [hτr, hτl]; ring] at s3
  rw [show k (a + δ) - k (a - δ) - 2 * δ * k1 a = αr - αl by rw [hαr, hαl]; ring] at r3
  have e : ((k a + k (a + δ)) / 2 * ((T (a + δ) - T a) / δ) - (k (a - δ) + k a) / 2 * ((T a - T (a - δ)) / δ)) / δ -
        (k1 a * T1 a + k a * T2 a) =
      (2 * (k a * S4) + δ * (k1 a * (τr - τl)) + δ * (T1 a * (αr - αl)) + αr * τr + αl * τl) / (2 * δ ^ 2) := by
    rw [hS4, hτr, hτl, hαr, hαl]
    field_simp
    ring
  have hd2 : (0 : ℝ) < 2 * δ ^ 2 := by positivity
  rw [e, abs_div, abs_of_pos hd2, div_le_iff₀ hd2]
  have p1 : |k a * S4| ≤ K0 * (M4 * δ ^ 4 / 12) := by
    rw [abs_mul]; exact mul_le_mul b0 s4 (abs_nonneg _) ((abs_nonneg _).trans b0)
  have p2 : |k1 a * (τr - τl)| ≤ K1 * (M3 * δ ^ 3 / 3) := by
    rw [abs_mul]; exact mul_le_mul b1 s3 (abs_nonneg _) ((abs_nonneg _).trans b1)
  have p3 : |T1 a * (αr - αl)| ≤ M1 * (K3 * δ ^ 3 / 3) := by
    rw [abs_mul]; exact mul_le_mul m1 r3 (abs_nonneg _) ((abs_nonneg _).trans m1)
  have p4 : |αr * τr| ≤ K2 * δ ^ 2 / 2 * (M2 * δ ^ 2 / 2) := by
    rw [abs_mul]; exact mul_le_mul ar tr (abs_nonneg _) ((abs_nonneg _).trans ar)
  have p5 : |αl * τl| ≤ K2 * δ ^ 2 / 2 * (M2 * δ ^ 2 / 2) := by
    rw [abs_mul]; exact mul_le_mul al tl (abs_nonneg _) ((abs_nonneg _).trans al)
  have q2 : |δ * (k1 a * (τr - τl))| ≤ δ * (K1 * (M3 * δ ^ 3 / 3)) := by
    rw [abs_mul, abs_of_pos hδ]; exact mul_le_mul_of_nonneg_left p2 hδ.le
  have q3 : |δ * (T1 a * (αr - αl))| ≤ δ * (M1 * (K3 * δ ^ 3 / 3)) := by
    rw [abs_mul, abs_of_pos hδ]; exact mul_le_mul_of_nonneg_left p3 hδ.le
  rw [abs_le] at p1 q2 q3 p4 p5 ⊢
  constructor <;> linarith [p1.1, p1.2, q2.1, q2.2, q3.1, q3.2, p4.1, p4.2, p5.1, p5.2]

theorem position_shift (h : Dir → ℝ) (c : IntVec) (d : Dir) (s : Int) (u : IntVec) (hu : ∀ e, comp u e = if e = d then s else 0) :
    position h .sVol (c + u) = Function.update (position h .sVol c) d (position h .sVol c d + h d * (s : ℝ)) := by
  funext e
  rw [position_add, hu]
  by_cases he : e = d
  · subst he
    simp
  · simp [he]

theorem comp_unit (d e : Dir) : comp (unit d) e = if e = d then 1 else 0 := by cases d <;> cases e <;> rfl
theorem comp_neg_unit (d e : Dir) : comp (-unit d) e = if e = d then -1 else 0 := by cases d <;> cases e <;> rfl
theorem sub_unit (c : IntVec) (d : Dir) : c - unit d = c + -unit d := by
  ext <;> simp only [IntVec.add_x, IntVec.add_y, IntVec.add_z, IntVec.sub_x, IntVec.sub_y, IntVec.sub_z, IntVec.neg_x, IntVec.neg_y, IntVec.neg_z] <;>
    omega

theorem add_sub_unit (c : IntVec) (d : Dir) : c + unit d - unit d = c := by
  ext <;> simp only [IntVec.add_x, IntVec.add_y, IntVec.add_z, IntVec.sub_x, IntVec.sub_y, IntVec.sub_z] <;> omega

/-- One direction. -/
theorem outflow_bound {n : IntVec} {h lo hi : Dir → ℝ} {vT vk : IntVec → ℝ} {T k : (Dir → ℝ) → ℝ} (hT : Centred n h lo hi vT T)
    (hk : Centred n h lo hi vk k) {c : IntVec} (hc : InMesh n c) {d : Dir} (hd : 1 < comp n d) (hh : 0 < h d) {TD kD : Nat → (Dir → ℝ) → ℝ}
    {M Kb : Nat → ℝ} {K0 : ℝ} (sT : Smooth lo hi d 4 T TD M) (sk : Smooth lo hi d 3 k kD Kb) (h0 : |k (position h .sVol c)| ≤ K0)
    {Q : (Dir → ℝ) → ℝ} (hQ : IsPartial lo hi d (fun p => k p * TD 1 p) Q) :
    |-outflow n h vT vk c d - Q (position h .sVol c)| ≤ h d ^ 2 * (K0 * M 4 / 12 + Kb 1 * M 3 / 6 + Kb 2 * M 2 / 4 + Kb 3 * M 1 / 6) := by
  obtain ⟨p, hp⟩ : ∃ p, p = position h .sVol c := ⟨_, rfl⟩
  have e1 : position h .sVol (c + unit d) = Function.update p d (p d + h d) := by
    rw [position_shift h c d 1 _ (comp_unit d), hp]; simp
  have e2 : position h .sVol (c - unit d) = Function.update p d (p d - h d) := by
    rw [sub_unit, position_shift h c d (-1) _ (comp_neg_unit d), hp]; congr 1; push_cast; ring
  have e0 : Function.update p d (p d) = p := Function.update_eq_self d p
  obtain ⟨i0, x0⟩ := hT c c hc (.inl rfl)
  obtain ⟨i1, x1⟩ := hT c (c + unit d) hc (.inr ⟨d, hd, .inl rfl⟩)
  obtain ⟨i2, x2⟩ := hT c (c - unit d) hc (.inr ⟨d, hd, .inr rfl⟩)
  obtain ⟨-, y0⟩ := hk c c hc (.inl rfl)
  obtain ⟨-, y1⟩ := hk c (c + unit d) hc (.inr ⟨d, hd, .inl rfl⟩)
  obtain ⟨-, y2⟩ := hk c (c - unit d) hc (.inr ⟨d, hd, .inr rfl⟩)
  rw [e1] at i1 x1 y1
  rw [e2] at i2 x2 y2
  rw [← hp] at i0 x0 y0 h0 ⊢
  have hin : ∀ t ∈ Icc (p d - h d) (p d + h d), t ∈ Icc (lo d) (hi d) := by
    intro t ht
    have a1 := (i1 d).2
    have a2 := (i2 d).1
    rw [Function.update_self] at a1 a2
    exact ⟨a2.trans ht.1, ht.2.trans a1⟩
  have der : ∀ {F G : (Dir → ℝ) → ℝ}, IsPartial lo hi d F G → ∀ t ∈ Icc (p d - h d) (p d + h d),
      HasDerivAt (fun t => F (Function.update p d t)) (G (Function.update p d t)) t := fun hFG t ht => hFG.line i0 t (hin t ht)
  have box : ∀ t ∈ Icc (p d - h d) (p d + h d), Accuracy.InBox lo hi (Function.update p d t) := fun t ht => update_inBox i0 (hin t ht)
  have hself : p d ∈ Icc (p d - h d) (p d + h d) := ⟨by linarith, by linarith⟩
  have key := flux_diff (T := fun t => T (Function.update p d t)) (k := fun t => k (Function.update p d t)) (a := p d) (K0 := K0) hh
    (sT.zero ▸ der (sT.deriv 0 (by omega))) (der (sT.deriv 1 (by omega))) (der (sT.deriv 2 (by omega))) (der (sT.deriv 3 (by omega)))
    (sk.zero ▸ der (sk.deriv 0 (by omega))) (der (sk.deriv 1 (by omega))) (der (sk.deriv 2 (by omega)))
    (sT.bound 1 (by omega) (by omega) _ (box _ hself)) (fun t ht => sT.bound 2 (by omega) (by omega) _ (box t ht))
    (fun t ht => sT.bound 3 (by omega) (by omega) _ (box t ht)) (fun t ht => sT.bound 4 (by omega) (by omega) _ (box t ht))
    (by rw [e0]; exact h0) (sk.bound 1 (by omega) (by omega) _ (box _ hself)) (fun t ht => sk.bound 2 (by omega) (by omega) _ (box t ht))
    (fun t ht => sk.bound 3 (by omega) (by omega) _ (box t ht))
  have hq : Q p = kD 1 p * TD 1 p + k p * TD 2 p := by
    have d1 := hQ p i0
    have d2 := (der (sk.zero ▸ sk.deriv 0 (by omega)) (p d) hself).mul (der (sT.deriv 1 (by omega)) (p d) hself)
    have := d1.unique d2
    rw [e0] at this
    exact this
  rw [hq]
  simp only [e0] at key
  unfold outflow heatFlux
  rw [if_pos hd, add_sub_unit, x0, x1, x2, y0, y1, y2]
  refine le_trans (le_of_eq ?_) key
  congr 1
  ring

/-- The right-hand side. -/
theorem rhs_bound {n : IntVec} {h lo hi : Dir → ℝ} {vT vk rc : IntVec → ℝ} {T k : (Dir → ℝ) → ℝ} (hT : Centred n h lo hi vT T)
    (hk : Centred n h lo hi vk k) {c : IntVec} (hc : InMesh n c) (hh : ∀ d, 1 < comp n d → 0 < h d) {TD kD : Dir → Nat → (Dir → ℝ) → ℝ}
    {M Kb : Dir → Nat → ℝ} {K0 : ℝ} (sT : ∀ d, 1 < comp n d → Smooth lo hi d 4 T (TD d) (M d))
    (sk : ∀ d, 1 < comp n d → Smooth lo hi d 3 k (kD d) (Kb d)) (h0 : |k (position h .sVol c)| ≤ K0)
    {Q : Dir → (Dir → ℝ) → ℝ} (hQ : ∀ d, 1 < comp n d → IsPartial lo hi d (fun p => k p * TD d 1 p) (Q d)) (hrc : 0 < rc c) :
    |heatRhs n h vT vk rc c - active n (fun d => Q d (position h .sVol c)) / rc c| ≤
      active n (fun d => h d ^ 2 * (K0 * M d 4 / 12 + Kb d 1 * M d 3 / 6 + Kb d 2 * M d 2 / 4 + Kb d 3 * M d 1 / 6)) / rc c := by
  have one : ∀ d, |-outflow n h vT vk c d - (if 1 < comp n d then Q d (position h .sVol c) else 0)| ≤
      if 1 < comp n d then h d ^ 2 * (K0 * M d 4 / 12 + Kb d 1 * M d 3 / 6 + Kb d 2 * M d 2 / 4 + Kb d 3 * M d 1 / 6) else 0 := by
    intro d
    by_cases hd : 1 < comp n d
    · rw [if_pos hd, if_pos hd]
      exact outflow_bound hT hk hc hd (hh d hd) (sT d hd) (sk d hd) h0 (hQ d hd)
    · rw [if_neg hd, if_neg hd]
      unfold outflow
      rw [if_neg hd]
      simp
  have e : heatRhs n h vT vk rc c - active n (fun d => Q d (position h .sVol c)) / rc c =
      ((-outflow n h vT vk c .x - (if 1 < comp n .x then Q .x (position h .sVol c) else 0)) +
        (-outflow n h vT vk c .y - (if 1 < comp n .y then Q .y (position h .sVol c) else 0)) +
        (-outflow n h vT vk c .z - (if 1 < comp n .z then Q .z (position h .sVol c) else 0))) / rc c := by
    unfold heatRhs active
    ring
  rw [e, abs_div, abs_of_pos hrc]
  refine div_le_div_of_nonneg_right ?_ hrc.le
  unfold active
  exact (abs_add_three _ _ _).trans (add_le_add (add_le_add (one .x) (one .y)) (one .z))

theorem isPartial_of {lo hi : Dir → ℝ} {d : Dir} (f g : ℝ → ℝ) (hf : ∀ x, HasDerivAt f (g x) x) (u v : (Dir → ℝ) → ℝ)
    (hu : ∀ p, u p = f (p d) + v p) (hv : ∀ p t, v (Function.update p d t) = v p) : IsPartial lo hi d u (fun p => g (p d)) := by
  intro p _
  have : (fun t => u (Function.update p d t)) = fun t => f t + v p := by
    funext t
    rw [hu, hv, Function.update_self]
  rw [this]
  exact (hf (p d)).add_const _

/-- The temperature in direction `d` (for the proofs only). -/
noncomputable def wave : Dir → ℝ → ℝ
  | .y => Real.cos
  | _ => Real.sin

/-- Its derivatives (for the proofs only). -/
noncomputable def waveD : Dir → Nat → ℝ → ℝ
  | d, 0 => wave d
  | .y, 1 => fun x => -Real.sin x
  | _, 1 => Real.cos
  | d, i + 2 => fun x => -waveD d i x

theorem waveD_deriv (d : Dir) : ∀ i x, HasDerivAt (waveD d i) (waveD d (i + 1) x) x
  | 0, x => by
    cases d
    · exact Real.hasDerivAt_sin x
    · exact Real.hasDerivAt_cos x
    · exact Real.hasDerivAt_sin x
  | 1, x => by
    cases d
    · exact Real.hasDerivAt_cos x
    · exact (Real.hasDerivAt_sin x).neg
    · exact Real.hasDerivAt_cos x
  | i + 2, x => by
    have := (waveD_deriv d i x).neg
    have e1 : waveD d (i + 2) = -waveD d i := by
      funext y
      cases d <;> simp [waveD]
    have e2 : waveD d (i + 2 + 1) x = -waveD d (i + 1) x := by
      show waveD d (i + 1 + 2) x = _
      cases d <;> simp [waveD]
    rw [e1, e2]
    exact this

theorem waveD_bound (d : Dir) : ∀ i x, |waveD d i x| ≤ 1
  | 0, x => by cases d <;> simp only [waveD, wave] <;> first | exact Real.abs_sin_le_one x | exact Real.abs_cos_le_one x
  | 1, x => by
    cases d
    · exact Real.abs_cos_le_one x
    · show |-Real.sin x| ≤ 1
      rw [abs_neg]; exact Real.abs_sin_le_one x
    · exact Real.abs_cos_le_one x
  | i + 2, x => by
    have : waveD d (i + 2) x = -waveD d i x := by cases d <;> simp [waveD]
    rw [this, abs_neg]
    exact waveD_bound d i x

end Heat
end SpatialOps
