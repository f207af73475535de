import Verif.HeatErr.Lemmas
import Verif.Heat.Props

/-!
# C84: accuracy of the heat equation program
-/

namespace SpatialOps
namespace Heat

open Set Nebo Stencil Accuracy

/-- C84 (one trip of the time loop). On every mesh, one-, two- or three-dimensional: if the temperature and the conductivity hold the
values of smooth functions `T` and `k` at the cell centres, then a trip of the time loop succeeds and leaves at each cell of
the right-hand side `∇·(k ∇T)/(ρ cp)` at the centre (`Q d` is the derivative of `k ∂T/∂d` in direction `d`) up to an error of
second order in the spacings, with explicit constants. -/
theorem _root_.SpatialOps.C84_step (n : IntVec) (hn : IntVec.Lt 0 n) (h : Dir → ℝ) (hh : ∀ d, 1 < comp n d → 0 < h d)
    (blk : Nat → Nat) (hs : Separate blk) (work work' : Dir → Nat) (hw : Fresh blk work) (hw' : Fresh blk work') :
    ∃ F, build n blk = .ok F ∧ ∀ (m : Mem ℝ) (lo hi : Dir → ℝ) (T k : (Dir → ℝ) → ℝ) (TD kD : Dir → Nat → (Dir → ℝ) → ℝ)
      (M Kb : Dir → Nat → ℝ) (K0 : ℝ) (Q : Dir → (Dir → ℝ) → ℝ),
      Centred n h lo hi (val n m F.temperature) T → Centred n h lo hi (val n m F.thermCond) k →
      (∀ d, 1 < comp n d → Smooth lo hi d 4 T (TD d) (M d)) → (∀ d, 1 < comp n d → Smooth lo hi d 3 k (kD d) (Kb d)) →
      (∀ p, Accuracy.InBox lo hi p → |k p| ≤ K0) → (∀ d, 1 < comp n d → IsPartial lo hi d (fun p => k p * TD d 1 p) (Q d)) →
      (∀ c, InMesh n c → 0 < val n m F.rhoCp c) →
      ∃ m', timeStep h n F work work' m = .ok m' ∧ ∀ c, InMesh n c →
        |val n m' F.rhs c - active n (fun d => Q d (position h .sVol c)) / val n m F.rhoCp c| ≤
          active n (fun d => h d ^ 2 * (K0 * M d 4 / 12 + Kb d 1 * M d 3 / 6 + Kb d 2 * M d 2 / 4 + Kb d 3 * M d 1 / 6)) /
            val n m F.rhoCp c := by
  obtain ⟨F, hF, hm⟩ := C73_step n hn h (fun d hd => (hh d hd).ne') blk hs work work' hw hw'
  refine ⟨F, hF, fun m lo hi T k TD kD M Kb K0 Q hT hk sT sk h0 hQ hrc => ?_⟩
  obtain ⟨m', h1, h2, -⟩ := hm m fun c hc => (hrc c hc).ne'
  refine ⟨m', h1, fun c hc => ?_⟩
  rw [h2 c hc]
  exact rhs_bound hT hk hc hh sT sk (h0 _ (hk c c hc (.inl rfl)).1) hQ (hrc c hc)

/-- C84 (the program). For every number of cells, positive lengths and number of time steps, at least one, the program ends, and its
result at each cell is `∇·(k ∇T)` for `T = sin(x) + cos(y) + sin(z)` and `k = x + y + z` at the cell's centre, taken over the directions
with more than one cell, up to an error of `h² ((Lx + Ly + Lz)/12 + 1/6)` per such direction. -/
theorem _root_.SpatialOps.C84_program (n : IntVec) (hn : IntVec.Lt 0 n) (L : Dir → ℝ) (hL : ∀ d, 0 < L d)
    (ntime : Nat) (ht : 0 < ntime) (blk : Nat → Nat) (hs : Separate blk) (work work' : Nat → Dir → Nat)
    (hw : ∀ k, Fresh blk (work k)) (hw' : ∀ k, Fresh blk (work' k)) (m : Mem ℝ) :
    ∃ F m', main Real.sin Real.cos n L ntime blk work work' m = .ok (F, m') ∧ ∀ c, InMesh n c → ∀ x y z : ℝ,
      x = L .x / n.x * (c.x + 1 / 2) → y = L .y / n.y * (c.y + 1 / 2) → z = L .z / n.z * (c.z + 1 / 2) →
      |val n m' F.rhs c - active n (fun
        | .x => Real.cos x - (x + y + z) * Real.sin x
        | .y => -Real.sin y - (x + y + z) * Real.cos y
        | .z => Real.cos z - (x + y + z) * Real.sin z)| ≤
        active n (fun d => (L d / (comp n d : ℝ)) ^ 2 * ((L .x + L .y + L .z) / 12 + 1 / 6)) := by
  obtain ⟨F, m', h1, h2⟩ := C73_program Real.sin Real.cos n hn L (fun d => (hL d).ne') ntime ht blk hs work work' hw hw' m
  refine ⟨F, m', h1, fun c hc x y z hx hy hz => ?_⟩
  have hnd : ∀ d, 0 < comp n d := by
    intro d
    unfold IntVec.Lt at hn
    cases d <;> simp only [comp] <;> simp at hn <;> omega
  have hnr : ∀ d, (0 : ℝ) < (comp n d : ℝ) := fun d => by exact_mod_cast hnd d
  have hpos : ∀ d, 0 < meshSpacing n L d := fun d => div_pos (hL d) (hnr d)
  obtain ⟨h, hh⟩ : ∃ h, h = meshSpacing n L := ⟨_, rfl⟩
  rw [← hh] at hpos
  have px : position h .sVol c .x = x := by rw [hx, hh]; simp [position, staggered, meshSpacing, comp]
  have py : position h .sVol c .y = y := by rw [hy, hh]; simp [position, staggered, meshSpacing, comp]
  have pz : position h .sVol c .z = z := by rw [hz, hh]; simp [position, staggered, meshSpacing, comp]
  obtain ⟨T, hT⟩ : ∃ T : (Dir → ℝ) → ℝ, T = fun p => Real.sin (p .x) + Real.cos (p .y) + Real.sin (p .z) := ⟨_, rfl⟩
  obtain ⟨k, hk⟩ : ∃ k : (Dir → ℝ) → ℝ, k = fun p => p .x + p .y + p .z := ⟨_, rfl⟩
  have hcen : ∀ (v : IntVec → ℝ) (G : (Dir → ℝ) → ℝ), (∀ c', v c' = G (position h .sVol c')) →
      Centred n h (fun d => -h d) (fun d => h d * ((comp n d : ℝ) + 1)) v G := by
    intro v G hv c1 c' hc1 hc'
    refine ⟨fun d => ?_, hv c'⟩
    have hb : -1 ≤ comp c' d ∧ comp c' d ≤ comp n d := by
      obtain ⟨q1, q2⟩ := hc1
      unfold IntVec.Le at q1
      unfold IntVec.Lt at q2
      have hq : 0 ≤ comp c1 d ∧ comp c1 d < comp n d := by
        cases d <;> simp only [comp] <;> simp at q1 <;> omega
      rcases hc' with rfl | ⟨e, -, rfl | rfl⟩
      · omega
      · have : comp (c1 + unit e) d = comp c1 d + comp (unit e) d := by cases d <;> rfl
        rw [this, comp_unit]; split <;> omega
      · have : comp (c1 - unit e) d = comp c1 d - comp (unit e) d := by cases d <;> rfl
        rw [this, comp_unit]; split <;> omega
    have e : position h .sVol c' d = h d * ((comp c' d : ℝ) + 1 / 2) := by cases d <;> simp [position, staggered]
    have b1 : (-1 : ℝ) ≤ (comp c' d : ℝ) := by exact_mod_cast hb.1
    have b2 : (comp c' d : ℝ) ≤ (comp n d : ℝ) := by exact_mod_cast hb.2
    rw [e]
    constructor <;> nlinarith [hpos d]
  have cT := hcen (initialT Real.sin Real.cos n L) T fun c' => by
    rw [hT, hh]; simp [initialT, position, staggered, comp]
  have ck := hcen (initialK n L) k fun c' => by
    rw [hk, hh]; simp [initialK, position, staggered, comp]
  have sT : ∀ d, 1 < comp n d → Smooth (fun d => -h d) (fun d => h d * ((comp n d : ℝ) + 1)) d 4 T
      (fun | 0 => T | i + 1 => fun p => waveD d (i + 1) (p d)) (fun _ => 1) := by
    intro d _
    refine ⟨rfl, fun i hi => ?_, fun i h1 _ p _ => ?_⟩
    · cases i with
      | zero =>
        refine isPartial_of (waveD d 0) (waveD d 1) (waveD_deriv d 0) T (fun p => T p - waveD d 0 (p d)) (fun p => by ring) fun p t => ?_
        subst hT
        cases d <;> simp [waveD, wave] <;> ring
      | succ i => exact isPartial_of (waveD d (i + 1)) (waveD d (i + 2)) (waveD_deriv d (i + 1)) _ (fun _ => 0) (fun p => by simp) fun _ _ => rfl
    · obtain ⟨j, rfl⟩ : ∃ j, i = j + 1 := ⟨i - 1, by omega⟩
      exact waveD_bound d (j + 1) _
  have sk : ∀ d, 1 < comp n d → Smooth (fun d => -h d) (fun d => h d * ((comp n d : ℝ) + 1)) d 3 k
      (fun | 0 => k | 1 => fun _ => 1 | _ => fun _ => 0) (fun | 1 => 1 | _ => 0) := by
    intro d _
    refine ⟨rfl, fun i hi => ?_, fun i h1 _ p _ => ?_⟩
    · match i with
      | 0 =>
        refine isPartial_of (fun x => x) (fun _ => 1) (fun x => hasDerivAt_id x) k (fun p => k p - p d) (fun p => by ring) fun p t => ?_
        subst hk
        cases d <;> simp <;> ring
      | 1 => exact fun p _ => hasDerivAt_const _ _
      | i + 2 => exact fun p _ => hasDerivAt_const _ _
    · match i with
      | 0 => omega
      | 1 => simp
      | i + 2 => simp
  have hQ : ∀ d, 1 < comp n d → IsPartial (fun d => -h d) (fun d => h d * ((comp n d : ℝ) + 1)) d
      (fun p => k p * waveD d 1 (p d)) (fun p => waveD d 1 (p d) + k p * waveD d 2 (p d)) := by
    intro d hd p hp
    have a1 := ((sk d hd).deriv 0 (by omega)) p hp
    have a2 := ((sT d hd).deriv 1 (by omega)) p hp
    have := a1.mul a2
    simp only [Function.update_eq_self, one_mul] at this
    exact this
  have hk0 : |k (position h .sVol c)| ≤ L .x + L .y + L .z := by
    have b : ∀ d, 0 ≤ position h .sVol c d ∧ position h .sVol c d ≤ L d := by
      intro d
      obtain ⟨q1, q2⟩ := hc
      unfold IntVec.Le at q1
      unfold IntVec.Lt at q2
      have hq : 0 ≤ comp c d ∧ comp c d + 1 ≤ comp n d := by
        cases d <;> simp only [comp] <;> simp at q1 <;> omega
      have b1 : (0 : ℝ) ≤ (comp c d : ℝ) := by exact_mod_cast hq.1
      have b2 : (comp c d : ℝ) + 1 ≤ (comp n d : ℝ) := by exact_mod_cast hq.2
      have e : position h .sVol c d = h d * ((comp c d : ℝ) + 1 / 2) := by cases d <;> simp [position, staggered]
      have eL : L d = h d * (comp n d : ℝ) := by
        rw [hh]; unfold meshSpacing; rw [div_mul_cancel₀ _ (hnr d).ne']
      rw [e, eL]
      constructor <;> nlinarith [hpos d]
    subst hk
    rw [abs_of_nonneg (by linarith [(b .x).1, (b .y).1, (b .z).1])]
    linarith [(b .x).2, (b .y).2, (b .z).2]
  have key := rhs_bound (rc := fun _ => 1) cT ck hc (fun d _ => hpos d) sT sk hk0 hQ one_pos
  rw [h2 c hc, ← hh]
  simp only [div_one] at key
  convert key using 2
  · congr 1
    unfold active
    simp only [hk, px, py, pz, waveD, wave]
    congr 1
    · congr 1
      · split <;> ring
      · split <;> ring
    · split <;> ring
  · funext d
    rw [hh]
    unfold meshSpacing
    ring

/-- C84 (the bound is attained). With constant conductivity `K0` and temperature `M x⁴/24`, whose fourth derivative is `M`, the result of
a trip of the time loop differs from `∇·(k ∇T)` by `h² K0 M / 12` at every cell. -/
theorem _root_.SpatialOps.C84_attained (n : IntVec) (hn : IntVec.Lt 0 n) (hx : 1 < n.x) (h : Dir → ℝ) (hh : ∀ d, 1 < comp n d → 0 < h d)
    (blk : Nat → Nat) (hs : Separate blk) (work work' : Dir → Nat) (hw : Fresh blk work) (hw' : Fresh blk work') :
    ∃ F, build n blk = .ok F ∧ ∀ (m : Mem ℝ) (K0 M : ℝ),
      (∀ c c', InMesh n c → (c' = c ∨ Neighbour n c c') → val n m F.temperature c' = M * position h .sVol c' .x ^ 4 / 24 ∧
        val n m F.thermCond c' = K0) → (∀ c, InMesh n c → val n m F.rhoCp c = 1) →
      ∃ m', timeStep h n F work work' m = .ok m' ∧ ∀ c, InMesh n c →
        val n m' F.rhs c - K0 * (M * position h .sVol c .x ^ 2 / 2) = h .x ^ 2 * (K0 * M / 12) := by
  obtain ⟨F, hF, hm⟩ := C73_step n hn h (fun d hd => (hh d hd).ne') blk hs work work' hw hw'
  refine ⟨F, hF, fun m K0 M hTk hrc => ?_⟩
  obtain ⟨m', h1, h2, -⟩ := hm m fun c hc => by rw [hrc c hc]; exact one_ne_zero
  refine ⟨m', h1, fun c hc => ?_⟩
  rw [h2 c hc]
  have flat : ∀ d, d ≠ .x → outflow n h (val n m F.temperature) (val n m F.thermCond) c d = 0 := by
    intro d hd
    unfold outflow
    split
    · next h1 =>
      unfold heatFlux
      rw [(hTk c c hc (.inl rfl)).1, (hTk c (c + unit d) hc (.inr ⟨d, h1, .inl rfl⟩)).1, (hTk c (c - unit d) hc (.inr ⟨d, h1, .inr rfl⟩)).1,
        add_sub_unit, (hTk c c hc (.inl rfl)).1, position_shift h c d 1 _ (comp_unit d), sub_unit, position_shift h c d (-1) _ (comp_neg_unit d),
        Function.update_of_ne hd.symm, Function.update_of_ne hd.symm]
      simp
    · rfl
  have hx0 := (hh .x hx).ne'
  unfold heatRhs
  rw [flat .y (by decide), flat .z (by decide), hrc c hc]
  unfold outflow heatFlux
  rw [if_pos (show 1 < comp n .x from hx), add_sub_unit, (hTk c c hc (.inl rfl)).1, (hTk c c hc (.inl rfl)).2,
    (hTk c (c + unit .x) hc (.inr ⟨.x, hx, .inl rfl⟩)).1, (hTk c (c + unit .x) hc (.inr ⟨.x, hx, .inl rfl⟩)).2,
    (hTk c (c - unit .x) hc (.inr ⟨.x, hx, .inr rfl⟩)).1, (hTk c (c - unit .x) hc (.inr ⟨.x, hx, .inr rfl⟩)).2,
    position_shift h c .x 1 _ (comp_unit .x), sub_unit, position_shift h c .x (-1) _ (comp_neg_unit .x),
    Function.update_self, Function.update_self]
  generalize position h .sVol c .x = x
  push_cast
  field_simp
  ring

namespace HeatErrEx

/-- Temperature `x⁴` on a one-dimensional mesh with spacing 1; all other values 1. -/
noncomputable def quartic : Mem ℝ := fun b a => if b = 0 then ((a : ℝ) - 1 / 2) ^ 4 else 1

theorem values {F : Fields} (hF : Built ⟨3, 1, 1⟩ (fun i => i) F) :
    (∀ c, val ⟨3, 1, 1⟩ quartic F.temperature c = position (fun _ => 1) .sVol c .x ^ 4) ∧
      (∀ c, val ⟨3, 1, 1⟩ quartic F.thermCond c = 1) ∧ ∀ c, val ⟨3, 1, 1⟩ quartic F.rhoCp c = 1 := by
  refine ⟨fun c => ?_, fun c => ?_, fun c => ?_⟩
  · have h := hF.temperature
    unfold val flatAddr
    rw [h.target.mem, h.offset, h.valid]
    simp [places, place, fortranPos, G, quartic, position, staggered, comp]
    ring
  · unfold val quartic
    rw [hF.thermCond.target.mem, Option.getD_some, if_neg (by decide)]
  · unfold val quartic
    rw [hF.rhoCp.target.mem, Option.getD_some, if_neg (by decide)]

theorem mesh {c c' : IntVec} (hc : InMesh ⟨3, 1, 1⟩ c) (hc' : c' = c ∨ Neighbour ⟨3, 1, 1⟩ c c') :
    -1 ≤ c'.x ∧ c'.x ≤ 3 ∧ c'.y = 0 ∧ c'.z = 0 := by
  obtain ⟨q1, q2⟩ := hc
  unfold IntVec.Le at q1
  unfold IntVec.Lt at q2
  simp at q1 q2
  rcases hc' with rfl | ⟨d, hd, hc'⟩
  · omega
  · have : d = .x := by cases d <;> first | rfl | exact absurd hd (by decide)
    subst this
    rcases hc' with rfl | rfl <;> simp [unit] <;> omega

/-- The hypotheses of the theorems on one step hold of it: the result is within 2 of `12 x²`, in fact 2 more. -/
example : ∃ F, build ⟨3, 1, 1⟩ (fun i => i) = .ok F ∧
    ∃ m', timeStep (fun _ => (1 : ℝ)) ⟨3, 1, 1⟩ F (fun _ => 10) (fun _ => 10) quartic = .ok m' ∧ ∀ c, InMesh ⟨3, 1, 1⟩ c →
      |val ⟨3, 1, 1⟩ m' F.rhs c - 12 * ((c.x : ℝ) + 1 / 2) ^ 2| ≤ 2 ∧ val ⟨3, 1, 1⟩ m' F.rhs c - 12 * ((c.x : ℝ) + 1 / 2) ^ 2 = 2 := by
  obtain ⟨F, hb, hm⟩ := C84_step ⟨3, 1, 1⟩ (by decide) (fun _ => 1) (fun _ _ => one_pos) (fun i => i) HeatEx.sep
    (fun _ => 10) (fun _ => 10) HeatEx.fresh HeatEx.fresh
  obtain ⟨F', hb', hm'⟩ := C84_attained ⟨3, 1, 1⟩ (by decide) (by decide) (fun _ => 1) (fun _ _ => one_pos) (fun i => i) HeatEx.sep
    (fun _ => 10) (fun _ => 10) HeatEx.fresh HeatEx.fresh
  obtain ⟨F'', hb'', hF⟩ := build_ok (n := ⟨3, 1, 1⟩) (by decide) fun i => i
  obtain rfl := Outcome.ok.inj (hb.symm.trans hb')
  obtain rfl := Outcome.ok.inj (hb.symm.trans hb'')
  obtain ⟨vT, vk, vr⟩ := values hF
  have box : ∀ c c', InMesh ⟨3, 1, 1⟩ c → (c' = c ∨ Neighbour ⟨3, 1, 1⟩ c c') →
      Accuracy.InBox (fun _ => -4) (fun _ => 4) (position (fun _ => 1) .sVol c') := by
    intro c c' hc hc' d
    obtain ⟨b1, b2, b3, b4⟩ := mesh hc hc'
    have b1' : (-1 : ℝ) ≤ (c'.x : ℝ) := by exact_mod_cast b1
    have b2' : (c'.x : ℝ) ≤ 3 := by exact_mod_cast b2
    cases d <;> simp [position, staggered, comp, b3, b4] <;> constructor <;> linarith
  have only : ∀ d, 1 < comp ⟨3, 1, 1⟩ d → d = .x := by
    intro d hd
    cases d <;> first | rfl | exact absurd hd (by decide)
  have pw : ∀ (a : ℝ) (i : Nat), IsPartial (fun _ => -4) (fun _ => 4) .x (fun p => a * p .x ^ (i + 1)) (fun p => a * (((i + 1 : ℕ) : ℝ) * p .x ^ i)) := by
    intro a i p _
    have := (hasDerivAt_pow (i + 1) (p .x)).const_mul a
    simpa using this
  obtain ⟨m', h1, h2⟩ := hm quartic (fun _ => -4) (fun _ => 4) (fun p => p .x ^ 4) (fun _ => 1)
    (fun _ => fun | 0 => fun p => p .x ^ 4 | 1 => fun p => 4 * p .x ^ 3 | 2 => fun p => 12 * p .x ^ 2 | 3 => fun p => 24 * p .x | _ => fun _ => 24)
    (fun _ => fun | 0 => fun _ => 1 | _ => fun _ => 0) (fun _ => fun | 1 => 256 | 2 => 192 | 3 => 96 | _ => 24) (fun _ _ => 0) 1
    (fun _ p => 12 * p .x ^ 2) (fun c c' hc hc' => ⟨box c c' hc hc', vT c'⟩) (fun c c' hc hc' => ⟨box c c' hc hc', vk c'⟩)
    (fun d hd => by
      rw [only d hd]
      refine ⟨rfl, fun i hi => ?_, fun i h1 h4 p hp => ?_⟩
      · match i, hi with
        | 0, _ => simpa using pw 1 3
        | 1, _ => have := pw 4 2; intro p hp; exact (this p hp).congr_deriv (by push_cast; ring)
        | 2, _ => have := pw 12 1; intro p hp; exact (this p hp).congr_deriv (by push_cast; ring)
        | 3, _ => have := pw 24 0; intro p hp; simpa using this p hp
      · have b := abs_le.2 (hp .x)
        have b0 := abs_nonneg (p .x)
        match i, h1, h4 with
        | 1, _, _ =>
          show |4 * p .x ^ 3| ≤ 256
          rw [abs_mul, abs_pow, abs_of_pos (by norm_num)]
          have : |p .x| ^ 3 ≤ 4 ^ 3 := pow_le_pow_left₀ b0 b 3
          linarith
        | 2, _, _ =>
          show |12 * p .x ^ 2| ≤ 192
          rw [abs_mul, abs_pow, abs_of_pos (by norm_num)]
          have : |p .x| ^ 2 ≤ 4 ^ 2 := pow_le_pow_left₀ b0 b 2
          linarith
        | 3, _, _ =>
          show |24 * p .x| ≤ 96
          rw [abs_mul, abs_of_pos (by norm_num)]
          linarith
        | 4, _, _ =>
          show |(24 : ℝ)| ≤ 24
          norm_num)
    (fun d hd => ⟨rfl, fun i _ => by
      match i with
      | 0 => exact fun p _ => hasDerivAt_const _ _
      | i + 1 => exact fun p _ => hasDerivAt_const _ _, fun i h1 _ p _ => by
      match i, h1 with
      | i + 1, _ => simp⟩)
    (fun _ _ => by simp)
    (fun d hd => by
      rw [only d hd]
      have := pw 4 2
      intro p hp
      simpa using (this p hp).congr_deriv (by push_cast; ring))
    (fun c _ => by rw [vr]; exact one_pos)
  obtain ⟨m'', h1', h2'⟩ := hm' quartic 1 24 (fun c c' hc hc' => ⟨by rw [vT]; ring, vk c'⟩) (fun c _ => vr c)
  obtain rfl := Outcome.ok.inj (h1.symm.trans h1')
  have px : ∀ c : IntVec, position (fun _ => (1 : ℝ)) .sVol c .x = (c.x : ℝ) + 1 / 2 := fun c => by simp [position, staggered, comp]
  refine ⟨F, hb, m', h1, fun c hc => ⟨?_, ?_⟩⟩
  · have := h2 c hc
    simp only [vr, px, active] at this
    norm_num [comp] at this ⊢
    exact this
  · have := h2' c hc
    rw [px] at this
    linarith

/-- The hypotheses of the theorem on the program hold of a two-dimensional mesh of 4 by 5 cells. -/
example (m : Mem ℝ) : ∃ F m', main Real.sin Real.cos ⟨4, 1, 5⟩ (fun _ => 1) 3 (fun i => i) (fun _ _ => 10) (fun _ _ => 10) m = .ok (F, m') ∧
    |val ⟨4, 1, 5⟩ m' F.rhs ⟨1, 0, 2⟩ - ((Real.cos (3 / 8) - 11 / 8 * Real.sin (3 / 8)) + (Real.cos (1 / 2) - 11 / 8 * Real.sin (1 / 2)))| ≤
      41 / 400 * (5 / 12) := by
  obtain ⟨F, m', h1, h2⟩ := C84_program ⟨4, 1, 5⟩ (by decide) (fun _ => 1) (fun _ => one_pos) 3 (by decide) (fun i => i) HeatEx.sep
    (fun _ _ => 10) (fun _ _ => 10) (fun _ => HeatEx.fresh) (fun _ => HeatEx.fresh) m
  refine ⟨F, m', h1, ?_⟩
  have := h2 ⟨1, 0, 2⟩ (by unfold InMesh; decide) (3 / 8) (1 / 2) (1 / 2) (by norm_num) (by norm_num) (by norm_num)
  norm_num [active, comp] at this ⊢
  exact this

end HeatErrEx
end Heat
end SpatialOps
