import Verif.HeatRound.Lemmas
import Verif.Round.Props

/-!
# C103: explicit time steps for the heat equation in floating point

The program of C73 and C101 with every operation rounded. The model is the same one; only the arithmetic of the values differs.
-/

namespace SpatialOps
namespace Heat

open Nebo Stencil Round

section
variable {K : Type} [Field K] [LinearOrder K] [IsStrictOrderedRing K] {u : K} {rnd : K → K}

/-- C103 (right-hand side). In floating point the program computes at each cell the right-hand side `∇·(k ∇T)/(ρ cp)` in finite-volume form up to thirteen roundings,
relative to the largest temperature at the cell and its neighbours times twice the rate of the cell. -/
theorem _root_.SpatialOps.C103_rhs (hf : Format u rnd) (n : IntVec) (hn : IntVec.Lt 0 n) (h : Dir → Fl rnd) (_hh : ∀ d, 1 < comp n d → (h d).val ≠ 0)
    (blk : Nat → Nat) (hs : Separate blk) (work work' : Dir → Nat) (hw : Fresh blk work) (hw' : Fresh blk work') :
    ∃ F, build n blk = .ok F ∧ ∀ m : Mem (Fl rnd), ∃ m', timeStep h n F work work' m = .ok m' ∧
      ∀ c B, InMesh n c → 0 < (val n m F.rhoCp c).val → (∀ c', (c' = c ∨ Neighbour n c c') → 0 ≤ (val n m F.thermCond c').val) →
        (∀ c', (c' = c ∨ Neighbour n c c') → |(val n m F.temperature c').val| ≤ B) →
        |(val n m' F.rhs c).val - heatRhs n (fun d => (h d).val) (fun c => (val n m F.temperature c).val)
            (fun c => (val n m F.thermCond c).val) (fun c => (val n m F.rhoCp c).val) c| ≤
          grow u 13 * (rate n (fun d => (h d).val) (fun c => (val n m F.thermCond c).val) (fun c => (val n m F.rhoCp c).val) c * (2 * B)) := by
  obtain ⟨F, hb, hF⟩ := build_ok hn blk
  refine ⟨F, hb, fun m => ?_⟩
  obtain ⟨m', h1, h2, -⟩ := step_gen hn h hs hF hw hw' m
  refine ⟨m', h1, fun c B hc hr hk hT => ?_⟩
  rw [h2 c hc]
  exact (err_rhs hf h _ _ _ hr hk hT).1

/-- C103 (errors do not pile up faster than the roundings). If given values `U j`, of size at most `B`, satisfy the equations of the exact steps up to `dt τ`, start
within `ε` of the temperature in memory, and the boundary conditions set values no further from them than those in the mesh are, or `ε`, then with a time step within the
limit the temperature computed in floating point after `j` steps is within `ε + j dt τ` of them up to `45 j` roundings. -/
theorem _root_.SpatialOps.C103_converges (hf : Format u rnd) (n : IntVec) (hn : IntVec.Lt 0 n) (h : Dir → Fl rnd)
    (_hh : ∀ d, 1 < comp n d → (h d).val ≠ 0) (dt : Fl rnd)
    (blk : Nat → Nat) (hs : Separate blk) (work work' : Nat → Dir → Nat) (hw : ∀ k, Fresh blk (work k)) (hw' : ∀ k, Fresh blk (work' k)) :
    ∃ F, build n blk = .ok F ∧ ∀ (m : Mem (Fl rnd)) (bc : Nat → Mem (Fl rnd) → Mem (Fl rnd)) (U : Nat → IntVec → K) (B ε τ : K) (N : Nat),
      OnlyGhosts n F bc →
      Stable n (fun d => (h d).val) dt.val (fun c => (val n m F.thermCond c).val) (fun c => (val n m F.rhoCp c).val) → 0 ≤ τ →
      (∀ j < N, ∀ c, InMesh n c → |U (j + 1) c - (U j c + dt.val * heatRhs n (fun d => (h d).val) (U j)
        (fun c => (val n m F.thermCond c).val) (fun c => (val n m F.rhoCp c).val) c)| ≤ dt.val * τ) →
      (∀ j < N, ∀ c, InMesh n c ∨ Outside n c → |U j c| ≤ B) →
      (∀ c, InMesh n c → |(val n m F.temperature c).val - U 0 c| ≤ ε) →
      (∀ j < N, ∀ m1 δ, ε ≤ δ → (∀ c, InMesh n c → |(val n m1 F.temperature c).val - U j c| ≤ δ) →
        ∀ c, Outside n c → |(val n (bc j m1) F.temperature c).val - U j c| ≤ δ) →
      ∀ j ≤ N, ∃ m', march h dt n F work work' bc j m = .ok m' ∧
        ∀ c, InMesh n c → |(val n m' F.temperature c).val - U j c| ≤
          ε + j * (dt.val * τ) + grow u (45 * j) * (B + (ε + j * (dt.val * τ))) := by
  obtain ⟨F, hb, hF⟩ := build_ok hn blk
  refine ⟨F, hb, fun m bc U B ε τ N hbc hst hτ hU hB h0 hg j hj => ?_⟩
  obtain ⟨μ, e0, h1, h2, -⟩ := march_gen hn h dt hs hF hw hw' hbc m
  refine ⟨μ j, h1 j, ?_⟩
  have hu := hf.nonneg
  have z0 : InMesh n 0 := ⟨⟨le_refl _, le_refl _, le_refl _⟩, hn⟩
  have ε0 : 0 ≤ ε := (abs_nonneg _).trans (h0 0 z0)
  have dτ : 0 ≤ dt.val * τ := mul_nonneg hst.1 hτ
  induction j with
  | zero =>
    intro c hc
    rw [e0]
    simpa [grow] using h0 c hc
  | succ j ih =>
    intro c hc
    have ih := ih (by omega)
    have hjN : j < N := hj
    have B0 : 0 ≤ B := (abs_nonneg _).trans (hB j hjN 0 (.inl z0))
    have jc : (0 : K) ≤ j := Nat.cast_nonneg j
    have jd : 0 ≤ j * (dt.val * τ) := mul_nonneg jc dτ
    have g0 := grow_nonneg hu (45 * j)
    have gp : 0 ≤ grow u (45 * j) * (B + (ε + j * (dt.val * τ))) := mul_nonneg g0 (by linarith)
    generalize hδ : ε + j * (dt.val * τ) + grow u (45 * j) * (B + (ε + j * (dt.val * τ))) = δ at ih
    have near : ∀ c', (c' = c ∨ Neighbour n c c') → |(val n (bc j (μ j)) F.temperature c').val - U j c'| ≤ δ ∧ |U j c'| ≤ B := by
      intro c' h'
      rcases near_cases hc h' with hm | ho
      · rw [(hbc j (μ j)).2 c' hm]
        exact ⟨ih c' hm, hB j hjN c' (.inl hm)⟩
      · exact ⟨hg j hjN (μ j) δ (by linarith) ih c' ho, hB j hjN c' (.inr ho)⟩
    have big : ∀ c', (c' = c ∨ Neighbour n c c') → |(val n (bc j (μ j)) F.temperature c').val| ≤ B + δ := by
      intro c' h'
      obtain ⟨a, b⟩ := near c' h'
      have := abs_add_le (U j c') ((val n (bc j (μ j)) F.temperature c').val - U j c')
      rw [add_sub_cancel] at this
      linarith
    have r := err_euler hf h dt _ (val n m F.thermCond) (val n m F.rhoCp) hst hc big
    rw [h2 j c hc]
    have st : |euler n (fun d => (h d).val) dt.val (fun c => (val n (bc j (μ j)) F.temperature c).val) (fun c => (val n m F.thermCond c).val)
        (fun c => (val n m F.rhoCp c).val) c - euler n (fun d => (h d).val) dt.val (U j) (fun c => (val n m F.thermCond c).val)
        (fun c => (val n m F.rhoCp c).val) c| ≤ δ := by
      rw [abs_le]
      constructor
      · have := euler_nonneg (T := fun c => δ + 1 * (val n (bc j (μ j)) F.temperature c).val + (-1) * U j c) hst hc
          fun c' h' => by linarith [(abs_le.1 (near c' h').1).1]
        unfold euler at this ⊢
        rw [heatRhs_combine] at this
        linarith
      · have := euler_nonneg (T := fun c => δ + (-1) * (val n (bc j (μ j)) F.temperature c).val + 1 * U j c) hst hc
          fun c' h' => by linarith [(abs_le.1 (near c' h').1).2]
        unfold euler at this ⊢
        rw [heatRhs_combine] at this
        linarith
    have res : |euler n (fun d => (h d).val) dt.val (U j) (fun c => (val n m F.thermCond c).val) (fun c => (val n m F.rhoCp c).val) c -
        U (j + 1) c| ≤ dt.val * τ := by
      rw [abs_sub_comm]
      exact hU j hjN c hc
    have g15 := grow_nonneg hu 15
    -- the recurrence
    have recur : δ + grow u 15 * (3 * (B + δ)) + dt.val * τ ≤
        ε + ((j + 1 : Nat) : K) * (dt.val * τ) + grow u (45 * (j + 1)) * (B + (ε + ((j + 1 : Nat) : K) * (dt.val * τ))) := by
      have q1 : (1 : K) ≤ (1 + u) ^ 15 := one_le_pow₀ (by linarith)
      have bern : 1 + 3 * grow u 15 ≤ (1 + u) ^ 45 := by
        have e : (1 + u) ^ 45 = ((1 + u) ^ 15) ^ 3 := by rw [← pow_mul]
        unfold grow
        rw [e]
        generalize (1 + u) ^ 15 = q at q1
        nlinarith [mul_nonneg (mul_self_nonneg (q - 1)) (show 0 ≤ q + 2 by linarith)]
      have p45 : (0 : K) ≤ (1 + u) ^ (45 * j) := pow_nonneg (by linarith) _
      have q45 : (1 : K) ≤ (1 + u) ^ (45 * (j + 1)) := one_le_pow₀ (by linarith)
      have S0 : 0 ≤ B + (ε + j * (dt.val * τ)) := by linarith
      have sum : B + δ = (1 + u) ^ (45 * j) * (B + (ε + j * (dt.val * τ))) := by rw [← hδ]; unfold grow; ring
      have e1 : (1 + u) ^ (45 * (j + 1)) = (1 + u) ^ (45 * j) * (1 + u) ^ 45 := by rw [← pow_add]; congr 1
      have e2 : ε + ((j + 1 : Nat) : K) * (dt.val * τ) + grow u (45 * (j + 1)) * (B + (ε + ((j + 1 : Nat) : K) * (dt.val * τ))) =
          (1 + u) ^ (45 * (j + 1)) * (B + (ε + j * (dt.val * τ))) + (1 + u) ^ (45 * (j + 1)) * (dt.val * τ) - B := by
        unfold grow; push_cast; ring
      have e3 : δ + grow u 15 * (3 * (B + δ)) + dt.val * τ = (1 + 3 * grow u 15) * (B + δ) + dt.val * τ - B := by ring
      rw [e2, e3, sum]
      have t1 := mul_le_mul_of_nonneg_right bern (mul_nonneg p45 S0)
      have t2 := mul_le_mul_of_nonneg_right q45 dτ
      rw [e1] at t2 ⊢
      linarith
    refine le_trans ?_ recur
    have a1 := abs_le.1 r
    have a2 := abs_le.1 st
    have a3 := abs_le.1 res
    rw [abs_le]
    constructor <;> linarith [a1.1, a1.2, a2.1, a2.2, a3.1, a3.2]

/-- C103 (floating point against exact arithmetic). The program in floating point and in exact arithmetic, with the same conductivity, `ρ cp`, spacings and time step, which is
within the limit. They start at most `ε` apart, the boundary conditions of the exact run keep to temperatures of size at most `B`, as the initial ones are, and the two boundary conditions set values no
further apart than those in the mesh are, or `ε`. Then after `N` steps the temperatures are at most `ε` apart up to `45 N` roundings. -/
theorem _root_.SpatialOps.C103_steps (hf : Format u rnd) (n : IntVec) (hn : IntVec.Lt 0 n) (h : Dir → Fl rnd)
    (hh : ∀ d, 1 < comp n d → (h d).val ≠ 0) (dt : Fl rnd)
    (blk : Nat → Nat) (hs : Separate blk) (work work' : Nat → Dir → Nat) (hw : ∀ k, Fresh blk (work k)) (hw' : ∀ k, Fresh blk (work' k)) :
    ∃ F, build n blk = .ok F ∧ ∀ (m : Mem (Fl rnd)) (m0 : Mem K) (bc : Nat → Mem (Fl rnd) → Mem (Fl rnd)) (bc0 : Nat → Mem K → Mem K) (B ε : K),
      OnlyGhosts n F bc → OnlyGhosts n F bc0 → Stable n (fun d => (h d).val) dt.val (val n m0 F.thermCond) (val n m0 F.rhoCp) →
      (∀ c c', InMesh n c → (c' = c ∨ Neighbour n c c') → (val n m F.thermCond c').val = val n m0 F.thermCond c') →
      (∀ c, InMesh n c → (val n m F.rhoCp c).val = val n m0 F.rhoCp c) →
      (∀ c, InMesh n c → |val n m0 F.temperature c| ≤ B) →
      (∀ j p, (∀ c, InMesh n c → |val n p F.temperature c| ≤ B) → ∀ c, Outside n c → |val n (bc0 j p) F.temperature c| ≤ B) →
      (∀ c, InMesh n c → |(val n m F.temperature c).val - val n m0 F.temperature c| ≤ ε) →
      (∀ j p p0 δ, ε ≤ δ → (∀ c, InMesh n c → |(val n p F.temperature c).val - val n p0 F.temperature c| ≤ δ) →
        ∀ c, Outside n c → |(val n (bc j p) F.temperature c).val - val n (bc0 j p0) F.temperature c| ≤ δ) →
      ∀ N, ∃ m' m0', march h dt n F work work' bc N m = .ok m' ∧
        march (fun d => (h d).val) dt.val n F work work' bc0 N m0 = .ok m0' ∧
        ∀ c, InMesh n c → |(val n m' F.temperature c).val - val n m0' F.temperature c| ≤ ε + grow u (45 * N) * (B + ε) := by
  obtain ⟨F, hb, hC⟩ := C103_converges hf n hn h hh dt blk hs work work' hw hw'
  obtain ⟨F', hb', hB⟩ := C101_bounds n hn (fun d => (h d).val) hh dt.val blk hs work work' hw hw'
  obtain rfl := Outcome.ok.inj (hb.symm.trans hb')
  obtain ⟨F', hb', hF⟩ := build_ok hn blk
  obtain rfl := Outcome.ok.inj (hb.symm.trans hb')
  refine ⟨F, hb, fun m m0 bc bc0 B ε hbc hbc0 hst hk hr h0 hg i0 ig N => ?_⟩
  obtain ⟨ν, f0, g1, g2, -⟩ := march_ok hn (fun d => (h d).val) dt.val hs hF hw hw' hbc0 m0
  have bound : ∀ j, ∀ c, InMesh n c → |val n (ν j) F.temperature c| ≤ B := by
    intro j c hc
    obtain ⟨m', e, hm⟩ := hB m0 bc0 (-B) B hbc0 hst (fun c hc => abs_le.1 (h0 c hc))
      (fun j m1 hm c hc => abs_le.1 (hg j m1 (fun c hc => abs_le.2 (hm c hc)) c hc)) j
    obtain rfl := Outcome.ok.inj ((g1 j).symm.trans e)
    exact abs_le.2 (hm c hc)
  have er : ∀ {T : IntVec → K} {c}, InMesh n c → heatRhs n (fun d => (h d).val) T (fun c => (val n m F.thermCond c).val)
      (fun c => (val n m F.rhoCp c).val) c = heatRhs n (fun d => (h d).val) T (val n m0 F.thermCond) (val n m0 F.rhoCp) c := fun {T c} hc =>
    heatRhs_local (fun _ _ => rfl) (hk c · hc) (hr c hc)
  have hst' : Stable n (fun d => (h d).val) dt.val (fun c => (val n m F.thermCond c).val) (fun c => (val n m F.rhoCp c).val) := by
    refine ⟨hst.1, fun c hc => ?_⟩
    obtain ⟨a, b, d, e⟩ := hst.2 c hc
    refine ⟨a.trans_eq (hr c hc).symm, b.trans_eq (hk c c hc (.inl rfl)).symm, fun c' h' => (d c' h').trans_eq (hk c c' hc (.inr h')).symm, ?_⟩
    rw [rate_local (hk c · hc) (hr c hc)]
    exact e
  have U0 : ∀ j c, InMesh n c → val n (bc0 j (ν j)) F.temperature c = val n (ν j) F.temperature c := fun j c hc => (hbc0 j (ν j)).2 c hc
  obtain ⟨m', e, hm⟩ := hC m bc (fun j => val n (bc0 j (ν j)) F.temperature) B ε 0 N hbc hst' (le_refl _) (fun j _ c hc => by
      rw [er hc, U0 (j + 1) c hc, g2 j c hc]
      unfold euler
      simp) (fun j _ c hc => by
      rcases hc with hc | hc
      · rw [U0 j c hc]; exact bound j c hc
      · exact hg j (ν j) (bound j) c hc) (fun c hc => by rw [U0 0 c hc, f0]; exact i0 c hc)
    (fun j _ m1 δ hδ hm c hc => ig j m1 (ν j) δ hδ (fun c hc => by rw [← U0 j c hc]; exact hm c hc) c hc) N (le_refl _)
  refine ⟨m', ν N, e, g1 N, fun c hc => ?_⟩
  have := hm c hc
  rw [U0 N c hc] at this
  simpa using this

/-- C103 (uniform temperature). With any rounding that treats both signs alike, a uniform temperature that is a number of the format stays exactly as it is for any number of
steps, whatever the conductivity and the size of the time step, if the boundary conditions set the same temperature. -/
theorem _root_.SpatialOps.C103_uniform (hf : Format u rnd) (hodd : ∀ x, rnd (-x) = -rnd x) (n : IntVec) (hn : IntVec.Lt 0 n) (h : Dir → Fl rnd)
    (_hh : ∀ d, 1 < comp n d → (h d).val ≠ 0) (dt : Fl rnd)
    (blk : Nat → Nat) (hs : Separate blk) (work work' : Nat → Dir → Nat) (hw : ∀ k, Fresh blk (work k)) (hw' : ∀ k, Fresh blk (work' k)) :
    ∃ F, build n blk = .ok F ∧ ∀ (m : Mem (Fl rnd)) (bc : Nat → Mem (Fl rnd) → Mem (Fl rnd)) (v : Fl rnd), rnd v.val = v.val →
      OnlyGhosts n F bc → (∀ c, InMesh n c → (val n m F.rhoCp c).val ≠ 0) → (∀ c, InMesh n c → val n m F.temperature c = v) →
      (∀ j m1, (∀ c, InMesh n c → val n m1 F.temperature c = v) → ∀ c, Outside n c → val n (bc j m1) F.temperature c = v) →
      ∀ N, ∃ m', march h dt n F work work' bc N m = .ok m' ∧ ∀ c, InMesh n c → val n m' F.temperature c = v := by
  obtain ⟨F, hb, hF⟩ := build_ok hn blk
  refine ⟨F, hb, fun m bc v hv hbc _ h0 hg N => ?_⟩
  obtain ⟨μ, e0, h1, h2, -⟩ := march_gen hn h dt hs hF hw hw' hbc m
  refine ⟨μ N, h1 N, ?_⟩
  have hz : rnd 0 = 0 := by simpa using hf.close 0
  induction N with
  | zero => rw [e0]; exact h0
  | succ N ih =>
    intro c hc
    rw [h2 N c hc]
    have near : ∀ c', (c' = c ∨ Neighbour n c c') → val n (bc N (μ N)) F.temperature c' = v := by
      intro c' h'
      rcases near_cases hc h' with hm | ho
      · rw [(hbc N (μ N)).2 c' hm]
        exact ih c' hm
      · exact hg N (μ N) ih c' ho
    generalize val n (bc N (μ N)) F.temperature = T at near
    have fz : ∀ d c', T (c' - unit d) = v → T c' = v → (fluxOf h T (val n m F.thermCond) d c').val = 0 := by
      intro d c' a b
      unfold fluxOf
      rw [a, b]
      show rnd (-rnd (rnd (v.val * rnd (-1 / (h d).val)) + rnd (v.val * rnd (1 / (h d).val))) * _) = 0
      rw [neg_div, hodd, mul_neg, hodd, neg_add_cancel, hz, neg_zero, zero_mul, hz]
    have lz : ∀ d (r : Fl rnd), r.val = 0 → (lessFlow n h (fluxOf h T (val n m F.thermCond) d) (val n m F.rhoCp) d c r).val = 0 := by
      intro d r hr
      unfold lessFlow
      split
      · next hd =>
        have f1 := fz d c (near _ (.inr ⟨d, hd, .inr rfl⟩)) (near c (.inl rfl))
        have f2 := fz d (c + unit d) (by rw [add_sub']; exact near c (.inl rfl)) (near _ (.inr ⟨d, hd, .inl rfl⟩))
        show rnd (r.val - rnd (rnd (rnd ((fluxOf h T (val n m F.thermCond) d c).val * _) +
          rnd ((fluxOf h T (val n m F.thermCond) d (c + unit d)).val * _)) / _)) = 0
        rw [f1, f2, hr, zero_mul, zero_mul, hz, add_zero, hz, zero_div, hz, sub_zero, hz]
      · exact hr
    have rz : (rhsOf n h T (val n m F.thermCond) (val n m F.rhoCp) c).val = 0 := lz .z _ (lz .y _ (lz .x _ rfl))
    unfold eulerOf
    rw [near c (.inl rfl)]
    ext
    show rnd (v.val + rnd (dt.val * (rhsOf n h T (val n m F.thermCond) (val n m F.rhoCp) c).val)) = v.val
    rw [rz, mul_zero, hz, add_zero, hv]

end

/-! ## Against the solution of the differential equation -/

section

open Set Accuracy

/-- C103 (total error). As in C101 let `w t` be a solution of `ρ cp ∂w/∂t = ∇·(k ∇w)` with bounded derivatives and of size at most `B`, from which the program starts up to `ε` and to which its boundary
conditions set the temperature up to `ε`. With a time step within the limit the temperature that the program computes in floating point after `j` steps differs from the solution at time `j dt` by at most
`ε` plus the time passed times a bound of first order in `dt` and second order in the spacings, plus `45 j` roundings. -/
theorem _root_.SpatialOps.C103_order {u : ℝ} {rnd : ℝ → ℝ} (hf : Format u rnd) (n : IntVec) (hn : IntVec.Lt 0 n) (h : Dir → Fl rnd)
    (hh : ∀ d, 1 < comp n d → 0 < (h d).val) (dt : Fl rnd)
    (blk : Nat → Nat) (hs : Separate blk) (work work' : Nat → Dir → Nat) (hw : ∀ k, Fresh blk (work k)) (hw' : ∀ k, Fresh blk (work' k)) :
    ∃ F, build n blk = .ok F ∧ ∀ (m : Mem (Fl rnd)) (bc : Nat → Mem (Fl rnd) → Mem (Fl rnd)) (N : Nat) (lo hi : Dir → ℝ) (w wt wtt : ℝ → (Dir → ℝ) → ℝ)
      (k : (Dir → ℝ) → ℝ) (wD : ℝ → Dir → Nat → (Dir → ℝ) → ℝ) (kD : Dir → Nat → (Dir → ℝ) → ℝ) (M Kb : Dir → Nat → ℝ) (K0 M2 r0 ε B E : ℝ)
      (Q : ℝ → Dir → (Dir → ℝ) → ℝ) (at' : IntVec → Dir → ℝ),
      at' = position (fun d => (h d).val) .sVol →
      E = M2 * dt.val / 2 + active n (fun d => (h d).val ^ 2 * (K0 * M d 4 / 12 + Kb d 1 * M d 3 / 6 + Kb d 2 * M d 2 / 4 + Kb d 3 * M d 1 / 6)) / r0 →
      OnlyGhosts n F bc → Stable n (fun d => (h d).val) dt.val (fun c => (val n m F.thermCond c).val) (fun c => (val n m F.rhoCp c).val) →
      Centred n (fun d => (h d).val) lo hi (fun c => (val n m F.thermCond c).val) k →
      (∀ t ∈ Icc 0 (N * dt.val), ∀ d, 1 < comp n d → Smooth lo hi d 4 (w t) (wD t d) (M d)) →
      (∀ d, 1 < comp n d → Smooth lo hi d 3 k (kD d) (Kb d)) → (∀ p, Accuracy.InBox lo hi p → |k p| ≤ K0) →
      (∀ t ∈ Icc 0 (N * dt.val), ∀ d, 1 < comp n d → IsPartial lo hi d (fun p => k p * wD t d 1 p) (Q t d)) →
      (∀ c, InMesh n c → ∀ t ∈ Icc 0 (N * dt.val), HasDerivAt (fun t => w t (at' c)) (wt t (at' c)) t ∧
        HasDerivAt (fun t => wt t (at' c)) (wtt t (at' c)) t ∧ |wtt t (at' c)| ≤ M2 ∧
        (val n m F.rhoCp c).val * wt t (at' c) = active n (fun d => Q t d (at' c))) →
      0 < r0 → (∀ c, InMesh n c → r0 ≤ (val n m F.rhoCp c).val) →
      (∀ j < N, ∀ c, InMesh n c ∨ Outside n c → |w (j * dt.val) (at' c)| ≤ B) →
      (∀ c, InMesh n c → |(val n m F.temperature c).val - w 0 (at' c)| ≤ ε) →
      (∀ j < N, ∀ m1 c, Outside n c → |(val n (bc j m1) F.temperature c).val - w (j * dt.val) (at' c)| ≤ ε) →
      ∀ j ≤ N, ∃ m', march h dt n F work work' bc j m = .ok m' ∧
        ∀ c, InMesh n c → |(val n m' F.temperature c).val - w (j * dt.val) (at' c)| ≤
          ε + j * dt.val * E + grow u (45 * j) * (B + (ε + j * dt.val * E)) := by
  obtain ⟨F, hb, hC⟩ := C103_converges (K := ℝ) hf n hn h (fun d hd => (hh d hd).ne') dt blk hs work work' hw hw'
  refine ⟨F, hb, fun m bc N lo hi w wt wtt k wD kD M Kb K0 M2 r0 ε B E Q at' hat hE hbc hst hk su sk h0 hQ ht hr0 hr hB i0 ig j hj => ?_⟩
  subst hat
  obtain ⟨pos, res⟩ := order_residual hn hh hst.1 hk su sk h0 hQ ht hr0 hr
  rw [← hE] at pos res
  obtain ⟨m', h1, h2⟩ := hC m bc (fun i c => w (i * dt.val) (position (fun d => (h d).val) .sVol c)) B ε E N hbc hst pos res hB
    (fun c hc => by simpa using i0 c hc) (fun i hi' m1 δ hδ _ c hc => (ig i hi' m1 c hc).trans hδ) j hj
  exact ⟨m', h1, fun c hc => (h2 c hc).trans (le_of_eq (by ring))⟩

end

/-! ## Concrete cases -/

namespace HeatRoundEx

open MarchEx

/-- Numbers of `double`. -/
abbrev D := Fl (K := ℚ) (roundEven 53)

/-- The temperatures 1, 5, 1 of the other examples in `double`. -/
def hot : Mem D := fun b a => ⟨HeatEx.hot b a⟩

/-- The boundary conditions of insulated ends. -/
def copy (_ : Nat) (m : Mem D) : Mem D := ends (m 0 1) (m 0 3) m

/-- In `double` and in exact arithmetic with insulated ends, a spacing of 1 and a time step of 1/4: after `N` steps the temperatures are at most `45 N` roundings of 5 apart. -/
theorem insulated : ∃ F, build ⟨3, 1, 1⟩ (fun i => i) = .ok F ∧ ∀ N, ∃ m' m0',
    march (fun _ => (⟨1⟩ : D)) ⟨1 / 4⟩ ⟨3, 1, 1⟩ F (fun _ _ => 10) (fun _ _ => 10) copy N hot = .ok m' ∧
    march (fun _ => (1 : ℚ)) (1 / 4) ⟨3, 1, 1⟩ F (fun _ _ => 10) (fun _ _ => 10) mirror N HeatEx.hot = .ok m0' ∧
    ∀ c, InMesh ⟨3, 1, 1⟩ c → |(val ⟨3, 1, 1⟩ m' F.temperature c).val - val ⟨3, 1, 1⟩ m0' F.temperature c| ≤
      grow (2 ^ (-53 : Int)) (45 * N) * 5 := by
  obtain ⟨F, hb, hS⟩ := C103_steps (K := ℚ) (C77_nearest_even_is_format 53 (by decide)) ⟨3, 1, 1⟩ (by decide) (fun _ => ⟨1⟩) (fun _ _ => one_ne_zero) ⟨1 / 4⟩
    (fun i => i) HeatEx.sep (fun _ _ => 10) (fun _ _ => 10) (fun _ => HeatEx.fresh) (fun _ => HeatEx.fresh)
  obtain ⟨F'', hb'', hF⟩ := build_ok (n := ⟨3, 1, 1⟩) (by decide) fun i => i
  obtain rfl := Outcome.ok.inj (hb.symm.trans hb'')
  have one : ∀ (f : FieldObj) (i : Nat), i ≠ 0 → f.values = some i → ∀ c, val ⟨3, 1, 1⟩ HeatEx.hot f c = 1 := by
    intro f i hi hv c
    unfold val HeatEx.hot
    rw [hv, Option.getD_some, if_neg fun h => hi h.1]
  have rc := one F.rhoCp 2 (by decide) hF.rhoCp.target.mem
  have kc := one F.thermCond 1 (by decide) hF.thermCond.target.mem
  have og : OnlyGhosts ⟨3, 1, 1⟩ F mirror := only hF (fun _ m => m 0 1) fun _ m => m 0 3
  have og' : OnlyGhosts ⟨3, 1, 1⟩ F copy := only hF (fun _ m => m 0 1) fun _ m => m 0 3
  have inside : ∀ {c : IntVec}, Outside ⟨3, 1, 1⟩ c → c.x = -1 ∨ c.x = 3 := by
    intro c ⟨ho, c0, hc0, hn⟩
    rcases outside hc0 hn ho with ⟨-, h⟩ | ⟨-, h⟩
    · exact .inl h
    · exact .inr h
  have z : InMesh ⟨3, 1, 1⟩ ⟨0, 0, 0⟩ ∧ InMesh ⟨3, 1, 1⟩ ⟨2, 0, 0⟩ := by unfold InMesh; decide
  refine ⟨F, hb, fun N => ?_⟩
  have st : Stable ⟨3, 1, 1⟩ (fun _ => (1 : ℚ)) (1 / 4) (val ⟨3, 1, 1⟩ HeatEx.hot F.thermCond) (val ⟨3, 1, 1⟩ HeatEx.hot F.rhoCp) := by
    refine ⟨by norm_num, fun c _ => ⟨by rw [rc]; exact one_pos, by rw [kc]; exact zero_le_one, fun c' _ => by rw [kc]; exact zero_le_one, ?_⟩⟩
    unfold rate conducts conductance
    simp only [kc, rc]
    norm_num [comp]
  have b0 : ∀ c, InMesh ⟨3, 1, 1⟩ c → |val ⟨3, 1, 1⟩ HeatEx.hot F.temperature c| ≤ 5 := by
    intro c hc
    rw [addr hF]
    unfold HeatEx.hot
    split <;> norm_num
  have bg : ∀ (j : Nat) p, (∀ c, InMesh ⟨3, 1, 1⟩ c → |val ⟨3, 1, 1⟩ p F.temperature c| ≤ 5) → ∀ c, Outside ⟨3, 1, 1⟩ c →
      |val ⟨3, 1, 1⟩ (mirror j p) F.temperature c| ≤ 5 := by
    intro j p hp c hc
    have p0 := hp _ z.1
    have p2 := hp _ z.2
    rw [addr hF] at p0 p2 ⊢
    rcases inside hc with h | h <;> rw [h]
    · simpa [mirror, ends] using p0
    · simpa [mirror, ends] using p2
  obtain ⟨m', m0', h1, h2, h3⟩ := hS hot HeatEx.hot copy mirror 5 0 og' og st (fun _ _ _ _ => rfl) (fun _ _ => rfl) b0 bg
    (fun c _ => by rw [show (val ⟨3, 1, 1⟩ hot F.temperature c).val = val ⟨3, 1, 1⟩ HeatEx.hot F.temperature c from rfl, sub_self, abs_zero])
    (fun j p p0 δ _ hp c hc => by
      have q0 := hp _ z.1
      have q2 := hp _ z.2
      rw [addr hF, addr hF] at q0 q2 ⊢
      rcases inside hc with h | h <;> rw [h]
      · simpa [mirror, copy, ends] using q0
      · simpa [mirror, copy, ends] using q2) N
  exact ⟨m', m0', h1, h2, fun c hc => by simpa using h3 c hc⟩

/-- The rounding of `double` treats both signs alike, so that a temperature of 1/2 with 1/2 at the ends stays 1/2. -/
example : ∃ F, build ⟨3, 1, 1⟩ (fun i => i) = .ok F ∧ ∀ N, ∃ m',
    march (fun _ => (⟨1⟩ : D)) ⟨3⟩ ⟨3, 1, 1⟩ F (fun _ _ => 10) (fun _ _ => 10) (fun _ => ends ⟨1 / 2⟩ ⟨1 / 2⟩) N (fun _ _ => ⟨1 / 2⟩) = .ok m' ∧
    ∀ c, InMesh ⟨3, 1, 1⟩ c → val ⟨3, 1, 1⟩ m' F.temperature c = ⟨1 / 2⟩ := by
  have hf := C77_nearest_even_is_format (K := ℚ) 53 (by decide)
  obtain ⟨F, hb, hS⟩ := C103_uniform (K := ℚ) hf (roundEven_neg 53) ⟨3, 1, 1⟩ (by decide) (fun _ => ⟨1⟩) (fun _ _ => one_ne_zero) ⟨3⟩
    (fun i => i) HeatEx.sep (fun _ _ => 10) (fun _ _ => 10) (fun _ => HeatEx.fresh) (fun _ => HeatEx.fresh)
  obtain ⟨F'', hb'', hF⟩ := build_ok (n := ⟨3, 1, 1⟩) (by decide) fun i => i
  obtain rfl := Outcome.ok.inj (hb.symm.trans hb'')
  refine ⟨F, hb, fun N => hS _ _ ⟨1 / 2⟩ hf.half (only hF (fun _ _ => ⟨1 / 2⟩) fun _ _ => ⟨1 / 2⟩) (fun c _ => ?_) (fun c _ => rfl) ?_ N⟩
  · show (1 / 2 : ℚ) ≠ 0
    norm_num
  · intro j m1 hm c ⟨ho, c0, hc0, hn⟩
    rw [addr hF]
    rcases outside hc0 hn ho with ⟨-, h⟩ | ⟨-, h⟩ <;> rw [h] <;> simp [ends]

/-- Numbers of `double` as real numbers. -/
abbrev R := Fl (K := ℝ) (roundEven 53)

open Accuracy in
/-- The solution `x⁴ + 12 t x² + 12 t²` of the heat equation, with its values set at both ends and a time step of 1/4, in `double`: the temperature
after up to four steps differs from it by at most 5 times the time passed plus `45 j` roundings of 480. -/
theorem quartic : ∃ F, build ⟨3, 1, 1⟩ (fun i => i) = .ok F ∧ ∃ bc, OnlyGhosts ⟨3, 1, 1⟩ F bc ∧ ∀ j ≤ 4,
    ∃ m', march (fun _ => (⟨1⟩ : R)) ⟨1 / 4⟩ ⟨3, 1, 1⟩ F (fun _ _ => 10) (fun _ _ => 10) bc j (fun b a => ⟨HeatErrEx.quartic b a⟩) = .ok m' ∧
      ∀ c, InMesh ⟨3, 1, 1⟩ c → |(val ⟨3, 1, 1⟩ m' F.temperature c).val -
        (((c.x : ℝ) + 1 / 2) ^ 4 + 12 * ((j : ℝ) / 4) * ((c.x : ℝ) + 1 / 2) ^ 2 + 12 * ((j : ℝ) / 4) ^ 2)| ≤
          (j : ℝ) / 4 * 5 + grow (2 ^ (-53 : Int)) (45 * j) * 480 := by
  obtain ⟨F, hb, hm⟩ := C103_order (C77_nearest_even_is_format 53 (by decide)) ⟨3, 1, 1⟩ (by decide) (fun _ => ⟨1⟩) (fun _ _ => one_pos) ⟨1 / 4⟩ (fun i => i) HeatEx.sep
    (fun _ _ => 10) (fun _ _ => 10) (fun _ => HeatEx.fresh) (fun _ => HeatEx.fresh)
  obtain ⟨F'', hb'', hF⟩ := build_ok (n := ⟨3, 1, 1⟩) (by decide) fun i => i
  obtain rfl := Outcome.ok.inj (hb.symm.trans hb'')
  obtain ⟨vT', vk', vr'⟩ := HeatErrEx.values hF
  have vT : ∀ c, (val ⟨3, 1, 1⟩ (fun b a => (⟨HeatErrEx.quartic b a⟩ : R)) F.temperature c).val = _ := vT'
  have vk : ∀ c, (val ⟨3, 1, 1⟩ (fun b a => (⟨HeatErrEx.quartic b a⟩ : R)) F.thermCond c).val = 1 := vk'
  have vr : ∀ c, (val ⟨3, 1, 1⟩ (fun b a => (⟨HeatErrEx.quartic b a⟩ : R)) F.rhoCp c).val = 1 := vr'
  have og : OnlyGhosts ⟨3, 1, 1⟩ F (fun j m => ends (⟨(1 / 2 : ℝ) ^ 4 + 12 * ((j : ℝ) / 4) * (1 / 2) ^ 2 + 12 * ((j : ℝ) / 4) ^ 2⟩ : R)
    ⟨(7 / 2) ^ 4 + 12 * ((j : ℝ) / 4) * (7 / 2) ^ 2 + 12 * ((j : ℝ) / 4) ^ 2⟩ m) := only hF (fun _ _ => _) fun _ _ => _
  have box : ∀ c c', InMesh ⟨3, 1, 1⟩ c → (c' = c ∨ Neighbour ⟨3, 1, 1⟩ c c') →
      Accuracy.InBox (fun _ => -4) (fun _ => 4) (position (fun _ => 1) .sVol c') := by
    intro c c' hc hc' d
    obtain ⟨b1, b2, b3, b4⟩ := HeatErrEx.mesh hc hc'
    have b1' : (-1 : ℝ) ≤ (c'.x : ℝ) := by exact_mod_cast b1
    have b2' : (c'.x : ℝ) ≤ 3 := by exact_mod_cast b2
    cases d <;> simp [position, staggered, comp, b3, b4] <;> constructor <;> linarith
  have onlyx : ∀ d, 1 < comp ⟨3, 1, 1⟩ d → d = .x := by
    intro d hd
    cases d <;> first | rfl | exact absurd hd (by decide)
  have px : ∀ c : IntVec, position (fun _ => (1 : ℝ)) .sVol c .x = (c.x : ℝ) + 1 / 2 := fun c => by simp [position, staggered, comp]
  have pw : ∀ (a b c : ℝ) (i j : Nat), IsPartial (fun _ => -4) (fun _ => 4) .x (fun p => a * p .x ^ (i + 1) + b * p .x ^ (j + 1) + c)
      (fun p => a * (((i + 1 : ℕ) : ℝ) * p .x ^ i) + b * (((j + 1 : ℕ) : ℝ) * p .x ^ j)) := by
    intro a b c i j p _
    have := (((hasDerivAt_pow (i + 1) (p .x)).const_mul a).add ((hasDerivAt_pow (j + 1) (p .x)).const_mul b)).add_const c
    simpa using this
  refine ⟨F, hb, _, og, fun j hj => ?_⟩
  obtain ⟨m', h1, h2⟩ := hm (fun b a => ⟨HeatErrEx.quartic b a⟩) _ 4 (fun _ => -4) (fun _ => 4) (fun t p => p .x ^ 4 + 12 * t * p .x ^ 2 + 12 * t ^ 2)
    (fun t p => 12 * p .x ^ 2 + 24 * t) (fun _ _ => 24) (fun _ => 1)
    (fun t _ => uD t)
    (fun _ => fun | 0 => fun _ => 1 | _ => fun _ => 0) (fun _ => fun | 1 => 352 | 2 => 216 | 3 => 96 | _ => 24) (fun _ _ => 0) 1 24 1 0 460 5
    (fun t _ p => 12 * p .x ^ 2 + 24 * t) (position (fun _ => 1) .sVol) rfl (by norm_num [active, comp]) og
    ⟨by norm_num, fun c _ => ⟨one_pos.trans_eq (vr c).symm, zero_le_one.trans_eq (vk c).symm, fun c' _ => zero_le_one.trans_eq (vk c').symm, by
      unfold rate conducts conductance
      simp only [vk, vr]
      norm_num [comp]⟩⟩
    (fun c c' hc hc' => ⟨box c c' hc hc', vk c'⟩)
    (fun t ht d hd => by
      rw [onlyx d hd]
      have t0 := ht.1
      have t1 : t ≤ 1 := by have := ht.2; norm_num at this; exact this
      refine ⟨rfl, fun i hi => ?_, fun i h1 h4 p hp => ?_⟩
      · match i, hi with
        | 0, _ => have := pw 1 (12 * t) (12 * t ^ 2) 3 1; intro p hp; simpa [uD] using (this p hp).congr_deriv (g' := 4 * p .x ^ 3 + 24 * t * p .x) (by push_cast; ring)
        | 1, _ => have := pw 4 (24 * t) 0 2 0; intro p hp; simpa [uD] using (this p hp).congr_deriv (g' := 12 * p .x ^ 2 + 24 * t) (by push_cast; ring)
        | 2, _ => have := pw 12 0 (24 * t) 1 0; intro p hp; simpa [uD] using (this p hp).congr_deriv (g' := 24 * p .x) (by push_cast; ring)
        | 3, _ => have := pw 24 0 0 0 0; intro p hp; simpa [uD] using this p hp
      · have b := abs_le.2 (hp .x)
        have b0 := abs_nonneg (p .x)
        match i, h1, h4 with
        | 1, _, _ =>
          show |4 * p .x ^ 3 + 24 * t * p .x| ≤ 352
          refine (abs_add_le _ _).trans ?_
          rw [abs_mul, abs_pow, abs_mul, abs_of_pos (by norm_num), abs_of_nonneg (by linarith : 0 ≤ 24 * t)]
          have : |p .x| ^ 3 ≤ 4 ^ 3 := pow_le_pow_left₀ b0 b 3
          nlinarith
        | 2, _, _ =>
          show |12 * p .x ^ 2 + 24 * t| ≤ 216
          refine (abs_add_le _ _).trans ?_
          rw [abs_mul, abs_pow, abs_of_pos (by norm_num), abs_of_nonneg (by linarith : 0 ≤ 24 * t)]
          have : |p .x| ^ 2 ≤ 4 ^ 2 := pow_le_pow_left₀ b0 b 2
          linarith
        | 3, _, _ =>
          show |24 * p .x| ≤ 96
          rw [abs_mul, abs_of_pos (by norm_num)]
          linarith
        | 4, _, _ =>
          show |(24 : ℝ)| ≤ 24
          norm_num)
    (fun d hd => ⟨rfl, fun i _ => by
      match i with
      | 0 => exact fun p _ => hasDerivAt_const _ _
      | i + 1 => exact fun p _ => hasDerivAt_const _ _, fun i h1 _ p _ => by
      match i, h1 with
      | i + 1, _ => simp⟩)
    (fun _ _ => by simp)
    (fun t _ d hd => by
      rw [onlyx d hd]
      have := pw 4 (24 * t) 0 2 0
      intro p hp
      simpa [uD] using (this p hp).congr_deriv (g' := 12 * p .x ^ 2 + 24 * t) (by push_cast; ring))
    (fun c _ t _ => by
      generalize position (fun _ => (1 : ℝ)) .sVol c .x = x
      refine ⟨?_, ?_, by norm_num, ?_⟩
      · have := (((hasDerivAt_id t).const_mul 12).mul_const (x ^ 2)).const_add (x ^ 4) |>.add ((hasDerivAt_pow 2 t).const_mul 12)
        exact this.congr_deriv (by push_cast; simp; ring)
      · have := ((hasDerivAt_id t).const_mul 24).const_add (12 * x ^ 2)
        simpa using this
      · rw [vr, one_mul]
        simp [active, comp])
    one_pos (fun c _ => by rw [vr])
    (fun j hj c hc => by
      have hj' : (j : ℝ) ≤ 4 := by exact_mod_cast hj.le
      have j0 : (0 : ℝ) ≤ j := Nat.cast_nonneg j
      have hx : |position (fun _ => (1 : ℝ)) .sVol c .x| ≤ 4 := by
        rcases hc with hc | ⟨-, c0, hc0, hn⟩
        · exact abs_le.2 (box c c hc (.inl rfl) .x)
        · exact abs_le.2 (box c0 c hc0 (.inr hn) .x)
      generalize position (fun _ => (1 : ℝ)) .sVol c .x = x at hx
      have x2 : x ^ 2 ≤ 16 := by nlinarith [abs_le.1 hx]
      have x4 : x ^ 4 ≤ 256 := by nlinarith [sq_nonneg x]
      dsimp only
      have t1 : (j : ℝ) * (1 / 4) ≤ 1 := by linarith
      have t0 : 0 ≤ (j : ℝ) * (1 / 4) := by linarith
      generalize (j : ℝ) * (1 / 4) = t at t0 t1
      rw [abs_of_nonneg (by positivity)]
      nlinarith [sq_nonneg x, mul_nonneg t0 (sq_nonneg x)])
    (fun c _ => by rw [vT]; simp)
    (fun j _ m1 c' ho => by
      obtain ⟨ho, c, hc, hn⟩ := ho
      rw [addr hF, px]
      rcases outside hc hn ho with ⟨h1, h2⟩ | ⟨h1, h2⟩ <;> rw [h2] <;> simp [ends] <;> ring_nf)
    j hj
  refine ⟨m', h1, fun c hc => ?_⟩
  have := h2 c hc
  have g0 := grow_nonneg (u := ((2 : ℝ) ^ (-(53 : Int)))) (by positivity) (45 * j)
  have hj' : (j : ℝ) ≤ 4 := by exact_mod_cast hj
  simp only [px] at this
  have e1 : (j : ℝ) * (1 / 4) = j / 4 := by ring
  rw [e1] at this
  refine this.trans ?_
  have : grow ((2 : ℝ) ^ (-(53 : Int))) (45 * j) * (460 + (0 + (j : ℝ) / 4 * 5)) ≤ grow ((2 : ℝ) ^ (-(53 : Int))) (45 * j) * 480 :=
    mul_le_mul_of_nonneg_left (by linarith) g0
  linarith

end HeatRoundEx
end Heat
end SpatialOps
