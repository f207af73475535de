import Verif.March.Lemmas
import Verif.HeatErr.Lemmas
import Verif.HeatErr.Props
import Verif.Heat.Props
import Mathlib.Algebra.Order.BigOperators.Group.Finset

/-!
# C101: explicit time steps for the heat equation
-/

namespace SpatialOps
namespace Heat

open Nebo Stencil

variable {n : IntVec}

section
variable {K : Type} [Field K]

/-- C101 (every step). With any boundary conditions the program can be run for any number of steps, and each step changes the
temperature of each cell by `dt ∇·(k ∇T)/(ρ cp)` in finite-volume form, computed from the temperatures after the boundary conditions of that step;
conductivity and `ρ cp` stay as they were. -/
theorem _root_.SpatialOps.C101_step [CharZero K] (n : IntVec) (hn : IntVec.Lt 0 n) (h : Dir → K) (_hh : ∀ d, 1 < comp n d → h d ≠ 0) (dt : K)
    (blk : Nat → Nat) (hs : Separate blk) (work work' : Nat → Dir → Nat) (hw : ∀ k, Fresh blk (work k)) (hw' : ∀ k, Fresh blk (work' k)) :
    ∃ F, build n blk = .ok F ∧ ∀ (m : Mem K) (bc : Nat → Mem K → Mem K), OnlyGhosts n F bc → (∀ c, InMesh n c → val n m F.rhoCp c ≠ 0) →
      ∀ j, ∃ m1 m2, march h dt n F work work' bc j m = .ok m1 ∧ march h dt n F work work' bc (j + 1) m = .ok m2 ∧
        (∀ c, InMesh n c → val n m2 F.temperature c = val n m1 F.temperature c +
          dt * heatRhs n h (val n (bc j m1) F.temperature) (val n m F.thermCond) (val n m F.rhoCp) c) ∧
        ∀ c, val n m2 F.thermCond c = val n m F.thermCond c ∧ val n m2 F.rhoCp c = val n m F.rhoCp c := by
  obtain ⟨F, hb, hF⟩ := build_ok hn blk
  refine ⟨F, hb, fun m bc hbc _ j => ?_⟩
  obtain ⟨μ, -, h1, h2, h3⟩ := march_ok hn h dt hs hF hw hw' hbc m
  refine ⟨μ j, μ (j + 1), h1 j, h1 (j + 1), fun c hc => ?_, h3 (j + 1)⟩
  rw [h2 j c hc, ← (hbc j (μ j)).2 c hc]
  rfl

/-- C101 (heat balance). In each step the heat in the mesh changes by what flows in through the boundary less what flows out, times the
time step. -/
theorem _root_.SpatialOps.C101_heat [CharZero K] (n : IntVec) (hn : IntVec.Lt 0 n) (h : Dir → K) (hh : ∀ d, 1 < comp n d → h d ≠ 0) (dt : K)
    (blk : Nat → Nat) (hs : Separate blk) (work work' : Nat → Dir → Nat) (hw : ∀ k, Fresh blk (work k)) (hw' : ∀ k, Fresh blk (work' k)) :
    ∃ F, build n blk = .ok F ∧ ∀ (m : Mem K) (bc : Nat → Mem K → Mem K), OnlyGhosts n F bc → (∀ c, InMesh n c → val n m F.rhoCp c ≠ 0) →
      ∀ j, ∃ m1 m2, march h dt n F work work' bc j m = .ok m1 ∧ march h dt n F work work' bc (j + 1) m = .ok m2 ∧
        heat n m2 F = heat n m1 F + dt * (netInflow n h (val n (bc j m1) F.temperature) (val n m F.thermCond) .x +
          netInflow n h (val n (bc j m1) F.temperature) (val n m F.thermCond) .y +
          netInflow n h (val n (bc j m1) F.temperature) (val n m F.thermCond) .z) := by
  obtain ⟨F, hb, hF⟩ := build_ok hn blk
  refine ⟨F, hb, fun m bc hbc hr j => ?_⟩
  obtain ⟨μ, -, h1, h2, h3⟩ := march_ok hn h dt hs hF hw hw' hbc m
  refine ⟨μ j, μ (j + 1), h1 j, h1 (j + 1), ?_⟩
  obtain ⟨b1, b2⟩ := bc_frame hs hF hbc j (μ j)
  have e1 : val n (bc j (μ j)) F.thermCond = val n m F.thermCond := funext fun c => (b1 c).trans (h3 j c).1
  have e2 : val n (bc j (μ j)) F.rhoCp = val n m F.rhoCp := funext fun c => (b2 c).trans (h3 j c).2
  obtain ⟨F', hb', hE⟩ := C73_energy (K := K) n hn h hh blk hs (work 0) (work' 0) (hw 0) (hw' 0)
  obtain rfl := Outcome.ok.inj (hb.symm.trans hb')
  obtain ⟨m', s1, s2⟩ := hE (bc j (μ j)) (by rw [e2]; exact hr)
  obtain ⟨m'', t1, t2, -⟩ := step_ok hn h hs hF (hw 0) (hw' 0) (bc j (μ j))
  obtain rfl := Outcome.ok.inj (s1.symm.trans t1)
  rw [e1, e2] at s2 t2
  rw [← s2]
  unfold heat
  rw [mul_comm dt, ← blockSum_mul, ← blockSum_add]
  refine blockSum_congr fun c hc => ?_
  have hm : InMesh n c := ⟨hc.1, by have := hc.2; iv_omega⟩
  rw [h2 j c hm, t2 c hm, (h3 j c).2, (h3 (j + 1) c).2, ← (hbc j (μ j)).2 c hm]
  unfold euler
  ring

end

section
variable {K : Type} [Field K] [LinearOrder K] [IsStrictOrderedRing K]

/-- The cells of the mesh and those next to it. -/
theorem near_cases {n c c' : IntVec} (hc : InMesh n c) (h : c' = c ∨ Neighbour n c c') : InMesh n c' ∨ Outside n c' := by
  rcases h with rfl | h
  · exact .inl hc
  · by_cases hm : InMesh n c'
    · exact .inl hm
    · exact .inr ⟨hm, c, hc, h⟩

/-- C101 (bounds). With a time step within the limit, the temperature stays for any number of steps between any bounds that hold of the
initial temperature in the mesh and that the boundary conditions respect. The boundary conditions may depend on time and on the temperature, and
need respect the bounds only as long as they hold in the mesh. -/
theorem _root_.SpatialOps.C101_bounds (n : IntVec) (hn : IntVec.Lt 0 n) (h : Dir → K) (_hh : ∀ d, 1 < comp n d → h d ≠ 0) (dt : K)
    (blk : Nat → Nat) (hs : Separate blk) (work work' : Nat → Dir → Nat) (hw : ∀ k, Fresh blk (work k)) (hw' : ∀ k, Fresh blk (work' k)) :
    ∃ F, build n blk = .ok F ∧ ∀ (m : Mem K) (bc : Nat → Mem K → Mem K) (lo hi : K), OnlyGhosts n F bc →
      Stable n h dt (val n m F.thermCond) (val n m F.rhoCp) →
      (∀ c, InMesh n c → lo ≤ val n m F.temperature c ∧ val n m F.temperature c ≤ hi) →
      (∀ j m1, (∀ c, InMesh n c → lo ≤ val n m1 F.temperature c ∧ val n m1 F.temperature c ≤ hi) →
        ∀ c, Outside n c → lo ≤ val n (bc j m1) F.temperature c ∧ val n (bc j m1) F.temperature c ≤ hi) →
      ∀ N, ∃ m', march h dt n F work work' bc N m = .ok m' ∧
        ∀ c, InMesh n c → lo ≤ val n m' F.temperature c ∧ val n m' F.temperature c ≤ hi := by
  obtain ⟨F, hb, hF⟩ := build_ok hn blk
  refine ⟨F, hb, fun m bc lo hi hbc hst h0 hg N => ?_⟩
  obtain ⟨μ, e0, h1, h2, -⟩ := march_ok hn h dt hs hF hw hw' hbc m
  refine ⟨μ N, h1 N, ?_⟩
  induction N with
  | zero => rw [e0]; exact h0
  | succ N ih =>
    intro c hc
    rw [h2 N c hc]
    have near : ∀ c', (c' = c ∨ Neighbour n c c') →
        lo ≤ val n (bc N (μ N)) F.temperature c' ∧ val n (bc N (μ N)) F.temperature c' ≤ hi := by
      intro c' h'
      rcases near_cases hc h' with hm | ho
      · rw [(hbc N (μ N)).2 c' hm]
        exact ih c' hm
      · exact hg N (μ N) ih c' ho
    generalize val n (bc N (μ N)) F.temperature = T at near
    constructor
    · have := euler_nonneg (T := fun c => -lo + 1 * T c + 0 * T c) hst hc fun c' h' => by linarith [(near c' h').1]
      unfold euler at this ⊢
      rw [heatRhs_combine] at this
      linarith
    · have := euler_nonneg (T := fun c => hi + (-1) * T c + 0 * T c) hst hc fun c' h' => by linarith [(near c' h').2]
      unfold euler at this ⊢
      rw [heatRhs_combine] at this
      linarith

/-- C101 (the limit is sharp). From temperature 1 in a cell and 0 in its neighbours, one step leaves `1 - dt rate` in the cell:
beyond the limit the temperature falls below every value that occurred. -/
theorem _root_.SpatialOps.C101_limit (n : IntVec) (hn : IntVec.Lt 0 n) (h : Dir → K) (_hh : ∀ d, 1 < comp n d → h d ≠ 0) (dt : K)
    (blk : Nat → Nat) (hs : Separate blk) (work work' : Nat → Dir → Nat) (hw : ∀ k, Fresh blk (work k)) (hw' : ∀ k, Fresh blk (work' k)) :
    ∃ F, build n blk = .ok F ∧ ∀ (m : Mem K) (bc : Nat → Mem K → Mem K) (c : IntVec), OnlyGhosts n F bc → InMesh n c →
      val n m F.rhoCp c ≠ 0 → val n m F.temperature c = 1 → (∀ c', Neighbour n c c' → val n (bc 0 m) F.temperature c' = 0) →
      ∃ m', march h dt n F work work' bc 1 m = .ok m' ∧
        val n m' F.temperature c = 1 - dt * rate n h (val n m F.thermCond) (val n m F.rhoCp) c ∧
        (1 < dt * rate n h (val n m F.thermCond) (val n m F.rhoCp) c → val n m' F.temperature c < 0) := by
  obtain ⟨F, hb, hF⟩ := build_ok hn blk
  refine ⟨F, hb, fun m bc c hbc hc _ hT hN => ?_⟩
  obtain ⟨μ, e0, h1, h2, -⟩ := march_ok hn h dt hs hF hw hw' hbc m
  have e : val n (μ 1) F.temperature c = 1 - dt * rate n h (val n m F.thermCond) (val n m F.rhoCp) c := by
    rw [h2 0 c hc, e0]
    have hT' : val n (bc 0 m) F.temperature c = 1 := by rw [(hbc 0 m).2 c hc, hT]
    have ho : ∀ d, -outflow n h (val n (bc 0 m) F.temperature) (val n m F.thermCond) c d = -conducts n h (val n m F.thermCond) c d := by
      intro d
      rw [outflow_eq]
      unfold conducts
      split
      · next hd =>
        rw [hT', hN _ ⟨d, hd, .inl rfl⟩, hN _ ⟨d, hd, .inr rfl⟩]
        ring
      · exact neg_zero.symm
    unfold euler heatRhs rate
    rw [hT', neg_inj.1 (ho .x), neg_inj.1 (ho .y), neg_inj.1 (ho .z)]
    ring
  exact ⟨μ 1, h1 1, e, fun hl => by rw [e]; linarith⟩

/-- C101 (perturbations do not grow). Two runs with the same conductivity, `ρ cp` and time step within the limit, that start at most `δ` apart and whose boundary conditions
set values at most `δ` apart, as long as those in the mesh are, stay at most `δ` apart for any number of steps. -/
theorem _root_.SpatialOps.C101_stable (n : IntVec) (hn : IntVec.Lt 0 n) (h : Dir → K) (_hh : ∀ d, 1 < comp n d → h d ≠ 0) (dt : K)
    (blk : Nat → Nat) (hs : Separate blk) (work work' : Nat → Dir → Nat) (hw : ∀ k, Fresh blk (work k)) (hw' : ∀ k, Fresh blk (work' k)) :
    ∃ F, build n blk = .ok F ∧ ∀ (m1 m2 : Mem K) (bc1 bc2 : Nat → Mem K → Mem K) (δ : K), OnlyGhosts n F bc1 → OnlyGhosts n F bc2 →
      Stable n h dt (val n m1 F.thermCond) (val n m1 F.rhoCp) →
      (∀ c c', InMesh n c → (c' = c ∨ Neighbour n c c') → val n m2 F.thermCond c' = val n m1 F.thermCond c') →
      (∀ c, InMesh n c → val n m2 F.rhoCp c = val n m1 F.rhoCp c) →
      (∀ c, InMesh n c → |val n m1 F.temperature c - val n m2 F.temperature c| ≤ δ) →
      (∀ j p1 p2, (∀ c, InMesh n c → |val n p1 F.temperature c - val n p2 F.temperature c| ≤ δ) →
        ∀ c, Outside n c → |val n (bc1 j p1) F.temperature c - val n (bc2 j p2) F.temperature c| ≤ δ) →
      ∀ N, ∃ m1' m2', march h dt n F work work' bc1 N m1 = .ok m1' ∧ march h dt n F work work' bc2 N m2 = .ok m2' ∧
        ∀ c, InMesh n c → |val n m1' F.temperature c - val n m2' F.temperature c| ≤ δ := by
  obtain ⟨F, hb, hF⟩ := build_ok hn blk
  refine ⟨F, hb, fun m1 m2 bc1 bc2 δ hbc1 hbc2 hst hk hr h0 hg N => ?_⟩
  obtain ⟨μ, e0, h1, h2, -⟩ := march_ok hn h dt hs hF hw hw' hbc1 m1
  obtain ⟨ν, f0, g1, g2, -⟩ := march_ok hn h dt hs hF hw hw' hbc2 m2
  refine ⟨μ N, ν N, h1 N, g1 N, ?_⟩
  induction N with
  | zero => rw [e0, f0]; exact h0
  | succ N ih =>
    intro c hc
    rw [h2 N c hc, g2 N c hc]
    have near : ∀ c', (c' = c ∨ Neighbour n c c') →
        |val n (bc1 N (μ N)) F.temperature c' - val n (bc2 N (ν N)) F.temperature c'| ≤ δ := by
      intro c' h'
      rcases near_cases hc h' with hm | ho
      · rw [(hbc1 N (μ N)).2 c' hm, (hbc2 N (ν N)).2 c' hm]
        exact ih c' hm
      · exact hg N (μ N) (ν N) ih c' ho
    generalize val n (bc1 N (μ N)) F.temperature = T at near
    generalize val n (bc2 N (ν N)) F.temperature = U at near
    have eU : euler n h dt U (val n m2 F.thermCond) (val n m2 F.rhoCp) c = euler n h dt U (val n m1 F.thermCond) (val n m1 F.rhoCp) c := by
      unfold euler
      rw [heatRhs_local (fun _ _ => rfl) (hk c · hc) (hr c hc)]
    rw [eU, abs_le]
    constructor
    · have := euler_nonneg (T := fun c => δ + 1 * T c + (-1) * U c) hst hc fun c' h' => by linarith [(abs_le.1 (near c' h')).1]
      unfold euler at this ⊢
      rw [heatRhs_combine] at this
      linarith
    · have := euler_nonneg (T := fun c => δ + (-1) * T c + 1 * U c) hst hc fun c' h' => by linarith [(abs_le.1 (near c' h')).2]
      unfold euler at this ⊢
      rw [heatRhs_combine] at this
      linarith

/-- C101 (convergence). If given values `U j` satisfy the equations of the steps up to `dt τ`, start within `ε` of the temperature and the
boundary conditions set values within `ε` of them, then with a time step within the limit the temperature after `j` steps is within
`ε + j dt τ` of them. -/
theorem _root_.SpatialOps.C101_converges (n : IntVec) (hn : IntVec.Lt 0 n) (h : Dir → K) (_hh : ∀ d, 1 < comp n d → h d ≠ 0) (dt : K)
    (blk : Nat → Nat) (hs : Separate blk) (work work' : Nat → Dir → Nat) (hw : ∀ k, Fresh blk (work k)) (hw' : ∀ k, Fresh blk (work' k)) :
    ∃ F, build n blk = .ok F ∧ ∀ (m : Mem K) (bc : Nat → Mem K → Mem K) (U : Nat → IntVec → K) (ε τ : K) (N : Nat), OnlyGhosts n F bc →
      Stable n h dt (val n m F.thermCond) (val n m F.rhoCp) → 0 ≤ τ →
      (∀ j < N, ∀ c, InMesh n c →
        |U (j + 1) c - (U j c + dt * heatRhs n h (U j) (val n m F.thermCond) (val n m F.rhoCp) c)| ≤ dt * τ) →
      (∀ c, InMesh n c → |val n m F.temperature c - U 0 c| ≤ ε) →
      (∀ j < N, ∀ m1 c, Outside n c → |val n (bc j m1) F.temperature c - U j c| ≤ ε) →
      ∀ j ≤ N, ∃ m', march h dt n F work work' bc j m = .ok m' ∧
        ∀ c, InMesh n c → |val n m' F.temperature c - U j c| ≤ ε + j * (dt * τ) := by
  obtain ⟨F, hb, hF⟩ := build_ok hn blk
  refine ⟨F, hb, fun m bc U ε τ N hbc hst hτ hU h0 hg j hj => ?_⟩
  obtain ⟨μ, e0, h1, h2, -⟩ := march_ok hn h dt hs hF hw hw' hbc m
  refine ⟨μ j, h1 j, ?_⟩
  induction j with
  | zero =>
    rw [e0]
    simpa using h0
  | succ j ih =>
    intro c hc
    have ih := ih (by omega)
    have hx : 0 ≤ (j : K) * (dt * τ) := mul_nonneg (Nat.cast_nonneg j) (mul_nonneg hst.1 hτ)
    have near : ∀ c', (c' = c ∨ Neighbour n c c') → |val n (bc j (μ j)) F.temperature c' - U j c'| ≤ ε + j * (dt * τ) := by
      intro c' h'
      rcases near_cases hc h' with hm | ho
      · rw [(hbc j (μ j)).2 c' hm]
        exact ih c' hm
      · exact (hg j (by omega) (μ j) c' ho).trans (by linarith)
    rw [h2 j c hc]
    have hr := hU j (by omega) c hc
    generalize val n (bc j (μ j)) F.temperature = T at near
    generalize hδ : ε + (j : K) * (dt * τ) = δ at near
    have e : ε + ((j + 1 : Nat) : K) * (dt * τ) = δ + dt * τ := by
      push_cast
      rw [← hδ]
      ring
    rw [e]
    rw [abs_le] at hr ⊢
    have a := euler_nonneg (T := fun c => δ + 1 * T c + (-1) * U j c) hst hc fun c' h' => by linarith [(abs_le.1 (near c' h')).1]
    have b := euler_nonneg (T := fun c => δ + (-1) * T c + 1 * U j c) hst hc fun c' h' => by linarith [(abs_le.1 (near c' h')).2]
    unfold euler at a b ⊢
    rw [heatRhs_combine] at a b
    constructor <;> linarith [hr.1, hr.2]

end

section
variable {K : Type} [Field K]

/-- Nothing flows in across a direction at whose ends the temperature outside is that of the cell inside. -/
theorem netInflow_mirror {h : Dir → K} {T k : IntVec → K} (d : Dir)
    (hT : ∀ c c', InMesh n c → Neighbour n c c' → ¬ InMesh n c' → T c' = T c) : netInflow n h T k d = 0 := by
  unfold netInflow
  split
  · next hd =>
    have z : ∀ lo, (∀ c, InExtent lo (layer n d) c → T c = T (c - unit d)) → blockSum lo (layer n d) (heatFlux h T k d) = 0 := by
      intro lo hc
      rw [blockSum_congr (g := fun _ => 0) fun c h' => by unfold heatFlux; rw [hc c h']; ring]
      exact blockSum_zero _ _
    rw [z 0, z (along (comp n d) d), sub_zero, zero_div]
    · intro c hc
      have hm : InMesh n (c - unit d) := by
        unfold InMesh
        cases d <;> simp only [comp, along, layer, InExtent, unit] at * <;> iv_omega
      refine hT (c - unit d) c hm ⟨d, hd, .inl ?_⟩ ?_
      · ext <;> simp
      · unfold InMesh
        cases d <;> simp only [comp, along, layer, InExtent, unit] at * <;> iv_omega
    · intro c hc
      have hm : InMesh n c := by
        unfold InMesh
        cases d <;> simp only [comp, layer, InExtent, unit] at * <;> iv_omega
      refine (hT c (c - unit d) hm ⟨d, hd, .inr rfl⟩ ?_).symm
      unfold InMesh
      cases d <;> simp only [comp, layer, InExtent, unit] at * <;> iv_omega
  · rfl

/-- C101 (insulation). If the boundary conditions copy the temperature of each cell at the boundary to the cells next to it outside the
mesh, the heat in the mesh is the same after any number of steps, of whatever length. -/
theorem _root_.SpatialOps.C101_insulated [CharZero K] (n : IntVec) (hn : IntVec.Lt 0 n) (h : Dir → K) (hh : ∀ d, 1 < comp n d → h d ≠ 0) (dt : K)
    (blk : Nat → Nat) (hs : Separate blk) (work work' : Nat → Dir → Nat) (hw : ∀ k, Fresh blk (work k)) (hw' : ∀ k, Fresh blk (work' k)) :
    ∃ F, build n blk = .ok F ∧ ∀ (m : Mem K) (bc : Nat → Mem K → Mem K), OnlyGhosts n F bc → (∀ c, InMesh n c → val n m F.rhoCp c ≠ 0) →
      (∀ j m1 c c', InMesh n c → Neighbour n c c' → ¬ InMesh n c' →
        val n (bc j m1) F.temperature c' = val n m1 F.temperature c) →
      ∀ N, ∃ m', march h dt n F work work' bc N m = .ok m' ∧ heat n m' F = heat n m F := by
  obtain ⟨F, hb, hE⟩ := C101_heat n hn h hh dt blk hs work work' hw hw'
  refine ⟨F, hb, fun m bc hbc hr hi N => ?_⟩
  induction N with
  | zero => exact ⟨m, rfl, rfl⟩
  | succ N ih =>
    obtain ⟨m', e, hm⟩ := ih
    obtain ⟨m1, m2, h1, h2, h3⟩ := hE m bc hbc hr N
    obtain rfl := Outcome.ok.inj (e.symm.trans h1)
    have z := fun d => netInflow_mirror (h := h) (T := val n (bc N m') F.temperature) (k := val n m F.thermCond) d fun c c' hc hN ho => by
      rw [hi N m' c c' hc hN ho, (hbc N m').2 c hc]
    refine ⟨m2, h2, ?_⟩
    rw [h3, z, z, z, hm]
    ring

end

/-! ## Second order in space, first order in time -/

section

open Set Accuracy

/-- First-order expansion to the right, with derivatives to the right only. -/
theorem ahead {f f1 f2 : ℝ → ℝ} {a δ M : ℝ} (hδ : 0 ≤ δ) (h1 : ∀ t ∈ Icc a (a + δ), HasDerivAt f (f1 t) t)
    (h2 : ∀ t ∈ Icc a (a + δ), HasDerivAt f1 (f2 t) t) (hM : ∀ t ∈ Icc a (a + δ), |f2 t| ≤ M) :
    |f (a + δ) - f a - δ * f1 a| ≤ M * δ ^ 2 / 2 := by
  have sh : ∀ {g g1 : ℝ → ℝ}, (∀ t ∈ Icc a (a + δ), HasDerivAt g (g1 t) t) → ∀ s ∈ Icc 0 δ, HasDerivAt (fun s => g (a + s)) (g1 (a + s)) s :=
    fun hg s hs => (hg (a + s) ⟨by linarith [hs.1], by linarith [hs.2]⟩).comp_const_add a s
  have step : ∀ s ∈ Icc 0 δ, |f1 (a + s) - f1 a| ≤ M * s := fun s hs =>
    fence (g := fun s => f1 (a + s) - f1 a) (g' := fun s => f2 (a + s)) (B := fun s => M * s) (B' := fun _ => M) hs.1
      (fun r hr => (sh h2 r ⟨hr.1, hr.2.trans hs.2⟩).sub_const _) (fun r => by simpa using (hasDerivAt_id r).const_mul M) (by simp) (by simp)
      (fun r hr => hM _ ⟨by linarith [hr.1], by linarith [hr.2, hs.2]⟩)
  refine fence (g := fun s => f (a + s) - f a - s * f1 a) (g' := fun s => f1 (a + s) - 1 * f1 a) (B := fun s => M * s ^ 2 / 2)
    (B' := fun s => M * s) hδ (fun s hs => ((sh h1 s hs).sub_const _).sub ((hasDerivAt_id s).mul_const (f1 a))) (fun s => ?_) (by simp)
    (by simp) (fun s hs => by rw [one_mul]; exact step s hs)
  have := ((hasDerivAt_pow 2 s).const_mul M).div_const 2
  refine this.congr_deriv ?_
  push_cast; ring

/-- How well the values of a solution at the cell centres satisfy the equations of the steps. -/
theorem order_residual {n : IntVec} (hn : IntVec.Lt 0 n) {h : Dir → ℝ} (hh : ∀ d, 1 < comp n d → 0 < h d) {dt : ℝ} (hd0 : 0 ≤ dt) {N : Nat}
    {lo hi : Dir → ℝ} {u ut utt : ℝ → (Dir → ℝ) → ℝ} {k : (Dir → ℝ) → ℝ} {uD : ℝ → Dir → Nat → (Dir → ℝ) → ℝ}
    {kD : Dir → Nat → (Dir → ℝ) → ℝ} {M Kb : Dir → Nat → ℝ} {K0 M2 r0 : ℝ} {Q : ℝ → Dir → (Dir → ℝ) → ℝ} {kc rc : IntVec → ℝ}
    (hk : Centred n h lo hi kc k) (su : ∀ t ∈ Icc 0 (N * dt), ∀ d, 1 < comp n d → Smooth lo hi d 4 (u t) (uD t d) (M d))
    (sk : ∀ d, 1 < comp n d → Smooth lo hi d 3 k (kD d) (Kb d)) (h0 : ∀ p, Accuracy.InBox lo hi p → |k p| ≤ K0)
    (hQ : ∀ t ∈ Icc 0 (N * dt), ∀ d, 1 < comp n d → IsPartial lo hi d (fun p => k p * uD t d 1 p) (Q t d))
    (ht : ∀ c, InMesh n c → ∀ t ∈ Icc 0 (N * dt), HasDerivAt (fun t => u t (position h .sVol c)) (ut t (position h .sVol c)) t ∧
        HasDerivAt (fun t => ut t (position h .sVol c)) (utt t (position h .sVol c)) t ∧ |utt t (position h .sVol c)| ≤ M2 ∧
        rc c * ut t (position h .sVol c) = active n (fun d => Q t d (position h .sVol c)))
    (hr0 : 0 < r0) (hr : ∀ c, InMesh n c → r0 ≤ rc c) :
    0 ≤ M2 * dt / 2 + active n (fun d => h d ^ 2 * (K0 * M d 4 / 12 + Kb d 1 * M d 3 / 6 + Kb d 2 * M d 2 / 4 + Kb d 3 * M d 1 / 6)) / r0 ∧
    ∀ i < N, ∀ c, InMesh n c → |u ((i + 1 : Nat) * dt) (position h .sVol c) - (u (i * dt) (position h .sVol c) +
      dt * heatRhs n h (fun c => u (i * dt) (position h .sVol c)) kc rc c)| ≤ dt * (M2 * dt / 2 +
        active n (fun d => h d ^ 2 * (K0 * M d 4 / 12 + Kb d 1 * M d 3 / 6 + Kb d 2 * M d 2 / 4 + Kb d 3 * M d 1 / 6)) / r0) := by
  have z0 : InMesh n 0 := ⟨⟨le_refl _, le_refl _, le_refl _⟩, hn⟩
  have time : ∀ {i : Nat}, i ≤ N → (i : ℝ) * dt ∈ Icc (0 : ℝ) (N * dt) := fun {i} hi =>
    ⟨mul_nonneg (Nat.cast_nonneg i) hd0, mul_le_mul_of_nonneg_right (by exact_mod_cast hi) hd0⟩
  have m2 : 0 ≤ M2 := (abs_nonneg _).trans (ht 0 z0 0 (by simpa using time (Nat.zero_le N))).2.2.1
  -- the residual in space
  have space : ∀ i ≤ N, ∀ c, InMesh n c →
      |heatRhs n h (fun c => u (i * dt) (position h .sVol c)) kc rc c - ut (i * dt) (position h .sVol c)| ≤
        active n (fun d => h d ^ 2 * (K0 * M d 4 / 12 + Kb d 1 * M d 3 / 6 + Kb d 2 * M d 2 / 4 + Kb d 3 * M d 1 / 6)) / rc c := by
    intro i hi' c hc
    have rp := hr0.trans_le (hr c hc)
    have hT : Centred n h lo hi (fun c => u (i * dt) (position h .sVol c)) (u (i * dt)) :=
      fun c c' hc hn => ⟨(hk c c' hc hn).1, rfl⟩
    have := rhs_bound (rc := rc) hT hk hc hh (su _ (time hi')) sk (h0 _ (hk c c hc (.inl rfl)).1) (hQ _ (time hi')) rp
    rw [← (ht c hc _ (time hi')).2.2.2, mul_div_cancel_left₀ _ rp.ne'] at this
    exact this
  have S0 : 0 ≤ active n (fun d => h d ^ 2 * (K0 * M d 4 / 12 + Kb d 1 * M d 3 / 6 + Kb d 2 * M d 2 / 4 + Kb d 3 * M d 1 / 6)) := by
    have := (abs_nonneg _).trans (space 0 (Nat.zero_le N) 0 z0)
    have rp := hr0.trans_le (hr 0 z0)
    have e := mul_nonneg this rp.le
    rwa [div_mul_cancel₀ _ rp.ne'] at e
  refine ⟨by positivity, ?_⟩
  intro i hi' c hc
  have sub : ∀ t ∈ Icc ((i : ℝ) * dt) (i * dt + dt), t ∈ Icc (0 : ℝ) (N * dt) := fun t ht =>
    ⟨(time hi'.le).1.trans ht.1, ht.2.trans (by have := (time (i := i + 1) hi').2; push_cast at this; linarith)⟩
  have tay := ahead (f := fun t => u t (position h .sVol c)) (f1 := fun t => ut t (position h .sVol c))
    (f2 := fun t => utt t (position h .sVol c)) hd0 (fun t h' => (ht c hc t (sub t h')).1) (fun t h' => (ht c hc t (sub t h')).2.1)
    (fun t h' => (ht c hc t (sub t h')).2.2.1)
  have sp := (space i hi'.le c hc).trans (div_le_div_of_nonneg_left S0 hr0 (hr c hc))
  have sp' := mul_le_mul_of_nonneg_left sp hd0
  rw [← abs_of_nonneg hd0, ← abs_mul, abs_of_nonneg hd0] at sp'
  have e : (((i + 1 : Nat) : ℝ)) * dt = i * dt + dt := by push_cast; ring
  rw [e]
  rw [abs_le] at tay sp' ⊢
  constructor <;> nlinarith [tay.1, tay.2, sp'.1, sp'.2]

/-- C101 (order of accuracy). Let `u t` be a solution of `ρ cp ∂u/∂t = ∇·(k ∇u)`, in the directions with more than one cell, with bounded derivatives:
`ut` and `utt` are its derivatives in time at the cell centres, `Q t d` that of `k ∂u/∂d` in direction `d`. If the program starts from the
solution up to `ε` and its boundary conditions set the values of the solution up to `ε`, then with a time step within the limit the temperature after `j` steps differs from the
solution at time `j dt` by at most `ε` plus the time passed times a bound of first order in `dt` and second order in the spacings. -/
theorem _root_.SpatialOps.C101_order (n : IntVec) (hn : IntVec.Lt 0 n) (h : Dir → ℝ) (hh : ∀ d, 1 < comp n d → 0 < h d) (dt : ℝ)
    (blk : Nat → Nat) (hs : Separate blk) (work work' : Nat → Dir → Nat) (hw : ∀ k, Fresh blk (work k)) (hw' : ∀ k, Fresh blk (work' k)) :
    ∃ F, build n blk = .ok F ∧ ∀ (m : Mem ℝ) (bc : Nat → Mem ℝ → Mem ℝ) (N : Nat) (lo hi : Dir → ℝ) (u ut utt : ℝ → (Dir → ℝ) → ℝ)
      (k : (Dir → ℝ) → ℝ) (uD : ℝ → Dir → Nat → (Dir → ℝ) → ℝ) (kD : Dir → Nat → (Dir → ℝ) → ℝ) (M Kb : Dir → Nat → ℝ) (K0 M2 r0 ε : ℝ)
      (Q : ℝ → Dir → (Dir → ℝ) → ℝ),
      OnlyGhosts n F bc → Stable n h dt (val n m F.thermCond) (val n m F.rhoCp) → Centred n h lo hi (val n m F.thermCond) k →
      (∀ t ∈ Icc 0 (N * dt), ∀ d, 1 < comp n d → Smooth lo hi d 4 (u t) (uD t d) (M d)) →
      (∀ d, 1 < comp n d → Smooth lo hi d 3 k (kD d) (Kb d)) → (∀ p, Accuracy.InBox lo hi p → |k p| ≤ K0) →
      (∀ t ∈ Icc 0 (N * dt), ∀ d, 1 < comp n d → IsPartial lo hi d (fun p => k p * uD t d 1 p) (Q t d)) →
      (∀ c, InMesh n c → ∀ t ∈ Icc 0 (N * dt), HasDerivAt (fun t => u t (position h .sVol c)) (ut t (position h .sVol c)) t ∧
        HasDerivAt (fun t => ut t (position h .sVol c)) (utt t (position h .sVol c)) t ∧ |utt t (position h .sVol c)| ≤ M2 ∧
        val n m F.rhoCp c * ut t (position h .sVol c) = active n (fun d => Q t d (position h .sVol c))) →
      0 < r0 → (∀ c, InMesh n c → r0 ≤ val n m F.rhoCp c) →
      (∀ c, InMesh n c → |val n m F.temperature c - u 0 (position h .sVol c)| ≤ ε) →
      (∀ j < N, ∀ m1 c, Outside n c → |val n (bc j m1) F.temperature c - u (j * dt) (position h .sVol c)| ≤ ε) →
      ∀ j ≤ N, ∃ m', march h dt n F work work' bc j m = .ok m' ∧
        ∀ c, InMesh n c → |val n m' F.temperature c - u (j * dt) (position h .sVol c)| ≤ ε + j * dt * (M2 * dt / 2 +
          active n (fun d => h d ^ 2 * (K0 * M d 4 / 12 + Kb d 1 * M d 3 / 6 + Kb d 2 * M d 2 / 4 + Kb d 3 * M d 1 / 6)) / r0) := by
  obtain ⟨F, hb, hC⟩ := C101_converges (K := ℝ) n hn h (fun d hd => (hh d hd).ne') dt blk hs work work' hw hw'
  refine ⟨F, hb, fun m bc N lo hi u ut utt k uD kD M Kb K0 M2 r0 ε Q hbc hst hk su sk h0 hQ ht hr0 hr i0 ig j hj => ?_⟩
  obtain ⟨pos, res⟩ := order_residual hn hh hst.1 hk su sk h0 hQ ht hr0 hr
  obtain ⟨m', h1, h2⟩ := hC m bc (fun i c => u (i * dt) (position h .sVol c)) ε (M2 * dt / 2 +
      active n (fun d => h d ^ 2 * (K0 * M d 4 / 12 + Kb d 1 * M d 3 / 6 + Kb d 2 * M d 2 / 4 + Kb d 3 * M d 1 / 6)) / r0) N hbc hst
    pos res (fun c hc => by simpa using i0 c hc) (fun i hi' m1 c hc => ig i hi' m1 c hc) j hj
  exact ⟨m', h1, fun c hc => (h2 c hc).trans (le_of_eq (by ring))⟩

end

/-! ## Concrete cases -/

namespace MarchEx

/-- Sets the two cells of the temperature outside a mesh of three cells. -/
def ends {K : Type} (v w : K) (m : Mem K) : Mem K := fun b a => if b = 0 ∧ a = 0 then v else if b = 0 ∧ a = 4 then w else m b a

/-- The boundary conditions of insulated ends. -/
def mirror (_ : Nat) (m : Mem ℚ) : Mem ℚ := ends (m 0 1) (m 0 3) m

/-- The positions of cells of the mesh and next to it. -/
theorem near {c c' : IntVec} (hn : Neighbour ⟨3, 1, 1⟩ c c') : c'.x = c.x + 1 ∨ c'.x = c.x - 1 := by
  obtain ⟨d, hd, h⟩ := hn
  have : d = .x := by cases d <;> first | rfl | exact absurd hd (by decide)
  subst this
  rcases h with rfl | rfl <;> simp [unit]

/-- Cells outside the mesh of three cells and next to it are its two ends. -/
theorem outside {c c' : IntVec} (hc : InMesh ⟨3, 1, 1⟩ c) (hn : Neighbour ⟨3, 1, 1⟩ c c') (ho : ¬ InMesh ⟨3, 1, 1⟩ c') :
    c.x = 0 ∧ c'.x = -1 ∨ c.x = 2 ∧ c'.x = 3 := by
  obtain ⟨b1, b2, b3, b4⟩ := HeatErrEx.mesh hc (.inr hn)
  have := near hn
  unfold InMesh at hc ho
  have : ¬ (0 ≤ c'.x ∧ c'.x < 3) := fun h => ho (by iv_omega)
  iv_omega

theorem addr {K : Type} {F : Fields} (hF : Built ⟨3, 1, 1⟩ (fun i => i) F) (c : IntVec) (m : Mem K) :
    val ⟨3, 1, 1⟩ m F.temperature c = m 0 (1 + c.x) := by
  have h := hF.temperature
  unfold val flatAddr
  rw [h.target.mem, h.offset, h.valid]
  simp [places, place, fortranPos, G]

theorem only {K : Type} {F : Fields} (hF : Built ⟨3, 1, 1⟩ (fun i => i) F) (v w : Nat → Mem K → K) :
    OnlyGhosts ⟨3, 1, 1⟩ F fun j m => ends (v j m) (w j m) m := by
  refine fun j m => ⟨fun b hb a => ?_, fun c hc => ?_⟩
  · have : b ≠ 0 := fun h => hb (by rw [hF.temperature.target.mem, h])
    simp [ends, this]
  · rw [addr hF, addr hF]
    unfold InMesh at hc
    have h0 : 1 + c.x ≠ 0 := by iv_omega
    have h4 : 1 + c.x ≠ 4 := by iv_omega
    simp [ends, h0, h4]

/-- With insulated ends and a time step of 1/4 the hypotheses on the heat and on the bounds hold: the heat is 7 after any number of
steps, and all temperatures are between 1 and 5. -/
example : ∃ F, build ⟨3, 1, 1⟩ (fun i => i) = .ok F ∧ ∀ N, ∃ m', march (fun _ => (1 : ℚ)) (1 / 4) ⟨3, 1, 1⟩ F (fun _ _ => 10) (fun _ _ => 10) mirror N HeatEx.hot = .ok m' ∧
    heat ⟨3, 1, 1⟩ m' F = 7 ∧ ∀ c, InMesh ⟨3, 1, 1⟩ c → 1 ≤ val ⟨3, 1, 1⟩ m' F.temperature c ∧ val ⟨3, 1, 1⟩ m' F.temperature c ≤ 5 := by
  obtain ⟨F, hb, hI⟩ := C101_insulated (K := ℚ) ⟨3, 1, 1⟩ (by decide) (fun _ => 1) (fun _ _ => one_ne_zero) (1 / 4) (fun i => i) HeatEx.sep
    (fun _ _ => 10) (fun _ _ => 10) (fun _ => HeatEx.fresh) (fun _ => HeatEx.fresh)
  obtain ⟨F', hb', hB⟩ := C101_bounds (K := ℚ) ⟨3, 1, 1⟩ (by decide) (fun _ => 1) (fun _ _ => one_ne_zero) (1 / 4) (fun i => i) HeatEx.sep
    (fun _ _ => 10) (fun _ _ => 10) (fun _ => HeatEx.fresh) (fun _ => HeatEx.fresh)
  obtain ⟨F'', hb'', hF⟩ := build_ok (n := ⟨3, 1, 1⟩) (by decide) fun i => i
  obtain rfl := Outcome.ok.inj (hb.symm.trans hb')
  obtain rfl := Outcome.ok.inj (hb.symm.trans hb'')
  have one : ∀ (f : FieldObj) (i : Nat), i ≠ 0 → f.values = some i → ∀ c, val ⟨3, 1, 1⟩ HeatEx.hot f c = 1 := by
    intro f i hi hv c
    unfold val HeatEx.hot
    rw [hv, Option.getD_some, if_neg fun h => hi h.1]
  have rc := one F.rhoCp 2 (by decide) hF.rhoCp.target.mem
  have kc := one F.thermCond 1 (by decide) hF.thermCond.target.mem
  have og : OnlyGhosts ⟨3, 1, 1⟩ F mirror := only hF (fun _ m => m 0 1) fun _ m => m 0 3
  have mir : ∀ j (m1 : Mem ℚ) c c', InMesh ⟨3, 1, 1⟩ c → Neighbour ⟨3, 1, 1⟩ c c' → ¬ InMesh ⟨3, 1, 1⟩ c' →
      val ⟨3, 1, 1⟩ (mirror j m1) F.temperature c' = val ⟨3, 1, 1⟩ m1 F.temperature c := by
    intro j m1 c c' hc hn ho
    rw [addr hF, addr hF]
    rcases outside hc hn ho with ⟨h1, h2⟩ | ⟨h1, h2⟩ <;> rw [h1, h2] <;> simp [mirror, ends]
  refine ⟨F, hb, fun N => ?_⟩
  obtain ⟨m', h1, h2⟩ := hI HeatEx.hot mirror og (fun c _ => by rw [rc]; exact one_ne_zero) mir N
  obtain ⟨m'', h1', h3⟩ := hB HeatEx.hot mirror 1 5 og
    ⟨by norm_num, fun c _ => ⟨by rw [rc]; exact one_pos, by rw [kc]; exact zero_le_one, fun c' _ => by rw [kc]; exact zero_le_one, by
      unfold rate conducts conductance
      simp only [kc, rc]
      norm_num [comp]⟩⟩
    (fun c _ => by rw [addr hF]; unfold HeatEx.hot; split <;> norm_num)
    (fun j m1 hm c' ho => by
      obtain ⟨ho, c, hc, hn⟩ := ho
      rw [mir j m1 c c' hc hn ho]
      exact hm c hc) N
  obtain rfl := Outcome.ok.inj (h1.symm.trans h1')
  refine ⟨m', h1, ?_, h3⟩
  rw [h2]
  unfold heat blockSum
  simp only [rc, addr hF]
  norm_num [HeatEx.hot]
  rw [show Int.toNat 3 = 3 from rfl]
  norm_num [Finset.sum_range_succ]

/-- Temperature 1 in the middle cell and 0 elsewhere; all other values 1. -/
def spike : Mem ℚ := fun b a => if b = 0 then if a = 2 then 1 else 0 else 1

/-- With a time step of 1, twice the limit, the middle cell falls to -1 in one step. -/
example : ∃ F, build ⟨3, 1, 1⟩ (fun i => i) = .ok F ∧ ∃ m', march (fun _ => (1 : ℚ)) 1 ⟨3, 1, 1⟩ F (fun _ _ => 10) (fun _ _ => 10) mirror 1 spike = .ok m' ∧
    val ⟨3, 1, 1⟩ m' F.temperature ⟨1, 0, 0⟩ = -1 := by
  obtain ⟨F, hb, hL⟩ := C101_limit (K := ℚ) ⟨3, 1, 1⟩ (by decide) (fun _ => 1) (fun _ _ => one_ne_zero) 1 (fun i => i) HeatEx.sep
    (fun _ _ => 10) (fun _ _ => 10) (fun _ => HeatEx.fresh) (fun _ => HeatEx.fresh)
  obtain ⟨F'', hb'', hF⟩ := build_ok (n := ⟨3, 1, 1⟩) (by decide) fun i => i
  obtain rfl := Outcome.ok.inj (hb.symm.trans hb'')
  have one : ∀ (f : FieldObj) (i : Nat), i ≠ 0 → f.values = some i → ∀ c, val ⟨3, 1, 1⟩ spike f c = 1 := by
    intro f i hi hv c
    unfold val spike
    rw [hv, Option.getD_some, if_neg hi]
  have rc := one F.rhoCp 2 (by decide) hF.rhoCp.target.mem
  have kc := one F.thermCond 1 (by decide) hF.thermCond.target.mem
  obtain ⟨m', h1, h2, -⟩ := hL spike mirror ⟨1, 0, 0⟩ (only hF (fun _ m => m 0 1) fun _ m => m 0 3) (by unfold InMesh; decide)
    (by rw [rc]; exact one_ne_zero) (by rw [addr hF]; rfl) (fun c' hn => by
      rw [addr hF]
      rcases near hn with h | h <;> rw [h] <;> rfl)
  refine ⟨F, hb, m', h1, ?_⟩
  rw [h2]
  unfold rate conducts conductance
  simp only [kc, rc]
  norm_num [comp]

/-- The derivatives of the solution in the next example. -/
noncomputable def uD (t : ℝ) : Nat → (Dir → ℝ) → ℝ
  | 0 => fun p => p .x ^ 4 + 12 * t * p .x ^ 2 + 12 * t ^ 2
  | 1 => fun p => 4 * p .x ^ 3 + 24 * t * p .x
  | 2 => fun p => 12 * p .x ^ 2 + 24 * t
  | 3 => fun p => 24 * p .x
  | _ => fun _ => 24

open Accuracy in
/-- The solution `x⁴ + 12 t x² + 12 t²` of the heat equation, with its values set at both ends and a time step of 1/4: the temperature
after up to four steps differs from it by at most 5 times the time passed. -/
example : ∃ F, build ⟨3, 1, 1⟩ (fun i => i) = .ok F ∧ ∃ bc, OnlyGhosts ⟨3, 1, 1⟩ F bc ∧ ∀ j ≤ 4,
    ∃ m', march (fun _ => (1 : ℝ)) (1 / 4) ⟨3, 1, 1⟩ F (fun _ _ => 10) (fun _ _ => 10) bc j HeatErrEx.quartic = .ok m' ∧
      ∀ c, InMesh ⟨3, 1, 1⟩ c → |val ⟨3, 1, 1⟩ m' F.temperature c -
        (((c.x : ℝ) + 1 / 2) ^ 4 + 12 * ((j : ℝ) / 4) * ((c.x : ℝ) + 1 / 2) ^ 2 + 12 * ((j : ℝ) / 4) ^ 2)| ≤ (j : ℝ) / 4 * 5 := by
  obtain ⟨F, hb, hm⟩ := C101_order ⟨3, 1, 1⟩ (by decide) (fun _ => 1) (fun _ _ => one_pos) (1 / 4) (fun i => i) HeatEx.sep
    (fun _ _ => 10) (fun _ _ => 10) (fun _ => HeatEx.fresh) (fun _ => HeatEx.fresh)
  obtain ⟨F'', hb'', hF⟩ := build_ok (n := ⟨3, 1, 1⟩) (by decide) fun i => i
  obtain rfl := Outcome.ok.inj (hb.symm.trans hb'')
  obtain ⟨vT, vk, vr⟩ := HeatErrEx.values hF
  have og : OnlyGhosts ⟨3, 1, 1⟩ F (fun j m => ends ((1 / 2 : ℝ) ^ 4 + 12 * ((j : ℝ) / 4) * (1 / 2) ^ 2 + 12 * ((j : ℝ) / 4) ^ 2)
    ((7 / 2) ^ 4 + 12 * ((j : ℝ) / 4) * (7 / 2) ^ 2 + 12 * ((j : ℝ) / 4) ^ 2) m) := only hF (fun _ _ => _) fun _ _ => _
  have box : ∀ c c', InMesh ⟨3, 1, 1⟩ c → (c' = c ∨ Neighbour ⟨3, 1, 1⟩ c c') →
      Accuracy.InBox (fun _ => -4) (fun _ => 4) (position (fun _ => 1) .sVol c') := by
    intro c c' hc hc' d
    obtain ⟨b1, b2, b3, b4⟩ := HeatErrEx.mesh hc hc'
    have b1' : (-1 : ℝ) ≤ (c'.x : ℝ) := by exact_mod_cast b1
    have b2' : (c'.x : ℝ) ≤ 3 := by exact_mod_cast b2
    cases d <;> simp [position, staggered, comp, b3, b4] <;> constructor <;> linarith
  have onlyx : ∀ d, 1 < comp ⟨3, 1, 1⟩ d → d = .x := by
    intro d hd
    cases d <;> first | rfl | exact absurd hd (by decide)
  have px : ∀ c : IntVec, position (fun _ => (1 : ℝ)) .sVol c .x = (c.x : ℝ) + 1 / 2 := fun c => by simp [position, staggered, comp]
  have pw : ∀ (a b c : ℝ) (i j : Nat), IsPartial (fun _ => -4) (fun _ => 4) .x (fun p => a * p .x ^ (i + 1) + b * p .x ^ (j + 1) + c)
      (fun p => a * (((i + 1 : ℕ) : ℝ) * p .x ^ i) + b * (((j + 1 : ℕ) : ℝ) * p .x ^ j)) := by
    intro a b c i j p _
    have := (((hasDerivAt_pow (i + 1) (p .x)).const_mul a).add ((hasDerivAt_pow (j + 1) (p .x)).const_mul b)).add_const c
    simpa using this
  refine ⟨F, hb, _, og, fun j hj => ?_⟩
  obtain ⟨m', h1, h2⟩ := hm HeatErrEx.quartic _ 4 (fun _ => -4) (fun _ => 4) (fun t p => p .x ^ 4 + 12 * t * p .x ^ 2 + 12 * t ^ 2)
    (fun t p => 12 * p .x ^ 2 + 24 * t) (fun _ _ => 24) (fun _ => 1)
    (fun t _ => uD t)
    (fun _ => fun | 0 => fun _ => 1 | _ => fun _ => 0) (fun _ => fun | 1 => 352 | 2 => 216 | 3 => 96 | _ => 24) (fun _ _ => 0) 1 24 1 0
    (fun t _ p => 12 * p .x ^ 2 + 24 * t) og
    ⟨by norm_num, fun c _ => ⟨by rw [vr]; exact one_pos, by rw [vk]; exact zero_le_one, fun c' _ => by rw [vk]; exact zero_le_one, by
      unfold rate conducts conductance
      simp only [vk, vr]
      norm_num [comp]⟩⟩
    (fun c c' hc hc' => ⟨box c c' hc hc', vk c'⟩)
    (fun t ht d hd => by
      rw [onlyx d hd]
      have t0 := ht.1
      have t1 : t ≤ 1 := by have := ht.2; norm_num at this; exact this
      refine ⟨rfl, fun i hi => ?_, fun i h1 h4 p hp => ?_⟩
      · match i, hi with
        | 0, _ => have := pw 1 (12 * t) (12 * t ^ 2) 3 1; intro p hp; simpa [uD] using (this p hp).congr_deriv (g' := 4 * p .x ^ 3 + 24 * t * p .x) (by push_cast; ring)
        | 1, _ => have := pw 4 (24 * t) 0 2 0; intro p hp; simpa [uD] using (this p hp).congr_deriv (g' := 12 * p .x ^ 2 + 24 * t) (by push_cast; ring)
        | 2, _ => have := pw 12 0 (24 * t) 1 0; intro p hp; simpa [uD] using (this p hp).congr_deriv (g' := 24 * p .x) (by push_cast; ring)
        | 3, _ => have := pw 24 0 0 0 0; intro p hp; simpa [uD] using this p hp
      · have b := abs_le.2 (hp .x)
        have b0 := abs_nonneg (p .x)
        match i, h1, h4 with
        | 1, _, _ =>
          show |4 * p .x ^ 3 + 24 * t * p .x| ≤ 352
          refine (abs_add_le _ _).trans ?_
          rw [abs_mul, abs_pow, abs_mul, abs_of_pos (by norm_num), abs_of_nonneg (by linarith : 0 ≤ 24 * t)]
          have : |p .x| ^ 3 ≤ 4 ^ 3 := pow_le_pow_left₀ b0 b 3
          nlinarith
        | 2, _, _ =>
          show |12 * p .x ^ 2 + 24 * t| ≤ 216
          refine (abs_add_le _ _).trans ?_
          rw [abs_mul, abs_pow, abs_of_pos (by norm_num), abs_of_nonneg (by linarith : 0 ≤ 24 * t)]
          have : |p .x| ^ 2 ≤ 4 ^ 2 := pow_le_pow_left₀ b0 b 2
          linarith
        | 3, _, _ =>
          show |24 * p .x| ≤ 96
          rw [abs_mul, abs_of_pos (by norm_num)]
          linarith
        | 4, _, _ =>
          show |(24 : ℝ)| ≤ 24
          norm_num)
    (fun d hd => ⟨rfl, fun i _ => by
      match i with
      | 0 => exact fun p _ => hasDerivAt_const _ _
      | i + 1 => exact fun p _ => hasDerivAt_const _ _, fun i h1 _ p _ => by
      match i, h1 with
      | i + 1, _ => simp⟩)
    (fun _ _ => by simp)
    (fun t _ d hd => by
      rw [onlyx d hd]
      have := pw 4 (24 * t) 0 2 0
      intro p hp
      simpa [uD] using (this p hp).congr_deriv (g' := 12 * p .x ^ 2 + 24 * t) (by push_cast; ring))
    (fun c _ t _ => by
      generalize position (fun _ => (1 : ℝ)) .sVol c .x = x
      refine ⟨?_, ?_, by norm_num, ?_⟩
      · have := (((hasDerivAt_id t).const_mul 12).mul_const (x ^ 2)).const_add (x ^ 4) |>.add ((hasDerivAt_pow 2 t).const_mul 12)
        exact this.congr_deriv (by push_cast; simp; ring)
      · have := ((hasDerivAt_id t).const_mul 24).const_add (12 * x ^ 2)
        simpa using this
      · rw [vr, one_mul]
        simp [active, comp])
    one_pos (fun c _ => by rw [vr])
    (fun c _ => by rw [vT]; simp)
    (fun j _ m1 c' ho => by
      obtain ⟨ho, c, hc, hn⟩ := ho
      rw [addr hF, px]
      rcases outside hc hn ho with ⟨h1, h2⟩ | ⟨h1, h2⟩ <;> rw [h2] <;> simp [ends] <;> ring_nf)
    j hj
  refine ⟨m', h1, fun c hc => ?_⟩
  have := h2 c hc
  simp only [px, active] at this
  norm_num [comp] at this ⊢
  refine le_trans (le_of_eq ?_) (this.trans (le_of_eq ?_))
  · congr 1; ring
  · ring

end MarchEx
end Heat
end SpatialOps
