import Verif.Heat.Calc
import Mathlib.Tactic.Linarith
import Mathlib.Tactic.Positivity
import Mathlib.Algebra.Order.Field.Basic

/-!
# C73: the heat equation program
-/

namespace SpatialOps
namespace Heat

open Nebo Stencil

variable {n : IntVec}

section
variable {K : Type} [Field K]

/-- C73 (one trip of the time loop). On every mesh, one-, two- or three-dimensional, the fields are built, and from any values
of temperature, conductivity and `ρ cp` a trip of the time loop ends and leaves at each cell of the right-hand
side the finite-volume form of `∇·(k ∇T)/(ρ cp)`. Nothing but the right-hand side, the fluxes and the work arrays
changes. -/
theorem _root_.SpatialOps.C73_step [CharZero K] (n : IntVec) (hn : IntVec.Lt 0 n) (h : Dir → K) (_hh : ∀ d, 1 < comp n d → h d ≠ 0)
    (blk : Nat → Nat) (hs : Separate blk) (work work' : Dir → Nat) (hw : Fresh blk work) (hw' : Fresh blk work') :
    ∃ F, build n blk = .ok F ∧ ∀ m : Mem K, (∀ c, InMesh n c → val n m F.rhoCp c ≠ 0) →
      ∃ m', timeStep h n F work work' m = .ok m' ∧
        (∀ c, InMesh n c → val n m' F.rhs c =
          heatRhs n h (val n m F.temperature) (val n m F.thermCond) (val n m F.rhoCp) c) ∧
        ∀ b, (∀ i, 6 ≤ i → i < 10 → b ≠ blk i) → (∀ d, b ≠ work d ∧ b ≠ work' d) → ∀ a, m' b a = m b a := by
  obtain ⟨F, hb, hF⟩ := build_ok hn blk
  exact ⟨F, hb, fun m _ => step_ok hn h hs hF hw hw' m⟩

theorem loop_ok (hn : IntVec.Lt 0 n) (h : Dir → K) {blk : Nat → Nat} (hs : Separate blk) {F : Fields} (hF : Built n blk F)
    {work work' : Nat → Dir → Nat} (hw : ∀ k, Fresh blk (work k)) (hw' : ∀ k, Fresh blk (work' k)) (N : Nat) (m : Mem K) :
    ∃ m', timeLoop h n F work work' N m = .ok m' ∧
      (0 < N → ∀ c, InMesh n c → val n m' F.rhs c =
        heatRhs n h (val n m F.temperature) (val n m F.thermCond) (val n m F.rhoCp) c) ∧
      ∀ b, (∀ i, 6 ≤ i → i < 10 → b ≠ blk i) → (∀ k d, b ≠ work k d ∧ b ≠ work' k d) → ∀ a, m' b a = m b a := by
  induction N with
  | zero => exact ⟨m, rfl, fun h => absurd h (by omega), fun _ _ _ _ => rfl⟩
  | succ N ih =>
    obtain ⟨m1, h1, -, f1⟩ := ih
    obtain ⟨m2, h2, v2, f2⟩ := step_ok hn h hs hF (hw N) (hw' N) m1
    have fr : ∀ i < 6, ∀ a, m1 (blk i) a = m (blk i) a := fun i hi =>
      f1 (blk i) (fun j j1 j2 => hs i (by omega) j j2 (by omega))
        (fun k d => ⟨(hw k i (by omega) d).symm, (hw' k i (by omega) d).symm⟩)
    refine ⟨m2, ?_, fun _ c hc => ?_, fun b b1 b2 a => ?_⟩
    · unfold timeLoop
      rw [h1, Outcome.ok_bind, h2]
    · rw [v2 c hc]
      congr 1
      · exact funext fun c => val_frame hF.temperature (fr 0 (by omega)) c
      · exact funext fun c => val_frame hF.thermCond (fr 1 (by omega)) c
      · exact funext fun c => val_frame hF.rhoCp (fr 2 (by omega)) c
    · rw [f2 b b1 (fun d => b2 N d), f1 b b1 b2]

/-- C73 (the time loop). After any number of trips, at least one, the right-hand side is the same: that of the temperature,
conductivity and `ρ cp` the loop began with, and these are unchanged. -/
theorem _root_.SpatialOps.C73_steps [CharZero K] (n : IntVec) (hn : IntVec.Lt 0 n) (h : Dir → K) (_hh : ∀ d, 1 < comp n d → h d ≠ 0)
    (blk : Nat → Nat) (hs : Separate blk) (work work' : Nat → Dir → Nat) (hw : ∀ k, Fresh blk (work k))
    (hw' : ∀ k, Fresh blk (work' k)) :
    ∃ F, build n blk = .ok F ∧ ∀ (m : Mem K) (N : Nat), (∀ c, InMesh n c → val n m F.rhoCp c ≠ 0) → 0 < N →
      ∃ m', timeLoop h n F work work' N m = .ok m' ∧
        (∀ c, InMesh n c → val n m' F.rhs c =
          heatRhs n h (val n m F.temperature) (val n m F.thermCond) (val n m F.rhoCp) c) ∧
        ∀ i < 6, ∀ a, m' (blk i) a = m (blk i) a := by
  obtain ⟨F, hb, hF⟩ := build_ok hn blk
  refine ⟨F, hb, fun m N _ hN => ?_⟩
  obtain ⟨m', h1, h2, h3⟩ := loop_ok hn h hs hF hw hw' N m
  exact ⟨m', h1, h2 hN, fun i hi => h3 (blk i) (fun j j1 j2 => hs i (by omega) j j2 (by omega))
    fun k d => ⟨(hw k i (by omega) d).symm, (hw' k i (by omega) d).symm⟩⟩

/-! ## The whole program -/

theorem position_sVol (h : Dir → K) (c : IntVec) (d : Dir) : position h .sVol c d = h d * ((comp c d : K) + 1 / 2) := by
  cases d <;> rfl

theorem init_ok [CharZero K] (hn : IntVec.Lt 0 n) (L : Dir → K) (sin cos : K → K) {blk : Nat → Nat} (hs : Separate blk) {F : Fields}
    (hF : Built n blk F) (m : Mem K) :
    ∃ m', initialise sin cos n L F m = .ok m' ∧
      ∀ c, InSpans n ⟨1, 1, 1⟩ ⟨1, 1, 1⟩ c → val n m' F.temperature c = initialT sin cos n L c ∧
        val n m' F.thermCond c = initialK n L c ∧ val n m' F.rhoCp c = 1 := by
  obtain ⟨m1, h1, v1, f1⟩ := coord_ok hn L .x hF.xcoord m
  obtain ⟨m2, h2, v2, f2⟩ := coord_ok hn L .y hF.ycoord m1
  obtain ⟨m3, h3, v3, f3⟩ := coord_ok hn L .z hF.zcoord m2
  have dx : ∀ c, InSpans n ⟨1, 1, 1⟩ ⟨1, 1, 1⟩ c → FlatHas n F.xcoord.geo c := fun c hc => (good_has hF.xcoord c).2 (by rw [add_zero']; exact hc)
  have dy : ∀ c, InSpans n ⟨1, 1, 1⟩ ⟨1, 1, 1⟩ c → FlatHas n F.ycoord.geo c := fun c hc => (good_has hF.ycoord c).2 (by rw [add_zero']; exact hc)
  have dz : ∀ c, InSpans n ⟨1, 1, 1⟩ ⟨1, 1, 1⟩ c → FlatHas n F.zcoord.geo c := fun c hc => (good_has hF.zcoord c).2 (by rw [add_zero']; exact hc)
  have blkc : ∀ c, IntVec.Le 0 c → IntVec.Lt c (n + 0) → InPlane n c → InSpans n ⟨1, 1, 1⟩ ⟨1, 1, 1⟩ c :=
    fun c c1 c2 c3 => inSpans_of (by iv_omega) (by iv_omega) c3
  have s : ∀ i j, i < 10 → j < 10 → i ≠ j → blk i ≠ blk j := fun i j hi hj => sep hs i j hi hj
  obtain ⟨m4, h4, v4, f4⟩ := assign_stored hn (plane_zero n) hF.temperature (.bin (s := .num) (t := .num) (fun a b : K => a + b)
    (.bin (s := .num) (t := .num) (fun a b : K => a + b) (.un (s := .num) (t := .num) sin (.field F.xcoord))
      (.un (s := .num) (t := .num) cos (.field F.ycoord))) (.un (s := .num) (t := .num) sin (.field F.zcoord)))
    ⟨⟨good_on hF.xcoord, good_on hF.ycoord⟩, good_on hF.zcoord⟩
    (fun c c1 c2 c3 => ⟨⟨dx c (blkc c c1 c2 c3), dy c (blkc c c1 c2 c3)⟩, dz c (blkc c c1 c2 c3)⟩)
    ⟨⟨indep_other hF.xcoord hF.temperature (s 3 0 (by decide) (by decide) (by decide)) 0,
      indep_other hF.ycoord hF.temperature (s 4 0 (by decide) (by decide) (by decide)) 0⟩,
      indep_other hF.zcoord hF.temperature (s 5 0 (by decide) (by decide) (by decide)) 0⟩ m3
  obtain ⟨m5, h5, v5, f5⟩ := assign_stored hn (plane_zero n) hF.thermCond (.bin (s := .num) (t := .num) (fun a b : K => a + b)
    (.bin (s := .num) (t := .num) (fun a b : K => a + b) (.field F.xcoord) (.field F.ycoord)) (.field F.zcoord))
    ⟨⟨good_on hF.xcoord, good_on hF.ycoord⟩, good_on hF.zcoord⟩
    (fun c c1 c2 c3 => ⟨⟨dx c (blkc c c1 c2 c3), dy c (blkc c c1 c2 c3)⟩, dz c (blkc c c1 c2 c3)⟩)
    ⟨⟨indep_other hF.xcoord hF.thermCond (s 3 1 (by decide) (by decide) (by decide)) 0,
      indep_other hF.ycoord hF.thermCond (s 4 1 (by decide) (by decide) (by decide)) 0⟩,
      indep_other hF.zcoord hF.thermCond (s 5 1 (by decide) (by decide) (by decide)) 0⟩ m4
  obtain ⟨m6, h6, v6, f6⟩ := scalar_ok hn hF.rhoCp 1 m5
  refine ⟨m6, ?_, fun c hc => ?_⟩
  · unfold initialise
    rw [h1, Outcome.ok_bind, h2, Outcome.ok_bind, h3, Outcome.ok_bind, h4, Outcome.ok_bind, h5, Outcome.ok_bind, h6]
  · have ex : val n m3 F.xcoord c = meshSpacing n L .x * ((c.x : K) + 1 / 2) := by
      rw [val_frame hF.xcoord (f3 _ (s 3 5 (by decide) (by decide) (by decide))),
        val_frame hF.xcoord (f2 _ (s 3 4 (by decide) (by decide) (by decide))), v1 c hc, position_sVol]; rfl
    have ey : val n m3 F.ycoord c = meshSpacing n L .y * ((c.y : K) + 1 / 2) := by
      rw [val_frame hF.ycoord (f3 _ (s 4 5 (by decide) (by decide) (by decide))), v2 c hc, position_sVol]; rfl
    have ez : val n m3 F.zcoord c = meshSpacing n L .z * ((c.z : K) + 1 / 2) := by
      rw [v3 c hc, position_sVol]; rfl
    have hc' : InSpans n ⟨1, 1, 1⟩ (⟨1, 1, 1⟩ + 0) c := by rw [add_zero']; exact hc
    refine ⟨?_, ?_, v6 c hc⟩
    · rw [val_frame hF.temperature (f6 _ (s 0 2 (by decide) (by decide) (by decide))),
        val_frame hF.temperature (f5 _ (s 0 1 (by decide) (by decide) (by decide))), v4 c hc' ⟨⟨dx c hc, dy c hc⟩, dz c hc⟩]
      show sin (val n m3 F.xcoord c) + cos (val n m3 F.ycoord c) + sin (val n m3 F.zcoord c) = _
      rw [ex, ey, ez]
      rfl
    · rw [val_frame hF.thermCond (f6 _ (s 1 2 (by decide) (by decide) (by decide))), v5 c hc' ⟨⟨dx c hc, dy c hc⟩, dz c hc⟩]
      show val n m4 F.xcoord c + val n m4 F.ycoord c + val n m4 F.zcoord c = _
      rw [val_frame hF.xcoord (f4 _ (s 3 0 (by decide) (by decide) (by decide))),
        val_frame hF.ycoord (f4 _ (s 4 0 (by decide) (by decide) (by decide))),
        val_frame hF.zcoord (f4 _ (s 5 0 (by decide) (by decide) (by decide))), ex, ey, ez]
      rfl

theorem unit_spans {c : IntVec} (hc : InMesh n c) {d : Dir} (hd : 1 < comp n d) :
    InSpans n ⟨1, 1, 1⟩ ⟨1, 1, 1⟩ (c + unit d) ∧ InSpans n ⟨1, 1, 1⟩ ⟨1, 1, 1⟩ (c - unit d) := by
  obtain ⟨p1, p2⟩ := plane_unit hd
  have pc := inSpans_plane (mesh_spans hc)
  unfold InMesh at hc
  refine ⟨inSpans_of ?_ ?_ (inPlane_add pc p1), ?_⟩
  · cases d <;> simp only [unit] <;> iv_omega
  · cases d <;> simp only [unit] <;> iv_omega
  · rw [← add_neg']
    refine inSpans_of ?_ ?_ (inPlane_add pc p2)
    · cases d <;> simp only [unit] <;> iv_omega
    · cases d <;> simp only [unit] <;> iv_omega

theorem add_sub' (c u : IntVec) : c + u - u = c := by ext <;> simp

/-- The right-hand side depends on the cell and its neighbours only. -/
theorem heatRhs_congr {h : Dir → K} {T T' k k' rc rc' : IntVec → K} {c : IntVec} (hc : InMesh n c)
    (hT : ∀ c, InSpans n ⟨1, 1, 1⟩ ⟨1, 1, 1⟩ c → T c = T' c) (hk : ∀ c, InSpans n ⟨1, 1, 1⟩ ⟨1, 1, 1⟩ c → k c = k' c)
    (hr : rc c = rc' c) : heatRhs n h T k rc c = heatRhs n h T' k' rc' c := by
  have ho : ∀ d, outflow n h T k c d = outflow n h T' k' c d := by
    intro d
    unfold outflow
    split
    · next hd =>
      obtain ⟨u1, u2⟩ := unit_spans hc hd
      have u0 := mesh_spans hc
      unfold heatFlux
      rw [add_sub', hT _ u0, hT _ u1, hT _ u2, hk _ u0, hk _ u1, hk _ u2]
    · rfl
  unfold heatRhs
  rw [ho, ho, ho, hr]

/-- C73 (the program). For every number of cells, lengths and number of time steps, at least one, the program ends, and the
right-hand side holds at each cell the finite-volume form of `∇·(k ∇T)` for `T = sin(x) + cos(y) + sin(z)` and
`k = x + y + z` at the cell centres; `ρ cp` is 1. -/
theorem _root_.SpatialOps.C73_program [CharZero K] (sin cos : K → K) (n : IntVec) (hn : IntVec.Lt 0 n) (L : Dir → K) (_hL : ∀ d, L d ≠ 0)
    (ntime : Nat) (ht : 0 < ntime) (blk : Nat → Nat) (hs : Separate blk) (work work' : Nat → Dir → Nat)
    (hw : ∀ k, Fresh blk (work k)) (hw' : ∀ k, Fresh blk (work' k)) (m : Mem K) :
    ∃ F m', main sin cos n L ntime blk work work' m = .ok (F, m') ∧
      ∀ c, InMesh n c → val n m' F.rhs c =
        heatRhs n (meshSpacing n L) (initialT sin cos n L) (initialK n L) (fun _ => 1) c := by
  obtain ⟨F, hb, hF⟩ := build_ok hn blk
  obtain ⟨m1, h1, v1⟩ := init_ok hn L sin cos hs hF m
  have hsp : spacing (fun d => (extract n d).toNat) L = meshSpacing n L := by
    funext d
    unfold spacing meshSpacing
    dsimp only
    rw [extract_comp]
    have : 0 ≤ comp n d := by cases d <;> simp only [comp] <;> iv_omega
    rw [← Int.cast_natCast, Int.toNat_of_nonneg this]
  obtain ⟨m2, h2, v2, -⟩ := loop_ok hn (meshSpacing n L) hs hF hw hw' ntime m1
  refine ⟨F, m2, ?_, fun c hc => ?_⟩
  · unfold main
    rw [hb, Outcome.ok_bind, h1, Outcome.ok_bind, hsp, h2]
    rfl
  · rw [v2 ht c hc]
    exact heatRhs_congr hc (fun c hc => (v1 c hc).1) (fun c hc => (v1 c hc).2.1) (v1 c (mesh_spans hc)).2.2

/-- Example: three cells on a line of length 1, `sin` and `cos` replaced by the identity. Then `T` is `x + 1` and `k` is `x + 1`, and the
right-hand side, the derivative of `k`, is 1 in every cell. -/
example (ntime : Nat) (ht : 0 < ntime) (m : Mem ℚ) : ∃ F m',
    main (fun x => x) (fun x => x) ⟨3, 1, 1⟩ (fun _ => (1 : ℚ)) ntime (fun i => i) (fun _ _ => 10) (fun _ _ => 10) m = .ok (F, m') ∧
      ∀ c, InMesh ⟨3, 1, 1⟩ c → val ⟨3, 1, 1⟩ m' F.rhs c = 1 := by
  obtain ⟨F, m', h1, h2⟩ := C73_program (fun x : ℚ => x) (fun x => x) ⟨3, 1, 1⟩ (by decide) (fun _ => 1) (fun _ => one_ne_zero) ntime ht
    (fun i => i) (fun _ _ _ _ h => h) (fun _ _ => 10) (fun _ _ => 10) (fun _ i hi _ => by dsimp only; omega) (fun _ i hi _ => by dsimp only; omega) m
  refine ⟨F, m', h1, fun c hc => ?_⟩
  rw [h2 c hc]
  unfold heatRhs outflow heatFlux initialT initialK meshSpacing
  simp [comp, unit]
  ring

/-! ## Physics -/

theorem blockSum_div (lo ext : IntVec) (f : IntVec → K) (a : K) : blockSum lo ext (fun c => f c / a) = blockSum lo ext f / a := by
  simp only [div_eq_mul_inv]
  exact blockSum_mul lo ext f a⁻¹

theorem blockSum_zero (lo ext : IntVec) : blockSum lo ext (fun _ => (0 : K)) = 0 := by
  unfold blockSum
  simp

/-- C73 (energy). Summed over the mesh, `ρ cp` times the right-hand side is what flows through the boundary: inside, what leaves
a cell enters its neighbour. -/
theorem _root_.SpatialOps.C73_energy [CharZero K] (n : IntVec) (hn : IntVec.Lt 0 n) (h : Dir → K) (_hh : ∀ d, 1 < comp n d → h d ≠ 0)
    (blk : Nat → Nat) (hs : Separate blk) (work work' : Dir → Nat) (hw : Fresh blk work) (hw' : Fresh blk work') :
    ∃ F, build n blk = .ok F ∧ ∀ m : Mem K, (∀ c, InMesh n c → val n m F.rhoCp c ≠ 0) →
      ∃ m', timeStep h n F work work' m = .ok m' ∧
        blockSum 0 n (fun c => val n m F.rhoCp c * val n m' F.rhs c) =
          netInflow n h (val n m F.temperature) (val n m F.thermCond) .x +
          netInflow n h (val n m F.temperature) (val n m F.thermCond) .y +
          netInflow n h (val n m F.temperature) (val n m F.thermCond) .z := by
  obtain ⟨F, hb, hF⟩ := build_ok hn blk
  refine ⟨F, hb, fun m hr => ?_⟩
  obtain ⟨m', h1, h2, -⟩ := step_ok hn h hs hF hw hw' m
  refine ⟨m', h1, ?_⟩
  generalize val n m F.temperature = T at *
  generalize val n m F.thermCond = k at *
  have key : ∀ d, blockSum 0 n (fun c => outflow n h T k c d) = -netInflow n h T k d := by
    intro d
    unfold outflow netInflow
    split
    · rw [blockSum_div (f := fun c => heatFlux h T k d (c + unit d) - heatFlux h T k d c),
        blockSum_telescope d 0 n (by iv_omega) (heatFlux h T k d), show (0 : IntVec) + along (comp n d) d = along (comp n d) d by
          ext <;> simp]
      ring
    · rw [blockSum_zero, neg_zero]
  have e : blockSum 0 n (fun c => val n m F.rhoCp c * val n m' F.rhs c) =
      blockSum 0 n (fun c => (outflow n h T k c .x + outflow n h T k c .y + outflow n h T k c .z) * (-1)) := by
    refine blockSum_congr fun c hc => ?_
    have hm : InMesh n c := ⟨hc.1, by have := hc.2; iv_omega⟩
    rw [h2 c hm]
    unfold heatRhs
    have := hr c hm
    field_simp
  rw [e, blockSum_mul 0 n (fun c => outflow n h T k c .x + outflow n h T k c .y + outflow n h T k c .z),
    blockSum_add 0 n (fun c => outflow n h T k c .x + outflow n h T k c .y), blockSum_add, key, key, key]
  ring

/-- C73 (equilibrium). A uniform temperature stays uniform: the right-hand side is zero everywhere. -/
theorem _root_.SpatialOps.C73_equilibrium [CharZero K] (n : IntVec) (hn : IntVec.Lt 0 n) (h : Dir → K) (_hh : ∀ d, 1 < comp n d → h d ≠ 0)
    (blk : Nat → Nat) (hs : Separate blk) (work work' : Dir → Nat) (hw : Fresh blk work) (hw' : Fresh blk work') :
    ∃ F, build n blk = .ok F ∧ ∀ (m : Mem K) (T0 : K), (∀ c, InMesh n c → val n m F.rhoCp c ≠ 0) →
      (∀ c c', InMesh n c → c' = c ∨ Neighbour n c c' → val n m F.temperature c' = T0) →
      ∃ m', timeStep h n F work work' m = .ok m' ∧ ∀ c, InMesh n c → val n m' F.rhs c = 0 := by
  obtain ⟨F, hb, hF⟩ := build_ok hn blk
  refine ⟨F, hb, fun m T0 _ hT => ?_⟩
  obtain ⟨m', h1, h2, -⟩ := step_ok hn h hs hF hw hw' m
  refine ⟨m', h1, fun c hc => ?_⟩
  have ho : ∀ d, outflow n h (val n m F.temperature) (val n m F.thermCond) c d = 0 := by
    intro d
    unfold outflow
    split
    · next hd =>
      unfold heatFlux
      rw [add_sub', hT c c hc (.inl rfl), hT c _ hc (.inr ⟨d, hd, .inl rfl⟩), hT c _ hc (.inr ⟨d, hd, .inr rfl⟩)]
      simp
    · rfl
  rw [h2 c hc]
  unfold heatRhs
  rw [ho, ho, ho]
  simp

/-- C73 (maximum principle). Where no neighbour is hotter the temperature does not rise, and where no neighbour is colder it does
not fall, if conductivities are not negative and `ρ cp` is positive. -/
theorem _root_.SpatialOps.C73_maximum {K : Type} [Field K] [LinearOrder K] [IsStrictOrderedRing K] (n : IntVec) (hn : IntVec.Lt 0 n)
    (h : Dir → K) (_hh : ∀ d, 1 < comp n d → h d ≠ 0) (blk : Nat → Nat) (hs : Separate blk) (work work' : Dir → Nat) (hw : Fresh blk work)
    (hw' : Fresh blk work') :
    ∃ F, build n blk = .ok F ∧ ∀ m : Mem K, (∀ c, InMesh n c → 0 < val n m F.rhoCp c) →
      ∃ m', timeStep h n F work work' m = .ok m' ∧ ∀ c, InMesh n c → 0 ≤ val n m F.thermCond c →
        (∀ c', Neighbour n c c' → 0 ≤ val n m F.thermCond c') →
        ((∀ c', Neighbour n c c' → val n m F.temperature c' ≤ val n m F.temperature c) → val n m' F.rhs c ≤ 0) ∧
        ((∀ c', Neighbour n c c' → val n m F.temperature c ≤ val n m F.temperature c') → 0 ≤ val n m' F.rhs c) := by
  obtain ⟨F, hb, hF⟩ := build_ok hn blk
  refine ⟨F, hb, fun m hr => ?_⟩
  obtain ⟨m', h1, h2, -⟩ := step_ok hn h hs hF hw hw' m
  refine ⟨m', h1, fun c hc k0 hk => ?_⟩
  have hrc := hr c hc
  rw [h2 c hc]
  generalize val n m F.temperature = T at *
  generalize val n m F.thermCond = k at *
  generalize val n m F.rhoCp = rc at *
  have form : ∀ d, heatFlux h T k d (c + unit d) / h d - heatFlux h T k d c / h d =
      ((k c + k (c + unit d)) / 2 * (T c - T (c + unit d)) + (k (c - unit d) + k c) / 2 * (T c - T (c - unit d))) / (h d * h d) := by
    intro d
    unfold heatFlux
    rw [add_sub']
    rw [← div_div]
    ring
  have sgn : ∀ d, 1 < comp n d → 0 ≤ (k c + k (c + unit d)) / 2 ∧ 0 ≤ (k (c - unit d) + k c) / 2 := by
    intro d hd
    have a := hk _ ⟨d, hd, .inl rfl⟩
    have b := hk _ ⟨d, hd, .inr rfl⟩
    constructor <;> linarith
  unfold heatRhs
  constructor
  · intro hT
    have ho : ∀ d, 0 ≤ outflow n h T k c d := by
      intro d
      unfold outflow
      split
      · next hd =>
        rw [sub_div, form]
        obtain ⟨s1, s2⟩ := sgn d hd
        have a := hT _ ⟨d, hd, .inl rfl⟩
        have b := hT _ ⟨d, hd, .inr rfl⟩
        exact div_nonneg (add_nonneg (mul_nonneg s1 (by linarith)) (mul_nonneg s2 (by linarith))) (mul_self_nonneg _)
      · exact le_refl _
    have := div_nonneg (add_nonneg (add_nonneg (ho .x) (ho .y)) (ho .z)) hrc.le
    linarith
  · intro hT
    have ho : ∀ d, outflow n h T k c d ≤ 0 := by
      intro d
      unfold outflow
      split
      · next hd =>
        rw [sub_div, form]
        obtain ⟨s1, s2⟩ := sgn d hd
        have a := hT _ ⟨d, hd, .inl rfl⟩
        have b := hT _ ⟨d, hd, .inr rfl⟩
        exact div_nonpos_of_nonpos_of_nonneg (add_nonpos (mul_nonpos_of_nonneg_of_nonpos s1 (by linarith))
          (mul_nonpos_of_nonneg_of_nonpos s2 (by linarith))) (mul_self_nonneg _)
      · exact le_refl _
    have := div_nonpos_of_nonpos_of_nonneg (add_nonpos (add_nonpos (ho .x) (ho .y)) (ho .z)) hrc.le
    linarith

end

/-! Example: three cells on a line, one hot in the middle. -/

namespace HeatEx

/-- Temperature 5 in cell 1, 1 elsewhere; all other values 1. -/
def hot : Mem ℚ := fun b a => if b = 0 ∧ a = 2 then 5 else 1

theorem sep : Separate fun i => i := fun _ _ _ _ h => h
theorem fresh : Fresh (fun i => i) fun _ => 10 := fun i hi _ => by dsimp only; omega

theorem addr {F : Fields} (hF : Built ⟨3, 1, 1⟩ (fun i => i) F) (c : IntVec) (m : Mem ℚ) :
    val ⟨3, 1, 1⟩ m F.temperature c = m 0 (1 + c.x) := by
  have h := hF.temperature
  unfold val flatAddr
  rw [h.target.mem, h.offset, h.valid]
  simp [places, place, fortranPos, G]

/-- The hypotheses of the theorems on one step hold, and the hot cell does not get hotter. -/
example : ∃ F, build ⟨3, 1, 1⟩ (fun i => i) = .ok F ∧ ∃ m', timeStep (fun _ => (1 : ℚ)) ⟨3, 1, 1⟩ F (fun _ => 10) (fun _ => 10) hot = .ok m' ∧
    val ⟨3, 1, 1⟩ m' F.rhs ⟨1, 0, 0⟩ ≤ 0 := by
  obtain ⟨F, hb, hm⟩ := C73_maximum (K := ℚ) ⟨3, 1, 1⟩ (by decide) (fun _ => 1) (fun _ _ => one_ne_zero) (fun i => i) sep
    (fun _ => 10) (fun _ => 10) fresh fresh
  obtain ⟨F', hb', hF⟩ := build_ok (n := ⟨3, 1, 1⟩) (by decide) fun i => i
  obtain rfl := Outcome.ok.inj (hb.symm.trans hb')
  have one : ∀ (f : FieldObj) (i : Nat), i ≠ 0 → f.values = some i → ∀ c, val ⟨3, 1, 1⟩ hot f c = 1 := by
    intro f i hi hv c
    unfold val hot
    rw [hv, Option.getD_some, if_neg fun h => hi h.1]
  have rc := one F.rhoCp 2 (by decide) hF.rhoCp.target.mem
  have kc := one F.thermCond 1 (by decide) hF.thermCond.target.mem
  obtain ⟨m', h1, h2⟩ := hm hot fun c _ => by rw [rc]; exact one_pos
  refine ⟨F, hb, m', h1, (h2 ⟨1, 0, 0⟩ (by unfold InMesh; decide) (by rw [kc]; exact zero_le_one) fun c' _ => by rw [kc]; exact zero_le_one).1 ?_⟩
  rintro c' ⟨d, hd, hc⟩
  have : d = .x := by cases d <;> first | rfl | exact absurd hd (by decide)
  subst this
  rw [addr hF ⟨1, 0, 0⟩]
  rcases hc with rfl | rfl <;> rw [addr hF _] <;> simp [hot, unit]

/-- Its right-hand side is -8, those of the cells next to it 4. -/
example : ∃ F, build ⟨3, 1, 1⟩ (fun i => i) = .ok F ∧ ∃ m', timeStep (fun _ => (1 : ℚ)) ⟨3, 1, 1⟩ F (fun _ => 10) (fun _ => 10) hot = .ok m' ∧
    val ⟨3, 1, 1⟩ m' F.rhs ⟨0, 0, 0⟩ = 4 ∧ val ⟨3, 1, 1⟩ m' F.rhs ⟨1, 0, 0⟩ = -8 ∧ val ⟨3, 1, 1⟩ m' F.rhs ⟨2, 0, 0⟩ = 4 := by
  obtain ⟨F, hb, hm⟩ := C73_step (K := ℚ) ⟨3, 1, 1⟩ (by decide) (fun _ => 1) (fun _ _ => one_ne_zero) (fun i => i) sep
    (fun _ => 10) (fun _ => 10) fresh fresh
  obtain ⟨F', hb', hF⟩ := build_ok (n := ⟨3, 1, 1⟩) (by decide) fun i => i
  obtain rfl := Outcome.ok.inj (hb.symm.trans hb')
  have one : ∀ (f : FieldObj) (i : Nat), i ≠ 0 → f.values = some i → ∀ c, val ⟨3, 1, 1⟩ hot f c = 1 := by
    intro f i hi hv c
    unfold val hot
    rw [hv, Option.getD_some, if_neg fun h => hi h.1]
  have rc := one F.rhoCp 2 (by decide) hF.rhoCp.target.mem
  have kc := one F.thermCond 1 (by decide) hF.thermCond.target.mem
  obtain ⟨m', h1, h2, -⟩ := hm hot fun c _ => by rw [rc]; exact one_ne_zero
  have ev : ∀ x : Int, 0 ≤ x → x < 3 → val ⟨3, 1, 1⟩ m' F.rhs ⟨x, 0, 0⟩ = hot 0 (x + 2) + hot 0 x - 2 * hot 0 (x + 1) := by
    intro x x0 x1
    rw [h2 ⟨x, 0, 0⟩ ⟨⟨x0, Int.le_refl 0, Int.le_refl 0⟩, x1, Int.one_pos, Int.one_pos⟩]
    unfold heatRhs outflow heatFlux
    simp only [rc, kc, comp, unit]
    rw [addr hF _, addr hF _, addr hF _, addr hF _]
    simp only [IntVec.add_x, IntVec.sub_x]
    rw [show 1 + (x + 1) = x + 2 by omega, show 1 + (x + 1 - 1) = x + 1 by omega, show 1 + x = x + 1 by omega, show 1 + (x - 1) = x by omega]
    simp
    ring
  refine ⟨F, hb, m', h1, ?_, ?_, ?_⟩ <;> rw [ev _ (by decide) (by decide)] <;> norm_num [hot]

/-- The hypotheses of the theorem on equilibrium hold of a two-dimensional mesh with all values 1, those of the theorem on energy and
of the theorem on any number of steps of any values with `ρ cp` 1. -/
example : (∃ F, build ⟨3, 1, 4⟩ (fun i => i) = .ok F ∧ ∃ m', timeStep (fun _ => (1 : ℚ)) ⟨3, 1, 4⟩ F (fun _ => 10) (fun _ => 10) (fun _ _ => 1) = .ok m' ∧
      ∀ c, InMesh ⟨3, 1, 4⟩ c → val ⟨3, 1, 4⟩ m' F.rhs c = 0) ∧
    (∃ F, build ⟨3, 1, 1⟩ (fun i => i) = .ok F ∧ ∃ m', timeStep (fun _ => (1 : ℚ)) ⟨3, 1, 1⟩ F (fun _ => 10) (fun _ => 10) hot = .ok m' ∧
      blockSum 0 ⟨3, 1, 1⟩ (fun c => val ⟨3, 1, 1⟩ hot F.rhoCp c * val ⟨3, 1, 1⟩ m' F.rhs c) = 0) := by
  constructor
  · obtain ⟨F, hb, hm⟩ := C73_equilibrium (K := ℚ) ⟨3, 1, 4⟩ (by decide) (fun _ => 1) (fun _ _ => one_ne_zero) (fun i => i) sep
      (fun _ => 10) (fun _ => 10) fresh fresh
    exact ⟨F, hb, hm (fun _ _ => 1) 1 (fun _ _ => one_ne_zero) fun _ _ _ _ => rfl⟩
  · obtain ⟨F, hb, hm⟩ := C73_energy (K := ℚ) ⟨3, 1, 1⟩ (by decide) (fun _ => 1) (fun _ _ => one_ne_zero) (fun i => i) sep
      (fun _ => 10) (fun _ => 10) fresh fresh
    obtain ⟨F', hb', hF⟩ := build_ok (n := ⟨3, 1, 1⟩) (by decide) fun i => i
    obtain rfl := Outcome.ok.inj (hb.symm.trans hb')
    have one : ∀ (f : FieldObj) (i : Nat), i ≠ 0 → f.values = some i → ∀ c, val ⟨3, 1, 1⟩ hot f c = 1 := by
      intro f i hi hv c
      unfold val hot
      rw [hv, Option.getD_some, if_neg fun h => hi h.1]
    have rc := one F.rhoCp 2 (by decide) hF.rhoCp.target.mem
    have kc := one F.thermCond 1 (by decide) hF.thermCond.target.mem
    obtain ⟨m', h1, h2⟩ := hm hot fun c _ => by rw [rc]; exact one_ne_zero
    refine ⟨F, hb, m', h1, h2.trans ?_⟩
    unfold netInflow
    rw [if_pos (by decide), if_neg (by decide), if_neg (by decide)]
    unfold heatFlux blockSum
    simp only [layer, along, comp, unit, kc, Int.toNat_one, Finset.sum_range_one, addr hF]
    norm_num [hot]

end HeatEx
end Heat
end SpatialOps
