import Verif.Heat.Lemmas
import Verif.Grid.Props
import Mathlib.Tactic.Ring
import Mathlib.Tactic.FieldSimp

/-!
# Lemmas for the heat equation program: fluxes, right-hand side, time step
-/

namespace SpatialOps
namespace Heat

open Nebo Stencil

variable {n e : IntVec} {f : FieldObj} {b : Nat}

set_option linter.unusedSectionVars false

section
variable {K : Type} [NatCast K] [One K] [Neg K] [Zero K] [Add K] [Sub K] [Mul K] [Div K]

omit [NatCast K] [One K] [Neg K] [Zero K] [Add K] [Sub K] [Mul K] [Div K] in
theorem val_frame (h : Good n e f b) {m m' : Mem K} (hm : ∀ a, m' b a = m b a) (c : IntVec) : val n m' f c = val n m f c := by
  unfold val
  rw [h.target.mem, Option.getD_some, hm]

theorem add_zero' (c : IntVec) : c + 0 = c := by ext <;> simp
theorem add_neg' (c u : IntVec) : c + -u = c - u := by ext <;> simp <;> omega

/-- `op.apply_to_field` for the interpolants and gradients: from cells to faces. -/
theorem toFaces (hn : IntVec.Lt 0 n) {d : Dir} (hd : 1 < comp n d) {src l : FieldObj} {bs bl : Nat} (hs : Good n 0 src bs)
    (hl : Good n (unit d) l bl) (hb : bs ≠ bl) (u v : K) (m : Mem K) :
    ∃ m', assign l (.stencil (.more (.one (-unit d, u)) (0, v)) (.field src)) m = .ok m' ∧
      (∀ c, OnFaces n d c → val n m' l c = val n m src (c - unit d) * u + val n m src c * v) ∧
      ∀ blk, blk ≠ bl → ∀ a, m' blk a = m blk a := by
  obtain ⟨p1, p2⟩ := plane_unit hd
  obtain ⟨m', h1, h2, h3⟩ := stencil_good hn p1 hl hs hb (-unit d) 0 u v p2 (plane_zero n)
    (by cases d <;> decide) (by cases d <;> decide) (by cases d <;> decide) m
  refine ⟨m', h1, fun c hc => ?_, h3⟩
  rw [h2 c hc.1 hc.2, add_zero', add_neg']

/-- From faces to cells. -/
theorem toCells (hn : IntVec.Lt 0 n) {d : Dir} (hd : 1 < comp n d) {src l : FieldObj} {bs bl : Nat} (hs : Good n (unit d) src bs)
    (hl : Good n 0 l bl) (hb : bs ≠ bl) (u v : K) (m : Mem K) :
    ∃ m', assign l (.stencil (.more (.one (0, u)) (unit d, v)) (.field src)) m = .ok m' ∧
      (∀ c, InMesh n c → val n m' l c = val n m src c * u + val n m src (c + unit d) * v) ∧
      ∀ blk, blk ≠ bl → ∀ a, m' blk a = m blk a := by
  obtain ⟨p1, p2⟩ := plane_unit hd
  obtain ⟨m', h1, h2, h3⟩ := stencil_good hn (plane_zero n) hl hs hb 0 (unit d) u v (plane_zero n) p1
    (by cases d <;> decide) (by cases d <;> decide) (by cases d <;> decide) m
  refine ⟨m', h1, fun c hc => ?_, h3⟩
  rw [h2 c hc.1 (by rw [add_zero']; exact hc.2), add_zero']

/-- A field of the program is defined at every cell of its block. -/
theorem good_defined (h : Good n e f b) {e' : IntVec} (hle : IntVec.Le e' e) (c : IntVec) (c1 : IntVec.Le 0 c) (c2 : IntVec.Lt c (n + e'))
    (c3 : InPlane n c) : FlatHas n f.geo c :=
  (good_has h c).2 (inSpans_of (by iv_omega) (by iv_omega) c3)

omit [NatCast K] [One K] [Neg K] [Zero K] [Add K] [Sub K] [Mul K] [Div K] in
theorem indep_other {l : FieldObj} {bl : Nat} (h : Good n e f b) (hl : Good n e l bl) (hb : b ≠ bl) (s : IntVec) :
    (Expr.field f : Expr K .num).Independent l s := by
  refine .inl ?_
  rw [h.target.mem, hl.target.mem]
  exact fun e => hb (Option.some.inj e)

omit [NatCast K] [One K] [Neg K] [Zero K] [Add K] [Sub K] [Mul K] [Div K] in
theorem indep_self (l : FieldObj) : (Expr.field l : Expr K .num).Independent l 0 := .inr ⟨rfl, rfl, rfl⟩

theorem le_refl' (e : IntVec) : IntVec.Le e e := by iv_omega

/-- Fourier's law at face `c` in the order of operations of the program. -/
def fluxOf (h : Dir → K) (T k : IntVec → K) (d : Dir) (c : IntVec) : K :=
  -(T (c - unit d) * (-1 / h d) + T c * (1 / h d)) * (k (c - unit d) * (1 / 2) + k c * (1 / 2))

/-- `r` less the divergence of the flux `φ` over `rc`, in the order of operations of the program. -/
def lessFlow (n : IntVec) (h : Dir → K) (φ rc : IntVec → K) (d : Dir) (c : IntVec) (r : K) : K :=
  if 1 < comp n d then r - (φ c * (-1 / h d) + φ (c + unit d) * (1 / h d)) / rc c else r

/-- `calculate_flux` computes Fourier's law at every face. -/
theorem flux_ok (hn : IntVec.Lt 0 n) (h : Dir → K) {d : Dir} (hd : 1 < comp n d) {T k flux : FieldObj} {bT bk bf w : Nat}
    (hT : Good n 0 T bT) (hk : Good n 0 k bk) (hf : Good n (unit d) flux bf) (dT : bT ≠ bf) (wT : bT ≠ w)
    (wk : bk ≠ w) (wf : bf ≠ w) (m : Mem K) :
    ∃ m', calculateFlux h d T k flux w m = .ok m' ∧
      (∀ c, OnFaces n d c → val n m' flux c = fluxOf h (val n m T) (val n m k) d c) ∧
      ∀ blk, blk ≠ bf → blk ≠ w → ∀ a, m' blk a = m blk a := by
  have p1 := (plane_unit hd).1
  have hf' : Good n (faceType d).bcExtra flux bf := by rw [bcExtra_face]; exact hf
  obtain ⟨tmp, m0, h0, ht, f0⟩ := work_ok hf' w m
  rw [bcExtra_face] at ht
  obtain ⟨m1, h1, v1, f1⟩ := toFaces hn hd hk ht wk (1 / 2 : K) (1 / 2) m0
  obtain ⟨m2, h2, v2, f2⟩ := toFaces hn hd hT hf dT (-1 / h d : K) (1 / h d) m1
  obtain ⟨m3, h3, v3, f3⟩ := assign_good hn p1 hf (.bin (s := .num) (t := .num) (fun a b : K => a * b)
      (.un (s := .num) (t := .num) (fun a : K => -a) (.field flux)) (.field tmp)) ⟨good_on hf, good_on ht⟩
    (fun c c1 c2 c3 => ⟨good_defined hf (le_refl' _) c c1 c2 c3, good_defined ht (le_refl' _) c c1 c2 c3⟩)
    ⟨indep_self flux, indep_other ht hf wf.symm 0⟩ m2
  refine ⟨m3, ?_, fun c hc => ?_, fun blk b1 b2 a => ?_⟩
  · unfold calculateFlux
    rw [h0, Outcome.ok_bind]
    dsimp only
    unfold Reg.applyToField
    rw [interp_apply, grad_apply]
    dsimp only
    rw [h1, Outcome.ok_bind, h2, Outcome.ok_bind]
    exact h3
  · rw [v3 c hc.1 hc.2]
    show -val n m2 flux c * val n m2 tmp c = _
    rw [v2 c hc, val_frame ht (f2 w wf.symm), v1 c hc, val_frame hT (f1 bT wT), val_frame hT (f0 bT wT),
      val_frame hT (f1 bT wT), val_frame hT (f0 bT wT), val_frame hk (f0 bk wk), val_frame hk (f0 bk wk)]
    rfl
  · rw [f3 blk b1, f2 blk b1, f1 blk b2, f0 blk b2]

/-- `calculate_rhs` subtracts the divergence of the flux over `ρ cp` at every cell. -/
theorem rhs_ok (hn : IntVec.Lt 0 n) (h : Dir → K) {d : Dir} (hd : 1 < comp n d) {flux rc rhs : FieldObj} {bf bc br w : Nat}
    (hf : Good n (unit d) flux bf) (hc : Good n 0 rc bc) (hr : Good n 0 rhs br) (dc : bc ≠ br)
    (wf : bf ≠ w) (wc : bc ≠ w) (wr : br ≠ w) (m : Mem K) :
    ∃ m', calculateRhs h d flux rc rhs w m = .ok m' ∧
      (∀ c, InMesh n c → val n m' rhs c = lessFlow n h (val n m flux) (val n m rc) d c (val n m rhs c)) ∧
      ∀ blk, blk ≠ br → blk ≠ w → ∀ a, m' blk a = m blk a := by
  obtain ⟨tmp, m0, h0, ht, f0⟩ := work_ok (t := .sVol) hr w m
  have ht : Good n 0 tmp w := ht
  obtain ⟨m1, h1, v1, f1⟩ := toCells hn hd hf ht wf (-1 / h d : K) (1 / h d) m0
  obtain ⟨m2, h2, v2, f2⟩ := assign_good hn (plane_zero n) hr (.bin (s := .num) (t := .num) (fun a b : K => a - b) (.field rhs)
    (.bin (s := .num) (t := .num) (fun a b : K => a / b) (.field tmp) (.field rc))) ⟨good_on hr, good_on ht, good_on hc⟩
    (fun c c1 c2 c3 => ⟨good_defined hr (le_refl' _) c c1 c2 c3, good_defined ht (le_refl' _) c c1 c2 c3,
      good_defined hc (le_refl' _) c c1 c2 c3⟩)
    ⟨indep_self rhs, indep_other ht hr wr.symm 0, indep_other hc hr dc 0⟩ m1
  refine ⟨m2, ?_, fun c c1 => ?_, fun blk b1 b2 a => ?_⟩
  · unfold calculateRhs
    rw [h0, Outcome.ok_bind]
    dsimp only
    unfold Reg.applyToField
    rw [div_apply]
    dsimp only
    rw [h1, Outcome.ok_bind]
    exact h2
  · rw [v2 c c1.1 (by rw [add_zero']; exact c1.2)]
    show val n m1 rhs c - val n m1 tmp c / val n m1 rc c = _
    rw [v1 c c1, val_frame hr (f1 br wr), val_frame hr (f0 br wr), val_frame hc (f1 bc wc), val_frame hc (f0 bc wc),
      val_frame hf (f0 bf wf), val_frame hf (f0 bf wf)]
    unfold lessFlow
    rw [if_pos hd]
  · rw [f2 blk b1, f1 blk b2, f0 blk b2]

/-! ## The fields -/

/-- Which of the ten blocks holds the flux in direction `d`. -/
def fb : Dir → Nat
  | .x => 7
  | .y => 8
  | .z => 9

theorem fb_bound (d : Dir) : 7 ≤ fb d ∧ fb d < 10 := by cases d <;> decide

theorem fb_inj {d d' : Dir} (h : d ≠ d') : fb d ≠ fb d' := by
  cases d <;> cases d' <;> first | exact absurd rfl h | decide

/-- The fields as `build` makes them. -/
structure Built (n : IntVec) (blk : Nat → Nat) (F : Fields) : Prop where
  temperature : Good n 0 F.temperature (blk 0)
  thermCond : Good n 0 F.thermCond (blk 1)
  rhoCp : Good n 0 F.rhoCp (blk 2)
  xcoord : Good n 0 F.xcoord (blk 3)
  ycoord : Good n 0 F.ycoord (blk 4)
  zcoord : Good n 0 F.zcoord (blk 5)
  rhs : Good n 0 F.rhs (blk 6)
  flux : ∀ d, 1 < comp n d → Good n (unit d) (F.flux d) (blk (fb d))

theorem build_ok (hn : IntVec.Lt 0 n) (blk : Nat → Nat) : ∃ F, build n blk = .ok F ∧ Built n blk F := by
  have vol : ∀ i, ∃ f, newField n .sVol (blk i) = .ok f ∧ Good n 0 f (blk i) := by
    intro i
    obtain ⟨f, h1, h2⟩ := newField_ok hn .sVol (blk i) (by decide)
    exact ⟨f, h1, h2 (plane_zero n)⟩
  have face : ∀ d, ∃ f, newField n (faceType d) (blk (fb d)) = .ok f ∧ (1 < comp n d → Good n (unit d) f (blk (fb d))) := by
    intro d
    obtain ⟨f, h1, h2⟩ := newField_ok hn (faceType d) (blk (fb d)) (by rw [bcExtra_face]; exact unit_nonneg d)
    rw [bcExtra_face] at h2
    exact ⟨f, h1, fun h => h2 (plane_unit h).1⟩
  obtain ⟨f0, a0, g0⟩ := vol 0
  obtain ⟨f1, a1, g1⟩ := vol 1
  obtain ⟨f2, a2, g2⟩ := vol 2
  obtain ⟨f3, a3, g3⟩ := vol 3
  obtain ⟨f4, a4, g4⟩ := vol 4
  obtain ⟨f5, a5, g5⟩ := vol 5
  obtain ⟨f6, a6, g6⟩ := vol 6
  obtain ⟨fx, ax, gx⟩ := face .x
  obtain ⟨fy, ay, gy⟩ := face .y
  obtain ⟨fz, az, gz⟩ := face .z
  simp only [faceType, fb] at ax ay az
  refine ⟨⟨f0, f1, f2, f3, f4, f5, f6, fun | .x => fx | .y => fy | .z => fz⟩, ?_, g0, g1, g2, g3, g4, g5, g6, ?_⟩
  · unfold build
    simp only [a0, a1, a2, a3, a4, a5, a6, ax, ay, az, Outcome.ok_bind]
    rfl
  · intro d
    cases d
    · exact gx
    · exact gy
    · exact gz

/-! ## The time step -/

theorem sep {blk : Nat → Nat} (hs : Separate blk) (i j : Nat) (hi : i < 10) (hj : j < 10) (h : i ≠ j) : blk i ≠ blk j := hs i hi j hj h

theorem extract_comp (n : IntVec) (d : Dir) : extract n d = comp n d := by cases d <;> rfl

theorem fluxIf_ok (hn : IntVec.Lt 0 n) (h : Dir → K) {blk : Nat → Nat} (hs : Separate blk) {F : Fields} (hF : Built n blk F)
    {w : Nat} (hw : ∀ i < 10, w ≠ blk i) (d : Dir) (m : Mem K) :
    ∃ m', fluxIf h n F w d m = .ok m' ∧
      (1 < comp n d → ∀ c, OnFaces n d c →
        val n m' (F.flux d) c = fluxOf h (val n m F.temperature) (val n m F.thermCond) d c) ∧
      ∀ b, b ≠ blk (fb d) → b ≠ w → ∀ a, m' b a = m b a := by
  unfold fluxIf
  rw [extract_comp]
  have hb := fb_bound d
  split
  · next hd =>
    obtain ⟨m', h1, h2, h3⟩ := flux_ok hn h hd hF.temperature hF.thermCond (hF.flux d hd) (sep hs 0 (fb d) (by omega) hb.2 (by omega))
      (hw 0 (by omega)).symm (hw 1 (by omega)).symm (hw (fb d) hb.2).symm m
    exact ⟨m', h1, fun _ => h2, h3⟩
  · next hd => exact ⟨m, rfl, fun h => absurd h hd, fun _ _ _ _ => rfl⟩

theorem rhsIf_ok (hn : IntVec.Lt 0 n) (h : Dir → K) {blk : Nat → Nat} (hs : Separate blk) {F : Fields} (hF : Built n blk F)
    {w : Nat} (hw : ∀ i < 10, w ≠ blk i) (d : Dir) (m : Mem K) :
    ∃ m', rhsIf h n F w d m = .ok m' ∧
      (∀ c, InMesh n c → val n m' F.rhs c =
        lessFlow n h (val n m (F.flux d)) (val n m F.rhoCp) d c (val n m F.rhs c)) ∧
      ∀ b, b ≠ blk 6 → b ≠ w → ∀ a, m' b a = m b a := by
  unfold rhsIf
  rw [extract_comp]
  have hb := fb_bound d
  split
  · next hd =>
    exact rhs_ok hn h hd (hF.flux d hd) hF.rhoCp hF.rhs (sep hs 2 6 (by omega) (by omega) (by omega))
      (hw (fb d) hb.2).symm (hw 2 (by omega)).symm (hw 6 (by omega)).symm m
  · next hd => exact ⟨m, rfl, fun c _ => by unfold lessFlow; rw [if_neg hd], fun _ _ _ _ => rfl⟩

theorem onFaces_low {d : Dir} {c : IntVec} (h : InMesh n c) : OnFaces n d c := by
  unfold InMesh at h
  unfold OnFaces
  cases d <;> simp only [unit] <;> iv_omega

theorem onFaces_high {d : Dir} {c : IntVec} (h : InMesh n c) : OnFaces n d (c + unit d) := by
  unfold InMesh at h
  unfold OnFaces
  cases d <;> simp only [unit] <;> iv_omega

omit [NatCast K] [One K] [Neg K] [Zero K] [Add K] [Sub K] [Mul K] [Div K] in
theorem scalar_defined {e : IntVec} (he : IntVec.Le 0 e ∧ IntVec.Le e ⟨1, 1, 1⟩) (v : K) (c : IntVec)
    (hc : InSpans n ⟨1, 1, 1⟩ (⟨1, 1, 1⟩ + e) c) : (Expr.scalar (t := .num) v : Expr K .num).FlatDefined n c := by
  unfold Expr.FlatDefined
  unfold InSpans InSpan at *
  have : (2 : Int) ≤ ghostMax := by decide
  generalize ghostMax = g at *
  obtain ⟨⟨e1, e2, e3⟩, e4, e5, e6⟩ := he
  simp only [IntVec.add_x, IntVec.add_y, IntVec.add_z, IntVec.zero_x, IntVec.zero_y, IntVec.zero_z] at *
  obtain ⟨⟨a1, a2⟩, ⟨a3, a4⟩, a5, a6⟩ := hc
  refine ⟨⟨a1, fun h => ?_⟩, ⟨a3, fun h => ?_⟩, a5, fun h => ?_⟩
  · have := a2 h; omega
  · have := a4 h; omega
  · have := a6 h; omega

theorem scalar_ok (hn : IntVec.Lt 0 n) {l : FieldObj} (hl : Good n 0 l b) (v : K) (m : Mem K) :
    ∃ m', assign l (.scalar (t := .num) v) m = .ok m' ∧ (∀ c, InSpans n ⟨1, 1, 1⟩ ⟨1, 1, 1⟩ c → val n m' l c = v) ∧
      ∀ blk, blk ≠ b → ∀ a, m' blk a = m blk a := by
  have hd : ∀ c, InSpans n ⟨1, 1, 1⟩ (⟨1, 1, 1⟩ + 0) c → (Expr.scalar (t := .num) v : Expr K .num).FlatDefined n c :=
    fun c => scalar_defined (by decide) v c
  obtain ⟨m', h1, h2, h3⟩ := assign_stored hn (plane_zero n) hl (.scalar (t := .num) v) trivial
    (fun c c1 c2 c3 => hd c (inSpans_of (by iv_omega) (by iv_omega) c3)) trivial m
  exact ⟨m', h1, fun c hc => h2 c hc (hd c hc), h3⟩

theorem mesh_spans {c : IntVec} (h : InMesh n c) : InSpans n ⟨1, 1, 1⟩ ⟨1, 1, 1⟩ c := by
  unfold InMesh at h
  refine inSpans_of (by iv_omega) (by iv_omega) ?_
  unfold InPlane
  iv_omega

/-- The right-hand side at cell `c` in the order of operations of the program. -/
def rhsOf (n : IntVec) (h : Dir → K) (T k rc : IntVec → K) (c : IntVec) : K :=
  lessFlow n h (fluxOf h T k .z) rc .z c (lessFlow n h (fluxOf h T k .y) rc .y c (lessFlow n h (fluxOf h T k .x) rc .x c 0))

theorem step_gen (hn : IntVec.Lt 0 n) (h : Dir → K) {blk : Nat → Nat} (hs : Separate blk) {F : Fields} (hF : Built n blk F)
    {work work' : Dir → Nat} (hw : Fresh blk work) (hw' : Fresh blk work') (m : Mem K) :
    ∃ m', timeStep h n F work work' m = .ok m' ∧
      (∀ c, InMesh n c → val n m' F.rhs c =
        rhsOf n h (val n m F.temperature) (val n m F.thermCond) (val n m F.rhoCp) c) ∧
      ∀ b, (∀ i, 6 ≤ i → i < 10 → b ≠ blk i) → (∀ d, b ≠ work d ∧ b ≠ work' d) → ∀ a, m' b a = m b a := by
  obtain ⟨m1, h1, v1, f1⟩ := fluxIf_ok hn h hs hF (fun i hi => hw i hi .x) .x m
  obtain ⟨m2, h2, v2, f2⟩ := fluxIf_ok hn h hs hF (fun i hi => hw i hi .y) .y m1
  obtain ⟨m3, h3, v3, f3⟩ := fluxIf_ok hn h hs hF (fun i hi => hw i hi .z) .z m2
  obtain ⟨m4, h4, v4, f4⟩ := scalar_ok hn hF.rhs 0 m3
  obtain ⟨m5, h5, v5, f5⟩ := rhsIf_ok hn h hs hF (fun i hi => hw' i hi .x) .x m4
  obtain ⟨m6, h6, v6, f6⟩ := rhsIf_ok hn h hs hF (fun i hi => hw' i hi .y) .y m5
  obtain ⟨m7, h7, v7, f7⟩ := rhsIf_ok hn h hs hF (fun i hi => hw' i hi .z) .z m6
  have wb : ∀ d, ∀ i < 10, blk i ≠ work d := fun d i hi => (hw i hi d).symm
  have wb' : ∀ d, ∀ i < 10, blk i ≠ work' d := fun d i hi => (hw' i hi d).symm
  have s : ∀ i j, i < 10 → j < 10 → i ≠ j → blk i ≠ blk j := fun i j hi hj => sep hs i j hi hj
  have T1 := fun c => val_frame hF.temperature (f1 _ (s 0 _ (by decide) (by decide) (by decide)) (wb .x 0 (by decide))) c
  have T2 := fun c => val_frame hF.temperature (f2 _ (s 0 _ (by decide) (by decide) (by decide)) (wb .y 0 (by decide))) c
  have k1 := fun c => val_frame hF.thermCond (f1 _ (s 1 _ (by decide) (by decide) (by decide)) (wb .x 1 (by decide))) c
  have k2 := fun c => val_frame hF.thermCond (f2 _ (s 1 _ (by decide) (by decide) (by decide)) (wb .y 1 (by decide))) c
  have T2' : val n m2 F.temperature = val n m F.temperature := funext fun c => (T2 c).trans (T1 c)
  have T1' : val n m1 F.temperature = val n m F.temperature := funext T1
  have k2' : val n m2 F.thermCond = val n m F.thermCond := funext fun c => (k2 c).trans (k1 c)
  have k1' : val n m1 F.thermCond = val n m F.thermCond := funext k1
  rw [T1', k1'] at v2
  rw [T2', k2'] at v3
  refine ⟨m7, ?_, fun c hc => ?_, fun b b1 b2 a => ?_⟩
  · unfold timeStep
    rw [h1, Outcome.ok_bind, h2, Outcome.ok_bind, h3, Outcome.ok_bind, h4, Outcome.ok_bind, h5, Outcome.ok_bind, h6, Outcome.ok_bind, h7]
  · have r4 : val n m4 F.rhoCp c = val n m F.rhoCp c := by
      rw [val_frame hF.rhoCp (f4 _ (s 2 6 (by decide) (by decide) (by decide))),
        val_frame hF.rhoCp (f3 _ (s 2 _ (by decide) (by decide) (by decide)) (wb .z 2 (by decide))),
        val_frame hF.rhoCp (f2 _ (s 2 _ (by decide) (by decide) (by decide)) (wb .y 2 (by decide))),
        val_frame hF.rhoCp (f1 _ (s 2 _ (by decide) (by decide) (by decide)) (wb .x 2 (by decide)))]
    have r5 : val n m5 F.rhoCp c = val n m F.rhoCp c := by
      rw [val_frame hF.rhoCp (f5 _ (s 2 6 (by decide) (by decide) (by decide)) (wb' .x 2 (by decide))), r4]
    have r6 : val n m6 F.rhoCp c = val n m F.rhoCp c := by
      rw [val_frame hF.rhoCp (f6 _ (s 2 6 (by decide) (by decide) (by decide)) (wb' .y 2 (by decide))), r5]
    have ox : ∀ r, lessFlow n h (val n m4 (F.flux .x)) (val n m4 F.rhoCp) .x c r =
        lessFlow n h (fluxOf h (val n m F.temperature) (val n m F.thermCond) .x) (val n m F.rhoCp) .x c r := by
      intro r
      unfold lessFlow
      rw [r4]
      split
      · next hd =>
        have fr := fun c => val_frame (hF.flux .x hd) (f4 _ (s 7 6 (by decide) (by decide) (by decide))) c
        have fr2 := fun c => val_frame (hF.flux .x hd) (f3 _ (s 7 _ (by decide) (by decide) (by decide)) (wb .z 7 (by decide))) c
        have fr3 := fun c => val_frame (hF.flux .x hd) (f2 _ (s 7 _ (by decide) (by decide) (by decide)) (wb .y 7 (by decide))) c
        rw [fr, fr2, fr3, fr, fr2, fr3, v1 hd _ (onFaces_high hc), v1 hd _ (onFaces_low hc)]
      · rfl
    have oy : ∀ r, lessFlow n h (val n m5 (F.flux .y)) (val n m5 F.rhoCp) .y c r =
        lessFlow n h (fluxOf h (val n m F.temperature) (val n m F.thermCond) .y) (val n m F.rhoCp) .y c r := by
      intro r
      unfold lessFlow
      rw [r5]
      split
      · next hd =>
        have fr0 := fun c => val_frame (hF.flux .y hd) (f5 _ (s 8 6 (by decide) (by decide) (by decide)) (wb' .x 8 (by decide))) c
        have fr := fun c => val_frame (hF.flux .y hd) (f4 _ (s 8 6 (by decide) (by decide) (by decide))) c
        have fr2 := fun c => val_frame (hF.flux .y hd) (f3 _ (s 8 _ (by decide) (by decide) (by decide)) (wb .z 8 (by decide))) c
        rw [fr0, fr, fr2, fr0, fr, fr2, v2 hd _ (onFaces_high hc), v2 hd _ (onFaces_low hc)]
      · rfl
    have oz : ∀ r, lessFlow n h (val n m6 (F.flux .z)) (val n m6 F.rhoCp) .z c r =
        lessFlow n h (fluxOf h (val n m F.temperature) (val n m F.thermCond) .z) (val n m F.rhoCp) .z c r := by
      intro r
      unfold lessFlow
      rw [r6]
      split
      · next hd =>
        have fr0 := fun c => val_frame (hF.flux .z hd) (f6 _ (s 9 6 (by decide) (by decide) (by decide)) (wb' .y 9 (by decide))) c
        have fr1 := fun c => val_frame (hF.flux .z hd) (f5 _ (s 9 6 (by decide) (by decide) (by decide)) (wb' .x 9 (by decide))) c
        have fr := fun c => val_frame (hF.flux .z hd) (f4 _ (s 9 6 (by decide) (by decide) (by decide))) c
        rw [fr0, fr1, fr, fr0, fr1, fr, v3 hd _ (onFaces_high hc), v3 hd _ (onFaces_low hc)]
      · rfl
    rw [v7 c hc, oz, v6 c hc, oy, v5 c hc, ox, v4 c (mesh_spans hc)]
    rfl
  · have fl : ∀ d, b ≠ blk (fb d) := fun d => b1 (fb d) (by have := fb_bound d; omega) (fb_bound d).2
    rw [f7 b (b1 6 (by decide) (by decide)) (b2 .z).2, f6 b (b1 6 (by decide) (by decide)) (b2 .y).2,
      f5 b (b1 6 (by decide) (by decide)) (b2 .x).2, f4 b (b1 6 (by decide) (by decide)), f3 b (fl .z) (b2 .z).1,
      f2 b (fl .y) (b2 .y).1, f1 b (fl .x) (b2 .x).1]

end

section
variable {K : Type} [Field K]

theorem rhsOf_eq (n : IntVec) (h : Dir → K) (T k rc : IntVec → K) (c : IntVec) : rhsOf n h T k rc c = heatRhs n h T k rc c := by
  have hl : ∀ d r, lessFlow n h (fluxOf h T k d) rc d c r = r - outflow n h T k c d / rc c := by
    intro d r
    unfold lessFlow outflow
    split
    · unfold fluxOf heatFlux
      ring
    · simp
  unfold rhsOf heatRhs
  rw [hl, hl, hl]
  ring

theorem step_ok (hn : IntVec.Lt 0 n) (h : Dir → K) {blk : Nat → Nat} (hs : Separate blk) {F : Fields} (hF : Built n blk F)
    {work work' : Dir → Nat} (hw : Fresh blk work) (hw' : Fresh blk work') (m : Mem K) :
    ∃ m', timeStep h n F work work' m = .ok m' ∧
      (∀ c, InMesh n c → val n m' F.rhs c =
        heatRhs n h (val n m F.temperature) (val n m F.thermCond) (val n m F.rhoCp) c) ∧
      ∀ b, (∀ i, 6 ≤ i → i < 10 → b ≠ blk i) → (∀ d, b ≠ work d ∧ b ≠ work' d) → ∀ a, m' b a = m b a := by
  obtain ⟨m', h1, h2, h3⟩ := step_gen hn h hs hF hw hw' m
  exact ⟨m', h1, fun c hc => (h2 c hc).trans (rhsOf_eq n h _ _ _ c), h3⟩

/-! ## Coordinates -/

theorem coord_flat [CharZero K] (hn : IntVec.Lt 0 n) (L : Dir → K) (d : Dir) (ht : FlatTarget n G f b) (hx : f.geo.bc.hasExtra = 0)
    (hv : f.geo.validGhosts = G)
    (hi : (n.x = 1 → f.geo.interior.offset.x = 0) ∧ (n.x ≠ 1 → f.geo.interior.offset.x = 1) ∧
      (n.y = 1 → f.geo.interior.offset.y = 0) ∧ (n.y ≠ 1 → f.geo.interior.offset.y = 1) ∧
      (n.z = 1 → f.geo.interior.offset.z = 0) ∧ (n.z ≠ 1 → f.geo.interior.offset.z = 1)) (m : Mem K) :
    ∃ m', (Grid.make n L).setCoord d .sVol f m = .ok m' ∧
      (∀ c, InSpans n ⟨1, 1, 1⟩ ⟨1, 1, 1⟩ c → val n m' f c = position (meshSpacing n L) .sVol c d) ∧
      ∀ blk, blk ≠ b → ∀ a, m' blk a = m blk a := by
  have hw := ht.mesh.fits
  have sx := ht.mesh.x
  have sy := ht.mesh.y
  have sz := ht.mesh.z
  rw [hx, hv] at sx sy sz
  unfold Span at sx sy sz
  simp only [IntVec.zero_x, IntVec.zero_y, IntVec.zero_z, G] at sx sy sz
  have hne : f.geo.window.Nonempty := by
    unfold Window.Nonempty
    generalize f.geo.window.extent = we at *
    iv_omega
  obtain ⟨N, hN, g, hg, hcell⟩ := loopIndices_eq hne
  obtain ⟨m', h1, h2, h3⟩ := fold_coord (b := b) hw hne ((Grid.make n L).spacing d)
    (shift d .sVol * (Grid.make n L).spacing d) d (extract f.geo.interior.offset d) g m N
    (by rw [hN]; exact le_refl _) hcell
  refine ⟨m', ?_, ?_, fun blk hb a => h3 blk a (.inl hb)⟩
  · unfold Grid.setCoord FieldObj.beginM
    rw [Outcome.throwIf_false (by simp [ht.cpu]), Outcome.ok_bind, Outcome.throwIf_false (by simp [ht.writable]),
      Outcome.ok_bind, Outcome.pure_eq, Outcome.ok_bind]
    dsimp only
    rw [ht.mem, hg, h1]
    rfl
  · intro c hc
    have hb : InBlock f.geo.window.extent (places n ⟨1, 1, 1⟩ c) := by
      unfold InSpans InSpan at hc
      unfold places place
      generalize f.geo.window.extent = we at *
      have key : ∀ {n ext c : Int}, 0 < n → ((n = 1 → ext = 1 ∧ True ∧ True ∧ True) ∧ (n ≠ 1 → ext = n + 0 + 1 + 1)) →
          ((n = 1 → c = 0) ∧ (n ≠ 1 → -1 ≤ c ∧ c < n + 1)) → 0 ≤ (if n = 1 then 0 else 1 + c) ∧ (if n = 1 then 0 else 1 + c) < ext := by
        intro n ext c h0 h1 h2
        split <;> omega
      have kx := key (c := c.x) hn.1 (by simpa using sx) hc.1
      have ky := key (c := c.y) hn.2.1 (by simpa using sy) hc.2.1
      have kz := key (c := c.z) hn.2.2 (by simpa using sz) hc.2.2
      exact ⟨⟨kx.1, ky.1, kz.1⟩, kx.2, ky.2, kz.2⟩
    have hbd := fortranPos_bound hb
    have hk : g (fortranPos f.geo.window.extent (places n ⟨1, 1, 1⟩ c)).toNat = places n ⟨1, 1, 1⟩ c := by
      refine nthCell_unique (hcell _ (by omega)) ⟨hb, ?_⟩
      omega
    have := h2 (fortranPos f.geo.window.extent (places n ⟨1, 1, 1⟩ c)).toNat (by omega)
    rw [hk] at this
    unfold val
    rw [ht.mem, Option.getD_some]
    have ea : flatAddr n f.geo c = winAddr f.geo.window (places n ⟨1, 1, 1⟩ c) := by
      unfold flatAddr winAddr
      rw [hv]
      rfl
    rw [ea, this]
    have eo : extract (places n ⟨1, 1, 1⟩ c) d - extract f.geo.interior.offset d = comp c d := by
      obtain ⟨i1, i2, i3, i4, i5, i6⟩ := hi
      obtain ⟨⟨c1, -⟩, ⟨c2, -⟩, c3, -⟩ := hc
      generalize f.geo.interior.offset = io at *
      unfold places place
      cases d <;> simp only [extract, comp] <;> split <;> omega
    rw [eo, position_stagger]
    unfold Grid.make shift meshSpacing
    dsimp only
    rw [extract_comp]
    push_cast
    ring

theorem coord_ok [CharZero K] (hn : IntVec.Lt 0 n) (L : Dir → K) (d : Dir) (hf : Good n 0 f b) (m : Mem K) :
    ∃ m', (Grid.make n L).setCoord d .sVol f m = .ok m' ∧
      (∀ c, InSpans n ⟨1, 1, 1⟩ ⟨1, 1, 1⟩ c → val n m' f c = position (meshSpacing n L) .sVol c d) ∧
      ∀ blk, blk ≠ b → ∀ a, m' blk a = m blk a :=
  coord_flat hn L d hf.target (good_extra hf) hf.valid hf.interior m

end
end Heat
end SpatialOps
