import Verif.March.Spec
import Verif.Heat.Props

/-!
# Lemmas for explicit time steps
-/

namespace SpatialOps
namespace Heat

open Nebo Stencil

variable {n : IntVec}

section
variable {K : Type} [Field K]

/-- What flows out, by differences of temperature. -/
theorem outflow_eq (h : Dir → K) (T k : IntVec → K) (c : IntVec) (d : Dir) :
    -outflow n h T k c d = if 1 < comp n d then
      conductance h k d c * (T (c - unit d) - T c) + conductance h k d (c + unit d) * (T (c + unit d) - T c) else 0 := by
  unfold outflow
  split
  · unfold heatFlux conductance
    rw [add_sub', ← div_div, ← div_div]
    ring
  · exact neg_zero

/-- Right-hand sides of combinations. -/
theorem heatRhs_combine (h : Dir → K) (a s t : K) (T1 T2 k rc : IntVec → K) (c : IntVec) :
    heatRhs n h (fun c => a + s * T1 c + t * T2 c) k rc c = s * heatRhs n h T1 k rc c + t * heatRhs n h T2 k rc c := by
  have ho : ∀ d, outflow n h (fun c => a + s * T1 c + t * T2 c) k c d = s * outflow n h T1 k c d + t * outflow n h T2 k c d := by
    intro d
    unfold outflow heatFlux
    split <;> ring
  unfold heatRhs
  rw [ho, ho, ho]
  ring

/-- The right-hand side uses the cell and its neighbours. -/
theorem heatRhs_local {h : Dir → K} {T T' k k' rc rc' : IntVec → K} {c : IntVec}
    (hT : ∀ c', (c' = c ∨ Neighbour n c c') → T c' = T' c') (hk : ∀ c', (c' = c ∨ Neighbour n c c') → k c' = k' c')
    (hr : rc c = rc' c) : heatRhs n h T k rc c = heatRhs n h T' k' rc' c := by
  have ho : ∀ d, outflow n h T k c d = outflow n h T' k' c d := by
    intro d
    unfold outflow
    split
    · next hd =>
      unfold heatFlux
      rw [add_sub', hT c (.inl rfl), hk c (.inl rfl), hT _ (.inr ⟨d, hd, .inl rfl⟩), hT _ (.inr ⟨d, hd, .inr rfl⟩),
        hk _ (.inr ⟨d, hd, .inl rfl⟩), hk _ (.inr ⟨d, hd, .inr rfl⟩)]
    · rfl
  unfold heatRhs
  rw [ho, ho, ho, hr]

theorem rate_local {h : Dir → K} {k k' rc rc' : IntVec → K} {c : IntVec}
    (hk : ∀ c', (c' = c ∨ Neighbour n c c') → k c' = k' c') (hr : rc c = rc' c) : rate n h k rc c = rate n h k' rc' c := by
  have ho : ∀ d, conducts n h k c d = conducts n h k' c d := by
    intro d
    unfold conducts
    split
    · next hd =>
      unfold conductance
      rw [add_sub', hk c (.inl rfl), hk _ (.inr ⟨d, hd, .inl rfl⟩), hk _ (.inr ⟨d, hd, .inr rfl⟩)]
    · rfl
  unfold rate
  rw [ho, ho, ho, hr]

end

/-! ## The program -/

set_option linter.unusedSectionVars false

section
variable {K : Type} [NatCast K] [One K] [Neg K] [Zero K] [Add K] [Sub K] [Mul K] [Div K]

/-- The update of the temperature. -/
theorem update_ok (hn : IntVec.Lt 0 n) {blk : Nat → Nat} (hs : Separate blk) {F : Fields} (hF : Built n blk F) (dt : K) (m : Mem K) :
    ∃ m', update dt F m = .ok m' ∧
      (∀ c, InMesh n c → val n m' F.temperature c = val n m F.temperature c + dt * val n m F.rhs c) ∧
      ∀ b, b ≠ blk 0 → ∀ a, m' b a = m b a := by
  have hT := hF.temperature
  have hr := hF.rhs
  obtain ⟨m', h1, h2, h3⟩ := assign_good hn (plane_zero n) hT (.bin (s := .num) (t := .num) (fun a b : K => a + b) (.field F.temperature)
    (.bin (s := .num) (t := .num) (fun a b : K => a * b) (.scalar (t := .num) dt) (.field F.rhs))) ⟨good_on hT, trivial, good_on hr⟩
    (fun c c1 c2 c3 => ⟨good_defined hT (le_refl' _) c c1 c2 c3, inSpans_of (by unfold ghostMax; iv_omega) (by unfold ghostMax; iv_omega) c3, good_defined hr (le_refl' _) c c1 c2 c3⟩)
    ⟨indep_self F.temperature, trivial, indep_other hr hT (hs 6 (by decide) 0 (by decide) (by decide)) 0⟩ m
  exact ⟨m', h1, fun c hc => h2 c hc.1 (by rw [add_zero']; exact hc.2), h3⟩

/-- One explicit step for the cell `c` in the order of operations of the program. -/
def eulerOf (n : IntVec) (h : Dir → K) (dt : K) (T k rc : IntVec → K) (c : IntVec) : K := T c + dt * rhsOf n h T k rc c

/-- A step: the temperature in the mesh, conductivity and `ρ cp` everywhere. -/
theorem trip_gen (hn : IntVec.Lt 0 n) (h : Dir → K) (dt : K) {blk : Nat → Nat} (hs : Separate blk) {F : Fields} (hF : Built n blk F)
    {work work' : Dir → Nat} (hw : Fresh blk work) (hw' : Fresh blk work') (m : Mem K) :
    ∃ m', (timeStep h n F work work' m >>= update dt F) = .ok m' ∧
      (∀ c, InMesh n c → val n m' F.temperature c =
        eulerOf n h dt (val n m F.temperature) (val n m F.thermCond) (val n m F.rhoCp) c) ∧
      (∀ c, val n m' F.thermCond c = val n m F.thermCond c) ∧ ∀ c, val n m' F.rhoCp c = val n m F.rhoCp c := by
  obtain ⟨m1, h1, v1, f1⟩ := step_gen hn h hs hF hw hw' m
  obtain ⟨m2, h2, v2, f2⟩ := update_ok hn hs hF dt m1
  have fr : ∀ i, i < 6 → ∀ a, m1 (blk i) a = m (blk i) a := fun i hi => f1 (blk i)
    (fun j j1 j2 => hs i (by omega) j j2 (by omega)) fun d => ⟨(hw i (by omega) d).symm, (hw' i (by omega) d).symm⟩
  refine ⟨m2, by rw [h1, Outcome.ok_bind, h2], fun c hc => ?_, fun c => ?_, fun c => ?_⟩
  · rw [v2 c hc, v1 c hc, val_frame hF.temperature (fr 0 (by decide))]
    rfl
  · rw [val_frame hF.thermCond (f2 _ (hs 1 (by decide) 0 (by decide) (by decide))), val_frame hF.thermCond (fr 1 (by decide))]
  · rw [val_frame hF.rhoCp (f2 _ (hs 2 (by decide) 0 (by decide) (by decide))), val_frame hF.rhoCp (fr 2 (by decide))]

omit [NatCast K] [One K] [Neg K] [Zero K] [Add K] [Sub K] [Mul K] [Div K] in
/-- What boundary conditions leave as it was. -/
theorem bc_frame {blk : Nat → Nat} (hs : Separate blk) {F : Fields} (hF : Built n blk F) {bc : Nat → Mem K → Mem K}
    (hbc : OnlyGhosts n F bc) (j : Nat) (m : Mem K) :
    (∀ c, val n (bc j m) F.thermCond c = val n m F.thermCond c) ∧ ∀ c, val n (bc j m) F.rhoCp c = val n m F.rhoCp c := by
  have hb : ∀ i, 0 < i → i < 10 → ∀ a, bc j m (blk i) a = m (blk i) a := fun i i0 i1 => (hbc j m).1 (blk i) (by
    rw [hF.temperature.target.mem]
    exact fun e => hs 0 (by decide) i i1 (by omega) (Option.some.inj e))
  exact ⟨val_frame hF.thermCond (hb 1 (by decide) (by decide)), val_frame hF.rhoCp (hb 2 (by decide) (by decide))⟩

/-- The memory after any number of trips, and how the next one changes it. -/
theorem march_gen (hn : IntVec.Lt 0 n) (h : Dir → K) (dt : K) {blk : Nat → Nat} (hs : Separate blk) {F : Fields} (hF : Built n blk F)
    {work work' : Nat → Dir → Nat} (hw : ∀ k, Fresh blk (work k)) (hw' : ∀ k, Fresh blk (work' k)) {bc : Nat → Mem K → Mem K}
    (hbc : OnlyGhosts n F bc) (m : Mem K) : ∃ μ : Nat → Mem K, μ 0 = m ∧ (∀ j, march h dt n F work work' bc j m = .ok (μ j)) ∧
      (∀ j c, InMesh n c → val n (μ (j + 1)) F.temperature c =
        eulerOf n h dt (val n (bc j (μ j)) F.temperature) (val n m F.thermCond) (val n m F.rhoCp) c) ∧
      ∀ j c, val n (μ j) F.thermCond c = val n m F.thermCond c ∧ val n (μ j) F.rhoCp c = val n m F.rhoCp c := by
  choose next n1 n2 n3 n4 using fun (j : Nat) (m : Mem K) => trip_gen hn h dt hs hF (hw j) (hw' j) (bc j m)
  let μ : Nat → Mem K := fun j => Nat.rec m (fun j m => next j m) j
  have hk : ∀ j c, val n (μ j) F.thermCond c = val n m F.thermCond c ∧ val n (μ j) F.rhoCp c = val n m F.rhoCp c := by
    intro j
    induction j with
    | zero => exact fun _ => ⟨rfl, rfl⟩
    | succ j ih =>
      intro c
      obtain ⟨b1, b2⟩ := bc_frame hs hF hbc j (μ j)
      exact ⟨(n3 j (μ j) c).trans ((b1 c).trans (ih c).1), (n4 j (μ j) c).trans ((b2 c).trans (ih c).2)⟩
  refine ⟨μ, rfl, fun j => ?_, fun j c hc => ?_, hk⟩
  · induction j with
    | zero => rfl
    | succ j ih =>
      unfold march
      rw [ih, Outcome.ok_bind]
      exact n1 j (μ j)
  · obtain ⟨b1, b2⟩ := bc_frame hs hF hbc j (μ j)
    have e1 : val n (bc j (μ j)) F.thermCond = val n m F.thermCond := funext fun c => (b1 c).trans (hk j c).1
    have e2 : val n (bc j (μ j)) F.rhoCp = val n m F.rhoCp := funext fun c => (b2 c).trans (hk j c).2
    have := n2 j (μ j) c hc
    rw [e1, e2] at this
    exact this

end

section
variable {K : Type} [Field K]

theorem eulerOf_eq (h : Dir → K) (dt : K) (T k rc : IntVec → K) (c : IntVec) : eulerOf n h dt T k rc c = euler n h dt T k rc c := by
  unfold eulerOf euler
  rw [rhsOf_eq]

theorem march_ok (hn : IntVec.Lt 0 n) (h : Dir → K) (dt : K) {blk : Nat → Nat} (hs : Separate blk) {F : Fields} (hF : Built n blk F)
    {work work' : Nat → Dir → Nat} (hw : ∀ k, Fresh blk (work k)) (hw' : ∀ k, Fresh blk (work' k)) {bc : Nat → Mem K → Mem K}
    (hbc : OnlyGhosts n F bc) (m : Mem K) : ∃ μ : Nat → Mem K, μ 0 = m ∧ (∀ j, march h dt n F work work' bc j m = .ok (μ j)) ∧
      (∀ j c, InMesh n c → val n (μ (j + 1)) F.temperature c =
        euler n h dt (val n (bc j (μ j)) F.temperature) (val n m F.thermCond) (val n m F.rhoCp) c) ∧
      ∀ j c, val n (μ j) F.thermCond c = val n m F.thermCond c ∧ val n (μ j) F.rhoCp c = val n m F.rhoCp c := by
  obtain ⟨μ, h0, h1, h2, h3⟩ := march_gen hn h dt hs hF hw hw' hbc m
  exact ⟨μ, h0, h1, fun j c hc => (h2 j c hc).trans (eulerOf_eq h dt _ _ _ c), h3⟩

end

/-! ## Positivity -/

section
variable {K : Type} [Field K] [LinearOrder K] [IsStrictOrderedRing K]

/-- A step within the limit keeps temperatures that are not negative so. -/
theorem euler_nonneg {h : Dir → K} {dt : K} {T k rc : IntVec → K} (hst : Stable n h dt k rc) {c : IntVec} (hc : InMesh n c)
    (hT : ∀ c', (c' = c ∨ Neighbour n c c') → 0 ≤ T c') : 0 ≤ euler n h dt T k rc c := by
  obtain ⟨h0, hst⟩ := hst
  obtain ⟨r0, k0, kn, hl⟩ := hst c hc
  have key : ∀ d, -(conducts n h k c d * T c) ≤ -outflow n h T k c d := by
    intro d
    rw [outflow_eq]
    unfold conducts
    split
    · next hd =>
      have a1 := kn _ ⟨d, hd, .inl rfl⟩
      have a2 := kn _ ⟨d, hd, .inr rfl⟩
      have c1 : 0 ≤ conductance h k d c := div_nonneg (by linarith) (mul_self_nonneg _)
      have c2 : 0 ≤ conductance h k d (c + unit d) := by
        unfold conductance
        rw [add_sub']
        exact div_nonneg (by linarith) (mul_self_nonneg _)
      have t1 := mul_nonneg c1 (hT _ (.inr ⟨d, hd, .inr rfl⟩))
      have t2 := mul_nonneg c2 (hT _ (.inr ⟨d, hd, .inl rfl⟩))
      linarith
    · simp
  have hx := key .x
  have hy := key .y
  have hz := key .z
  have e : -(rate n h k rc c * T c) ≤ heatRhs n h T k rc c := by
    unfold rate heatRhs
    rw [div_mul_eq_mul_div, ← neg_div, ← neg_div]
    exact div_le_div_of_nonneg_right (by linarith) r0.le
  have t0 := hT c (.inl rfl)
  have := mul_le_mul_of_nonneg_left e h0
  have := mul_le_mul_of_nonneg_right hl t0
  unfold euler
  linarith

end
end Heat
end SpatialOps
