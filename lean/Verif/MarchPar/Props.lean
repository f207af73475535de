import Verif.MarchPar.Spec
import Verif.MarchPar.Lemmas
import Verif.HeatRound.Props

/-!
# C104: time steps of the heat equation with threads
-/

namespace SpatialOps
namespace Heat

open Nebo Stencil Round

/-- C104 (any arithmetic). The time steps of the heat equation in any arithmetic, floating point included, with any boundary conditions and any
choice, assignment by assignment, of whether to divide it into tasks and into how many: however these are scheduled, no two ever race, the program
never gets stuck, it ends after a bounded number of steps, and at the end memory is, to the last bit, what a single thread leaves. -/
theorem _root_.SpatialOps.C104_program {K : Type} [NatCast K] [One K] [Neg K] [Zero K] [Add K] [Sub K] [Mul K] [Div K] (n : IntVec) (hn : IntVec.Lt 0 n)
    (h : Dir → K) (dt : K) (blk : Nat → Nat) (hs : Separate blk) (work work' : Nat → Dir → Nat) (hw : ∀ k, Fresh blk (work k))
    (hw' : ∀ k, Fresh blk (work' k)) :
    ∃ F, build n blk = .ok F ∧ ∀ (bc : Nat → Mem K → Mem K) (N : Nat), ∃ cs, marchCmds h dt n F work work' bc N = .ok cs ∧
      ∀ p, Division p → ∀ m : Mem K, ∃ m', march h dt n F work work' bc N m = .ok m' ∧
        (∃ bound, ∀ k s, CmdRun (.idle (divide p cs) m) k s → k ≤ bound) ∧
        ∀ k s, CmdRun (.idle (divide p cs) m) k s → ¬ s.Race ∧ ((∀ x, s ≠ .idle [] x) → ∃ s', CmdStep s s') ∧
          ∀ x, s = .idle [] x → x = m' := by
  obtain ⟨F, hb, hF⟩ := build_ok hn blk
  refine ⟨F, hb, fun bc N => ?_⟩
  obtain ⟨cs, h1, hr⟩ := march_ready hn h dt hs hF hw hw' bc N
  refine ⟨cs, h1, fun p hp m => ?_⟩
  obtain ⟨m', a1, a2, a3⟩ := run_program hn G_moderate (divide p cs) (ready_divide p hp cs hr) m
  rw [seqCmds_divide] at a1
  exact ⟨m', (march_seq h1 m).trans a1, a2, fun k s h => ⟨(a3 k s h).1, (a3 k s h).2.1, (a3 k s h).2.2.2⟩⟩

/-- C104 (what holds of one thread holds of many). Whatever holds of the memory that a single thread leaves holds at the end of every run with threads. -/
theorem _root_.SpatialOps.C104_transfer {K : Type} [NatCast K] [One K] [Neg K] [Zero K] [Add K] [Sub K] [Mul K] [Div K] (n : IntVec) (hn : IntVec.Lt 0 n)
    (h : Dir → K) (dt : K) (blk : Nat → Nat) (hs : Separate blk) (work work' : Nat → Dir → Nat) (hw : ∀ k, Fresh blk (work k))
    (hw' : ∀ k, Fresh blk (work' k)) :
    ∃ F, build n blk = .ok F ∧ ∀ (bc : Nat → Mem K → Mem K) (N : Nat), ∃ cs, marchCmds h dt n F work work' bc N = .ok cs ∧
      ∀ p, Division p → ∀ (m : Mem K) (P : Mem K → Prop), (∃ m', march h dt n F work work' bc N m = .ok m' ∧ P m') ↔ EndsWith cs p m P := by
  obtain ⟨F, hb, h0⟩ := C104_program n hn h dt blk hs work work' hw hw'
  refine ⟨F, hb, fun bc N => ?_⟩
  obtain ⟨cs, h1, h2⟩ := h0 bc N
  refine ⟨cs, h1, fun p hp m P => ?_⟩
  obtain ⟨m', a1, a2, a3⟩ := h2 p hp m
  have ends := run_ends a2 fun k s h => (a3 k s h).2.1
  constructor
  · rintro ⟨x, hx, hP⟩
    refine ⟨ends, fun k y hy => ?_⟩
    rw [(a3 k _ hy).2.2 y rfl, ← Outcome.ok.inj (hx.symm.trans a1)]
    exact hP
  · rintro ⟨⟨k, x, hx⟩, hP⟩
    refine ⟨m', a1, ?_⟩
    rw [← (a3 k _ hx).2.2 x rfl]
    exact hP k x hx

/-- C104 (threads do not matter). Two runs of the time steps to the end, with different divisions into tasks and different schedules, leave the same
memory, in floating point too. -/
theorem _root_.SpatialOps.C104_same_result {K : Type} [NatCast K] [One K] [Neg K] [Zero K] [Add K] [Sub K] [Mul K] [Div K] (n : IntVec)
    (hn : IntVec.Lt 0 n) (h : Dir → K) (dt : K) (blk : Nat → Nat) (hs : Separate blk) (work work' : Nat → Dir → Nat) (hw : ∀ k, Fresh blk (work k))
    (hw' : ∀ k, Fresh blk (work' k)) :
    ∃ F, build n blk = .ok F ∧ ∀ (bc : Nat → Mem K → Mem K) (N : Nat), ∃ cs, marchCmds h dt n F work work' bc N = .ok cs ∧
      ∀ p q, Division p → Division q → ∀ (m x y : Mem K) (i j : Nat),
        CmdRun (.idle (divide p cs) m) i (.idle [] x) → CmdRun (.idle (divide q cs) m) j (.idle [] y) → x = y := by
  obtain ⟨F, hb, h0⟩ := C104_program n hn h dt blk hs work work' hw hw'
  refine ⟨F, hb, fun bc N => ?_⟩
  obtain ⟨cs, h1, h2⟩ := h0 bc N
  refine ⟨cs, h1, fun p q hp hq m x y i j hx hy => ?_⟩
  obtain ⟨m1, a1, -, a3⟩ := h2 p hp m
  obtain ⟨m2, b1, -, b3⟩ := h2 q hq m
  rw [(a3 i _ hx).2.2 x rfl, (b3 j _ hy).2.2 y rfl]
  exact Outcome.ok.inj (a1.symm.trans b1)

section
variable {K : Type} [Field K] [LinearOrder K] [IsStrictOrderedRing K]

/-- C104 (bounds). With threads too, a time step within the limit keeps the temperature between any bounds that hold of the initial temperature and
that the boundary conditions respect. -/
theorem _root_.SpatialOps.C104_bounds (n : IntVec) (hn : IntVec.Lt 0 n) (h : Dir → K) (hh : ∀ d, 1 < comp n d → h d ≠ 0) (dt : K)
    (blk : Nat → Nat) (hs : Separate blk) (work work' : Nat → Dir → Nat) (hw : ∀ k, Fresh blk (work k)) (hw' : ∀ k, Fresh blk (work' k)) :
    ∃ F, build n blk = .ok F ∧ ∀ (bc : Nat → Mem K → Mem K) (N : Nat), ∃ cs, marchCmds h dt n F work work' bc N = .ok cs ∧
      ∀ p, Division p → ∀ (m : Mem K) (lo hi : K), OnlyGhosts n F bc → Stable n h dt (val n m F.thermCond) (val n m F.rhoCp) →
      (∀ c, InMesh n c → lo ≤ val n m F.temperature c ∧ val n m F.temperature c ≤ hi) →
      (∀ j m1, (∀ c, InMesh n c → lo ≤ val n m1 F.temperature c ∧ val n m1 F.temperature c ≤ hi) →
        ∀ c, Outside n c → lo ≤ val n (bc j m1) F.temperature c ∧ val n (bc j m1) F.temperature c ≤ hi) →
      EndsWith cs p m fun m' => ∀ c, InMesh n c → lo ≤ val n m' F.temperature c ∧ val n m' F.temperature c ≤ hi := by
  obtain ⟨F, hb, hT⟩ := C104_transfer n hn h dt blk hs work work' hw hw'
  obtain ⟨F', hb', hB⟩ := C101_bounds n hn h hh dt blk hs work work' hw hw'
  obtain rfl := Outcome.ok.inj (hb.symm.trans hb')
  refine ⟨F, hb, fun bc N => ?_⟩
  obtain ⟨cs, h1, h2⟩ := hT bc N
  exact ⟨cs, h1, fun p hp m lo hi hbc hst h0 hg => (h2 p hp m _).1 (hB m bc lo hi hbc hst h0 hg N)⟩

/-- C104 (heat). With threads too, insulated boundaries keep the heat in the mesh exactly. -/
theorem _root_.SpatialOps.C104_insulated (n : IntVec) (hn : IntVec.Lt 0 n) (h : Dir → K) (hh : ∀ d, 1 < comp n d → h d ≠ 0) (dt : K)
    (blk : Nat → Nat) (hs : Separate blk) (work work' : Nat → Dir → Nat) (hw : ∀ k, Fresh blk (work k)) (hw' : ∀ k, Fresh blk (work' k)) :
    ∃ F, build n blk = .ok F ∧ ∀ (bc : Nat → Mem K → Mem K) (N : Nat), ∃ cs, marchCmds h dt n F work work' bc N = .ok cs ∧
      ∀ p, Division p → ∀ m : Mem K, OnlyGhosts n F bc → (∀ c, InMesh n c → val n m F.rhoCp c ≠ 0) →
      (∀ j m1 c c', InMesh n c → Neighbour n c c' → ¬ InMesh n c' →
        val n (bc j m1) F.temperature c' = val n m1 F.temperature c) →
      EndsWith cs p m fun m' => heat n m' F = heat n m F := by
  obtain ⟨F, hb, hT⟩ := C104_transfer n hn h dt blk hs work work' hw hw'
  obtain ⟨F', hb', hB⟩ := C101_insulated n hn h hh dt blk hs work work' hw hw'
  obtain rfl := Outcome.ok.inj (hb.symm.trans hb')
  refine ⟨F, hb, fun bc N => ?_⟩
  obtain ⟨cs, h1, h2⟩ := hT bc N
  exact ⟨cs, h1, fun p hp m hbc hr hi => (h2 p hp m _).1 (hB m bc hbc hr hi N)⟩

/-- C104 (floating point with threads against exact arithmetic without). Under the conditions of C103 the temperature at the end of every run in floating
point with threads is at most `ε` from that of the exact program, up to `45 N` roundings. -/
theorem _root_.SpatialOps.C104_steps {u : K} {rnd : K → K} (hf : Format u rnd) (n : IntVec) (hn : IntVec.Lt 0 n) (h : Dir → Fl rnd)
    (hh : ∀ d, 1 < comp n d → (h d).val ≠ 0) (dt : Fl rnd)
    (blk : Nat → Nat) (hs : Separate blk) (work work' : Nat → Dir → Nat) (hw : ∀ k, Fresh blk (work k)) (hw' : ∀ k, Fresh blk (work' k)) :
    ∃ F, build n blk = .ok F ∧ ∀ (bc : Nat → Mem (Fl rnd) → Mem (Fl rnd)) (N : Nat), ∃ cs, marchCmds h dt n F work work' bc N = .ok cs ∧
      ∀ p, Division p → ∀ (m : Mem (Fl rnd)) (m0 : Mem K) (bc0 : Nat → Mem K → Mem K) (B ε : K),
      OnlyGhosts n F bc → OnlyGhosts n F bc0 → Stable n (fun d => (h d).val) dt.val (val n m0 F.thermCond) (val n m0 F.rhoCp) →
      (∀ c c', InMesh n c → (c' = c ∨ Neighbour n c c') → (val n m F.thermCond c').val = val n m0 F.thermCond c') →
      (∀ c, InMesh n c → (val n m F.rhoCp c).val = val n m0 F.rhoCp c) →
      (∀ c, InMesh n c → |val n m0 F.temperature c| ≤ B) →
      (∀ j p, (∀ c, InMesh n c → |val n p F.temperature c| ≤ B) → ∀ c, Outside n c → |val n (bc0 j p) F.temperature c| ≤ B) →
      (∀ c, InMesh n c → |(val n m F.temperature c).val - val n m0 F.temperature c| ≤ ε) →
      (∀ j p p0 δ, ε ≤ δ → (∀ c, InMesh n c → |(val n p F.temperature c).val - val n p0 F.temperature c| ≤ δ) →
        ∀ c, Outside n c → |(val n (bc j p) F.temperature c).val - val n (bc0 j p0) F.temperature c| ≤ δ) →
      ∃ m0', march (fun d => (h d).val) dt.val n F work work' bc0 N m0 = .ok m0' ∧
        EndsWith cs p m fun m' => ∀ c, InMesh n c →
          |(val n m' F.temperature c).val - val n m0' F.temperature c| ≤ ε + grow u (45 * N) * (B + ε) := by
  obtain ⟨F, hb, hT⟩ := C104_transfer n hn h dt blk hs work work' hw hw'
  obtain ⟨F', hb', hB⟩ := C103_steps hf n hn h hh dt blk hs work work' hw hw'
  obtain rfl := Outcome.ok.inj (hb.symm.trans hb')
  refine ⟨F, hb, fun bc N => ?_⟩
  obtain ⟨cs, h1, h2⟩ := hT bc N
  refine ⟨cs, h1, fun p hp m m0 bc0 B ε a1 a2 a3 a4 a5 a6 a7 a8 a9 => ?_⟩
  obtain ⟨m', m0', b1, b2, b3⟩ := hB m m0 bc bc0 B ε a1 a2 a3 a4 a5 a6 a7 a8 a9 N
  exact ⟨m0', b2, (h2 p hp m _).1 ⟨m', b1, b3⟩⟩

end

open Set Accuracy in
/-- C104 (total error). Under the conditions of C103 every run in floating point with threads ends with a temperature that differs from the solution of
`ρ cp ∂w/∂t = ∇·(k ∇w)` at time `N dt` by at most `ε` plus the time passed times a bound of first order in `dt` and second order in the spacings, plus
`45 N` roundings. -/
theorem _root_.SpatialOps.C104_order {u : ℝ} {rnd : ℝ → ℝ} (hf : Format u rnd) (n : IntVec) (hn : IntVec.Lt 0 n) (h : Dir → Fl rnd)
    (hh : ∀ d, 1 < comp n d → 0 < (h d).val) (dt : Fl rnd)
    (blk : Nat → Nat) (hs : Separate blk) (work work' : Nat → Dir → Nat) (hw : ∀ k, Fresh blk (work k)) (hw' : ∀ k, Fresh blk (work' k)) :
    ∃ F, build n blk = .ok F ∧ ∀ (bc : Nat → Mem (Fl rnd) → Mem (Fl rnd)) (N : Nat), ∃ cs, marchCmds h dt n F work work' bc N = .ok cs ∧
      ∀ p, Division p → ∀ (m : Mem (Fl rnd)) (lo hi : Dir → ℝ) (w wt wtt : ℝ → (Dir → ℝ) → ℝ)
      (k : (Dir → ℝ) → ℝ) (wD : ℝ → Dir → Nat → (Dir → ℝ) → ℝ) (kD : Dir → Nat → (Dir → ℝ) → ℝ) (M Kb : Dir → Nat → ℝ) (K0 M2 r0 ε B E : ℝ)
      (Q : ℝ → Dir → (Dir → ℝ) → ℝ) (at' : IntVec → Dir → ℝ),
      at' = position (fun d => (h d).val) .sVol →
      E = M2 * dt.val / 2 + active n (fun d => (h d).val ^ 2 * (K0 * M d 4 / 12 + Kb d 1 * M d 3 / 6 + Kb d 2 * M d 2 / 4 + Kb d 3 * M d 1 / 6)) / r0 →
      OnlyGhosts n F bc → Stable n (fun d => (h d).val) dt.val (fun c => (val n m F.thermCond c).val) (fun c => (val n m F.rhoCp c).val) →
      Centred n (fun d => (h d).val) lo hi (fun c => (val n m F.thermCond c).val) k →
      (∀ t ∈ Icc 0 (N * dt.val), ∀ d, 1 < comp n d → Smooth lo hi d 4 (w t) (wD t d) (M d)) →
      (∀ d, 1 < comp n d → Smooth lo hi d 3 k (kD d) (Kb d)) → (∀ p, Accuracy.InBox lo hi p → |k p| ≤ K0) →
      (∀ t ∈ Icc 0 (N * dt.val), ∀ d, 1 < comp n d → IsPartial lo hi d (fun p => k p * wD t d 1 p) (Q t d)) →
      (∀ c, InMesh n c → ∀ t ∈ Icc 0 (N * dt.val), HasDerivAt (fun t => w t (at' c)) (wt t (at' c)) t ∧
        HasDerivAt (fun t => wt t (at' c)) (wtt t (at' c)) t ∧ |wtt t (at' c)| ≤ M2 ∧
        (val n m F.rhoCp c).val * wt t (at' c) = active n (fun d => Q t d (at' c))) →
      0 < r0 → (∀ c, InMesh n c → r0 ≤ (val n m F.rhoCp c).val) →
      (∀ j < N, ∀ c, InMesh n c ∨ Outside n c → |w (j * dt.val) (at' c)| ≤ B) →
      (∀ c, InMesh n c → |(val n m F.temperature c).val - w 0 (at' c)| ≤ ε) →
      (∀ j < N, ∀ m1 c, Outside n c → |(val n (bc j m1) F.temperature c).val - w (j * dt.val) (at' c)| ≤ ε) →
      EndsWith cs p m fun m' => ∀ c, InMesh n c → |(val n m' F.temperature c).val - w (N * dt.val) (at' c)| ≤
        ε + N * dt.val * E + grow u (45 * N) * (B + (ε + N * dt.val * E)) := by
  obtain ⟨F, hb, hT⟩ := C104_transfer n hn h dt blk hs work work' hw hw'
  obtain ⟨F', hb', hB⟩ := C103_order hf n hn h hh dt blk hs work work' hw hw'
  obtain rfl := Outcome.ok.inj (hb.symm.trans hb')
  refine ⟨F, hb, fun bc N => ?_⟩
  obtain ⟨cs, h1, h2⟩ := hT bc N
  exact ⟨cs, h1, fun p hp m lo hi w wt wtt k wD kD M Kb K0 M2 r0 ε B E Q at' c1 c2 c3 c4 c5 c6 c7 c8 c9 d1 d2 d3 d4 d5 d6 => (h2 p hp m _).1
    (hB m bc N lo hi w wt wtt k wD kD M Kb K0 M2 r0 ε B E Q at' c1 c2 c3 c4 c5 c6 c7 c8 c9 d1 d2 d3 d4 d5 d6 N (le_refl _))⟩

/-! ## Concrete cases -/

namespace MarchParEx

open MarchEx

/-- Every second assignment is divided into four tasks. -/
def four (i : Nat) : Option Int := if i % 2 = 0 then some 4 else none

theorem four_division : Division four := by
  intro i k h
  unfold four at h
  split at h
  · injection h with h
    omega
  · cases h

/-- With insulated ends and a time step of 1/4, every second assignment divided into four tasks, the hypotheses on the heat and on the bounds hold: every
run of any number of time steps ends with a heat of 7 and all temperatures between 1 and 5. -/
example : ∃ F, build ⟨3, 1, 1⟩ (fun i => i) = .ok F ∧ ∀ N, ∃ cs,
    marchCmds (fun _ => (1 : ℚ)) (1 / 4) ⟨3, 1, 1⟩ F (fun _ _ => 10) (fun _ _ => 10) mirror N = .ok cs ∧
    EndsWith cs four HeatEx.hot (fun m' => heat ⟨3, 1, 1⟩ m' F = 7) ∧
    EndsWith cs four HeatEx.hot fun m' => ∀ c, InMesh ⟨3, 1, 1⟩ c → 1 ≤ val ⟨3, 1, 1⟩ m' F.temperature c ∧ val ⟨3, 1, 1⟩ m' F.temperature c ≤ 5 := by
  obtain ⟨F, hb, hI⟩ := C104_insulated (K := ℚ) ⟨3, 1, 1⟩ (by decide) (fun _ => 1) (fun _ _ => one_ne_zero) (1 / 4) (fun i => i) HeatEx.sep
    (fun _ _ => 10) (fun _ _ => 10) (fun _ => HeatEx.fresh) (fun _ => HeatEx.fresh)
  obtain ⟨F', hb', hB⟩ := C104_bounds (K := ℚ) ⟨3, 1, 1⟩ (by decide) (fun _ => 1) (fun _ _ => one_ne_zero) (1 / 4) (fun i => i) HeatEx.sep
    (fun _ _ => 10) (fun _ _ => 10) (fun _ => HeatEx.fresh) (fun _ => HeatEx.fresh)
  obtain ⟨F'', hb'', hF⟩ := build_ok (n := ⟨3, 1, 1⟩) (by decide) fun i => i
  obtain rfl := Outcome.ok.inj (hb.symm.trans hb')
  obtain rfl := Outcome.ok.inj (hb.symm.trans hb'')
  have one : ∀ (f : FieldObj) (i : Nat), i ≠ 0 → f.values = some i → ∀ c, val ⟨3, 1, 1⟩ HeatEx.hot f c = 1 := by
    intro f i hi hv c
    unfold val HeatEx.hot
    rw [hv, Option.getD_some, if_neg fun h => hi h.1]
  have rc := one F.rhoCp 2 (by decide) hF.rhoCp.target.mem
  have kc := one F.thermCond 1 (by decide) hF.thermCond.target.mem
  have og : OnlyGhosts ⟨3, 1, 1⟩ F mirror := only hF (fun _ m => m 0 1) fun _ m => m 0 3
  have mir : ∀ j (m1 : Mem ℚ) c c', InMesh ⟨3, 1, 1⟩ c → Neighbour ⟨3, 1, 1⟩ c c' → ¬ InMesh ⟨3, 1, 1⟩ c' →
      val ⟨3, 1, 1⟩ (mirror j m1) F.temperature c' = val ⟨3, 1, 1⟩ m1 F.temperature c := by
    intro j m1 c c' hc hn ho
    rw [addr hF, addr hF]
    rcases outside hc hn ho with ⟨h1, h2⟩ | ⟨h1, h2⟩ <;> rw [h1, h2] <;> simp [mirror, ends]
  refine ⟨F, hb, fun N => ?_⟩
  obtain ⟨cs, h1, h2⟩ := hI mirror N
  obtain ⟨cs', h1', h3⟩ := hB mirror N
  obtain rfl := Outcome.ok.inj (h1.symm.trans h1')
  refine ⟨cs, h1, ?_, h3 four four_division HeatEx.hot 1 5 og
    ⟨by norm_num, fun c _ => ⟨by rw [rc]; exact one_pos, by rw [kc]; exact zero_le_one, fun c' _ => by rw [kc]; exact zero_le_one, by
      unfold rate conducts conductance
      simp only [kc, rc]
      norm_num [comp]⟩⟩
    (fun c _ => by rw [addr hF]; unfold HeatEx.hot; split <;> norm_num)
    (fun j m1 hm c' ho => by
      obtain ⟨ho, c, hc, hn⟩ := ho
      rw [mir j m1 c c' hc hn ho]
      exact hm c hc)⟩
  have e : heat ⟨3, 1, 1⟩ HeatEx.hot F = 7 := by
    unfold heat blockSum
    simp only [rc, addr hF]
    norm_num [HeatEx.hot]
    rw [show Int.toNat 3 = 3 from rfl]
    norm_num [Finset.sum_range_succ]
  have := h2 four four_division HeatEx.hot og (fun c _ => by rw [rc]; exact one_ne_zero) mir
  rw [e] at this
  exact this

/-- The same in `double`, every second assignment divided: every run of `N` time steps ends at most `45 N` roundings of 5 from the exact program, which the
conditions of C103 were shown to give. -/
example : ∃ F, build ⟨3, 1, 1⟩ (fun i => i) = .ok F ∧ ∀ N, ∃ cs m0',
    marchCmds (fun _ => (⟨1⟩ : HeatRoundEx.D)) ⟨1 / 4⟩ ⟨3, 1, 1⟩ F (fun _ _ => 10) (fun _ _ => 10) HeatRoundEx.copy N = .ok cs ∧
    march (fun _ => (1 : ℚ)) (1 / 4) ⟨3, 1, 1⟩ F (fun _ _ => 10) (fun _ _ => 10) mirror N HeatEx.hot = .ok m0' ∧
    EndsWith cs four HeatRoundEx.hot fun m' => ∀ c, InMesh ⟨3, 1, 1⟩ c →
      |(val ⟨3, 1, 1⟩ m' F.temperature c).val - val ⟨3, 1, 1⟩ m0' F.temperature c| ≤ grow (2 ^ (-53 : Int)) (45 * N) * 5 := by
  obtain ⟨F, hb, hT⟩ := C104_transfer ⟨3, 1, 1⟩ (by decide) (fun _ => (⟨1⟩ : HeatRoundEx.D)) ⟨1 / 4⟩ (fun i => i) HeatEx.sep
    (fun _ _ => 10) (fun _ _ => 10) (fun _ => HeatEx.fresh) (fun _ => HeatEx.fresh)
  obtain ⟨F', hb', hS⟩ := HeatRoundEx.insulated
  obtain rfl := Outcome.ok.inj (hb.symm.trans hb')
  refine ⟨F, hb, fun N => ?_⟩
  obtain ⟨cs, h1, h2⟩ := hT HeatRoundEx.copy N
  obtain ⟨m', m0', a1, a2, a3⟩ := hS N
  exact ⟨cs, m0', h1, a2, (h2 four four_division HeatRoundEx.hot _).1 ⟨m', a1, a3⟩⟩

/-- The solution `x⁴ + 12 t x² + 12 t²` of the heat equation in `double`, every second assignment divided: every run of up to four time steps ends within
the bounds of C103. -/
example : ∃ F, build ⟨3, 1, 1⟩ (fun i => i) = .ok F ∧ ∃ bc, OnlyGhosts ⟨3, 1, 1⟩ F bc ∧ ∀ j ≤ 4, ∃ cs,
    marchCmds (fun _ => (⟨1⟩ : HeatRoundEx.R)) ⟨1 / 4⟩ ⟨3, 1, 1⟩ F (fun _ _ => 10) (fun _ _ => 10) bc j = .ok cs ∧
    EndsWith cs four (fun b a => ⟨HeatErrEx.quartic b a⟩) fun m' => ∀ c, InMesh ⟨3, 1, 1⟩ c → |(val ⟨3, 1, 1⟩ m' F.temperature c).val -
      (((c.x : ℝ) + 1 / 2) ^ 4 + 12 * ((j : ℝ) / 4) * ((c.x : ℝ) + 1 / 2) ^ 2 + 12 * ((j : ℝ) / 4) ^ 2)| ≤
        (j : ℝ) / 4 * 5 + grow (2 ^ (-53 : Int)) (45 * j) * 480 := by
  obtain ⟨F, hb, hT⟩ := C104_transfer ⟨3, 1, 1⟩ (by decide) (fun _ => (⟨1⟩ : HeatRoundEx.R)) ⟨1 / 4⟩ (fun i => i) HeatEx.sep
    (fun _ _ => 10) (fun _ _ => 10) (fun _ => HeatEx.fresh) (fun _ => HeatEx.fresh)
  obtain ⟨F', hb', bc, og, hS⟩ := HeatRoundEx.quartic
  obtain rfl := Outcome.ok.inj (hb.symm.trans hb')
  refine ⟨F, hb, bc, og, fun j hj => ?_⟩
  obtain ⟨cs, h1, h2⟩ := hT bc j
  exact ⟨cs, h1, (h2 four four_division _ _).1 (hS j hj)⟩

end MarchParEx

end Heat
end SpatialOps
