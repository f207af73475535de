import Verif.NeboGpu.Core
import Verif.NeboPar.Props

/-!
# Property C24: assignment on a GPU
-/

namespace SpatialOps
open Nebo

/-! ## The threads of a launch -/

/-- C24. For a window of any extent, the 16x16 blocks of the computed grid contain
exactly one thread for every column of the window; every other thread has an index
outside the window's extents. -/
theorem C24_one_thread_per_column (ex ey : Int) (hx : 0 ≤ ex) (hy : 0 ≤ ey) :
    (launchThreads (gridDim ex) (gridDim ey)).Nodup ∧
    (∀ x y, 0 ≤ x → x < ex → 0 ≤ y → y < ey → (x, y) ∈ launchThreads (gridDim ex) (gridDim ey)) ∧
    (∀ p ∈ launchThreads (gridDim ex) (gridDim ey), 0 ≤ p.1 ∧ 0 ≤ p.2 ∧ p.1 < ex + 16 ∧ p.2 < ey + 16) := by
  refine ⟨launch_nodup _ _, ?_, ?_⟩
  · intro x y h1 h2 h3 h4
    rw [launch_mem, gridDim_eq hx, gridDim_eq hy]
    dsimp only
    omega
  · intro p hp
    rw [launch_mem, gridDim_eq hx, gridDim_eq hy] at hp
    omega

example : gridDim 33 = 3 ∧ gridDim 32 = 2 ∧ (launchThreads (gridDim 17) (gridDim 3)).length = 512 := by
  decide +kernel

/-! ## The assignment -/

/-- An assignment run to its end: in every interleaving of the threads' memory accesses
nothing races, the run cannot get stuck, ends after a bounded number of steps, and then memory is as `P` says. -/
def RunsTo {V : Type} (s0 : ParState V) (P : Mem V → Prop) : Prop :=
  (∃ bound, ∀ k s, ParRun s0 k s → k ≤ bound) ∧
  ∀ k s, ParRun s0 k s →
    ¬ Race s ∧ (s.waits ≠ 0 → ∃ s', ParStep s s') ∧
    (s.waits = 0 → P s.mem ∧ ∀ t ∈ s.tasks, t = none)

private theorem gpu_main {V : Type} [Add V] [Mul V] {n : IntVec} {l : FieldObj} {b : Nat}
    (hgpu : l.memType = .gpu) (ht : Target n (cpuTwin l) b) {e : Expr V .num} (he : (e.onDevice l.dev).Wf n)
    (hi : (e.onDevice l.dev).Independent (cpuTwin l) 0) (ha : (e.onDevice l.dev).SinglesApart (cpuTwin l))
    {pg : GhostData} (hpg : e.possibleGhosts = .ok pg) (hx : IntVec.Le l.geo.bc.hasExtra pg.plus) (useGhost : Bool)
    {region : IntVec → Prop}
    (hregion : ∀ c, region c ↔
      if useGhost then Stored n l c ∧ (e.onDevice l.dev).DefinedAt n c else Interior n l c)
    (hne : ∃ c, region c) (hwin : 0 < l.geo.window.extent.x ∧ 0 < l.geo.window.extent.y) (m : Mem V) :
    ∃ s0 lo, gpuAssign useGhost l e m = .ok s0 ∧ region lo ∧ (∀ c, region c → IntVec.Le lo c) ∧
      RunsTo s0 (Assigned l b (e.onDevice l.dev)
        (fun c => region c ∧ c.x - lo.x < 16 * ((l.geo.window.extent.x + 15) / 16) ∧
          c.y - lo.y < 16 * ((l.geo.window.extent.y + 15) / 16)) m) := by
  obtain ⟨lo, s0, W, All, fin, N, T, p1, p2, p4, p5, p6, p7, p8⟩ :=
    gpuAssign_core hgpu ht he hi ha hpg hx useGhost hregion hne hwin m
  refine ⟨s0, lo, p1, p6.1, p6.2, ⟨T, ?_⟩, ?_⟩
  · intro k s hr
    obtain ⟨T', h1, -⟩ := run_inv p4 p5 p2 hr
    omega
  · intro k s hr
    obtain ⟨T', -, hinv⟩ := run_inv p4 p5 p2 hr
    refine ⟨no_race p4 p5 hinv, hinv.progress, fun hw => ?_⟩
    obtain ⟨f1, f2⟩ := hinv.finished hw
    refine ⟨⟨?_, ?_⟩, ?_⟩
    · rintro c ⟨h1, h2, h3⟩
      obtain ⟨i, hi', w1, w2⟩ := p8 c h1 h2 h3
      rw [f1 i hi' _ _ w1, w2]
    · intro blk a hba
      apply hinv.rest
      intro hall
      obtain ⟨rfl, c, c1, c2, c3, rfl⟩ := p7 blk a hall
      rcases hba with hba | hba
      · exact hba rfl
      · exact hba c ⟨c1, c2, c3⟩ rfl
    · intro t htm
      obtain ⟨i, hi'⟩ := List.mem_iff_getElem?.1 htm
      have hlt : i < N := by rw [← hinv.len]; exact (List.getElem?_eq_some_iff.1 hi').1
      rw [f2 i hlt] at hi'
      injection hi' with hi'
      exact hi'.symm

private theorem gpu_regular {V : Type} [Add V] [Mul V] {n : IntVec} (hn : IntVec.Lt 0 n) {l : FieldObj} {b : Nat}
    (ht : Target n (cpuTwin l) b) {e : Expr V .num} (he : (e.onDevice l.dev).Wf n)
    (hd : ∀ c, Interior n l c → (e.onDevice l.dev).DefinedAt n c) (useGhost : Bool) :
    ∃ pg, e.possibleGhosts = .ok pg ∧ IntVec.Le l.geo.bc.hasExtra pg.plus ∧
      (∃ c, if useGhost then Stored n l c ∧ (e.onDevice l.dev).DefinedAt n c else Interior n l c) ∧
      0 < l.geo.window.extent.x ∧ 0 < l.geo.window.extent.y := by
  have hm : OnMesh n l.geo := ht.mesh
  have hx := hm.extra
  have hg := hm.ghosts
  have hv := hm.valid
  have hs := hm.size
  obtain ⟨pg, hpg⟩ := possibleGhosts_ok hn (e.onDevice l.dev) he fun c h0 h1 => hd c ⟨h0, by iv_omega⟩
  obtain ⟨pv, pex⟩ := possibleGhosts_exact (e.onDevice l.dev) he pg hpg
  have hint : IntVec.Le l.geo.bc.hasExtra pg.plus := by
    have := (pex (n + l.geo.bc.hasExtra - ⟨1, 1, 1⟩)).1 (hd _ (by unfold Interior; iv_omega))
    unfold InBox at this; iv_omega
  refine ⟨pg, by rw [← onDevice_ghosts l.dev]; exact hpg, hint, ⟨0, ?_⟩, ?_, ?_⟩
  · cases useGhost with
    | true =>
      rw [if_pos rfl]
      unfold GhostData.Valid at hg
      exact ⟨by unfold Stored; iv_omega, hd 0 (by unfold Interior; iv_omega)⟩
    | false =>
      rw [if_neg (by simp)]
      unfold Interior; iv_omega
  · rw [hs]; unfold GhostData.Valid at hv; iv_omega
  · rw [hs]; unfold GhostData.Valid at hv; iv_omega

/-- C24. `lhs <<= e` (`useGhost`) and `interior_assign` of a field on a GPU, as long as
the destination's valid ghosts have not been reduced (for `interior_assign`: always):
the call is accepted, and in every interleaving of the threads the result is exactly the
memory the sequential assignment would produce on the same data. Missing from the full
property: destinations with reduced ghosts, where it is false
(`C24_reduced_ghosts_miss_interior_cells`). -/
theorem C24_gpu_equals_sequential_partial {V : Type} [Add V] [Mul V] (n : IntVec) (hn : IntVec.Lt 0 n) (l : FieldObj)
    (b : Nat) (hgpu : l.memType = .gpu) (ht : Target n (cpuTwin l) b) (e : Expr V .num)
    (he : (e.onDevice l.dev).Wf n) (hd : ∀ c, Interior n l c → (e.onDevice l.dev).DefinedAt n c)
    (hi : (e.onDevice l.dev).Independent (cpuTwin l) 0) (ha : (e.onDevice l.dev).SinglesApart (cpuTwin l))
    (useGhost : Bool)
    (hfull : useGhost = true →
      IntVec.Le l.geo.ghosts.minus l.geo.validGhosts.minus ∧ IntVec.Le l.geo.ghosts.plus l.geo.validGhosts.plus)
    (m : Mem V) :
    ∃ s0 m', gpuAssign useGhost l e m = .ok s0 ∧
      sequentialAssign useGhost (cpuTwin l) (e.onDevice l.dev) m = .ok m' ∧ RunsTo s0 (fun r => r = m') := by
  obtain ⟨pg, hpg, hx, hne, hwin⟩ := gpu_regular hn ht he hd useGhost
  obtain ⟨s0, lo, g1, g2, g3, g4, g5⟩ := gpu_main hgpu ht he hi ha hpg hx useGhost (fun _ => Iff.rfl) hne hwin m
  obtain ⟨m', q1, q2, q3⟩ := sequentialAssign_core ht he hi
    (by rw [onDevice_ghosts]; exact hpg) hx useGhost hne m
  refine ⟨s0, m', g1, q1, g4, fun k s hr => ?_⟩
  obtain ⟨r1, r2, r3⟩ := g5 k s hr
  refine ⟨r1, r2, fun hw => ?_⟩
  obtain ⟨⟨a1, a2⟩, a3⟩ := r3 hw
  refine ⟨?_, a3⟩
  have hm : OnMesh n l.geo := ht.mesh
  have hs := hm.size
  have hv := hm.valid
  unfold GhostData.Valid at hv
  have hcov : ∀ c, (if useGhost = true then Stored n l c ∧ (e.onDevice l.dev).DefinedAt n c else Interior n l c) →
      c.x - lo.x < 16 * ((l.geo.window.extent.x + 15) / 16) ∧
      c.y - lo.y < 16 * ((l.geo.window.extent.y + 15) / 16) := by
    intro c hc
    have hlo := g2
    have h16 : ∀ a : Int, a ≤ 16 * ((a + 15) / 16) := by intro a; omega
    have h1 := h16 l.geo.window.extent.x
    have h2 := h16 l.geo.window.extent.y
    have : c.x - lo.x < l.geo.window.extent.x ∧ c.y - lo.y < l.geo.window.extent.y := by
      rw [hs]
      cases useGhost with
      | true =>
        rw [if_pos rfl] at hc hlo
        have := hfull rfl
        have c1 := hc.1
        have c2 := hlo.1
        unfold Stored at c1 c2
        iv_omega
      | false =>
        rw [if_neg (by simp)] at hc hlo
        unfold Interior at hc hlo
        iv_omega
    omega
  funext blk a
  by_cases hb : blk = b ∧ ∃ c, (if useGhost = true then Stored n l c ∧ (e.onDevice l.dev).DefinedAt n c
      else Interior n l c) ∧ cellAddr l.geo c = a
  · obtain ⟨rfl, c, hc, rfl⟩ := hb
    rw [a1 c ⟨hc, hcov c hc⟩]
    exact (q2 c hc).symm
  · have hne' : blk ≠ b ∨ ∀ c, (if useGhost = true then Stored n l c ∧ (e.onDevice l.dev).DefinedAt n c
      else Interior n l c) → cellAddr l.geo c ≠ a := by
      by_cases h : blk = b
      · exact .inr fun c hc hca => hb ⟨h, c, hc, hca⟩
      · exact .inl h
    rw [a2 blk a (hne'.imp id fun h c hc => h c hc.1)]
    exact (q3 blk a hne').symm

/-- C24. The general case. The grid is computed from the extents the field has before
its ghosts are reset, so only cells within that many 16-cell blocks of the lowest
assigned cell are assigned; these get the expression's value and nothing else changes. -/
theorem C24_gpu_assigns_launched_cells {V : Type} [Add V] [Mul V] (n : IntVec) (hn : IntVec.Lt 0 n) (l : FieldObj)
    (b : Nat) (hgpu : l.memType = .gpu) (ht : Target n (cpuTwin l) b) (e : Expr V .num)
    (he : (e.onDevice l.dev).Wf n) (hd : ∀ c, Interior n l c → (e.onDevice l.dev).DefinedAt n c)
    (hi : (e.onDevice l.dev).Independent (cpuTwin l) 0) (ha : (e.onDevice l.dev).SinglesApart (cpuTwin l))
    (m : Mem V) :
    ∃ s0 lo, gpuAssign true l e m = .ok s0 ∧
      (Stored n l lo ∧ (e.onDevice l.dev).DefinedAt n lo) ∧
      (∀ c, Stored n l c ∧ (e.onDevice l.dev).DefinedAt n c → IntVec.Le lo c) ∧
      RunsTo s0 (Assigned l b (e.onDevice l.dev)
        (fun c => (Stored n l c ∧ (e.onDevice l.dev).DefinedAt n c) ∧
          c.x - lo.x < 16 * ((l.geo.window.extent.x + 15) / 16) ∧
          c.y - lo.y < 16 * ((l.geo.window.extent.y + 15) / 16)) m) := by
  obtain ⟨pg, hpg, hx, hne, hwin⟩ := gpu_regular hn ht he hd true
  exact gpu_main hgpu ht he hi ha hpg hx true (fun c => by rw [if_pos rfl]) (by simpa using hne) hwin m

namespace GpuEx

/-- The example field of C22 on GPU 0. -/
def fld (bx : Bool) (b : Nat) : FieldObj := ⟨NeboEx.geo bx, none, some b, true, .gpu, 0, false, [], [], false, (NeboEx.geo bx).window.globNpts⟩

/-- A CPU field with a copy on GPU 0. -/
def shared (b c : Nat) : FieldObj := ⟨NeboEx.geo true, some b, none, true, .localRam, 0, true, [(0, c)], [(0, c)], false, (NeboEx.geo true).window.globNpts⟩

/-- `cond(mask, 2*a)(two-point stencil of b)`, `b` being on the CPU with a copy. -/
def expr : Expr Int .num :=
  .cond (.mask NeboEx.msk) (.bin (s := .num) (t := .num) (· * ·) (.scalar (t := .num) 2) (.field (fld false 1)))
    (.stencil (.more (.one (⟨-1, 0, 0⟩, 1)) (⟨0, 0, 0⟩, -1)) (.field (shared 7 2)))

theorem wf : (expr.onDevice 0).Wf ⟨4, 3, 1⟩ :=
  ⟨⟨NeboEx.onMesh false, by decide⟩, ⟨trivial, NeboEx.onMesh false, by decide⟩, NeboEx.onMesh true, by decide⟩

/-- A GPU field of 16 interior cells in a row, one ghost cell at both ends, whose valid
ghosts have been reset to none. -/
def row : FieldObj :=
  ⟨⟨⟨⟨18, 1, 1⟩, ⟨1, 0, 0⟩, ⟨16, 1, 1⟩⟩, ⟨⟨18, 1, 1⟩, ⟨1, 0, 0⟩, ⟨16, 1, 1⟩⟩, BcInfo.build false false false 0,
    ⟨⟨1, 0, 0⟩, ⟨1, 0, 0⟩, false⟩, ⟨0, 0, false⟩, false⟩, none, some 0, true, .gpu, 0, false, [], [], false, 18⟩

theorem rowTarget : Target ⟨16, 1, 1⟩ (cpuTwin row) 0 :=
  ⟨⟨by decide, by decide, by decide, by decide, by decide, by decide, by decide⟩, rfl, rfl, rfl, by decide, by decide⟩

end GpuEx

/-- Non-vacuity: a stencil expression over a GPU field and a CPU field with a GPU copy. -/
example : ∃ (n : IntVec) (l : FieldObj) (b : Nat), IntVec.Lt 0 n ∧ l.memType = .gpu ∧ Target n (cpuTwin l) b ∧
    (GpuEx.expr.onDevice l.dev).Wf n ∧
    (∀ c, Interior n l c → (GpuEx.expr.onDevice l.dev).DefinedAt n c) ∧
    (GpuEx.expr.onDevice l.dev).Independent (cpuTwin l) 0 ∧
    (GpuEx.expr.onDevice l.dev).SinglesApart (cpuTwin l) ∧
    IntVec.Le l.geo.ghosts.minus l.geo.validGhosts.minus ∧ IntVec.Le l.geo.ghosts.plus l.geo.validGhosts.plus := by
  refine ⟨⟨4, 3, 1⟩, GpuEx.fld true 0, 0, by decide, rfl,
    ⟨NeboEx.onMesh true, rfl, rfl, rfl, (NeboEx.target true 0).room⟩, GpuEx.wf, ?_, ?_, ?_, by decide, by decide⟩
  · exact fun c hc => NeboEx.definedOn (l := NeboEx.fld true 0) rfl c hc
  · exact ⟨trivial, ⟨trivial, .inl (by decide)⟩, by intro q _; exact .inl (by decide)⟩
  · exact ⟨trivial, ⟨trivial, trivial⟩, trivial⟩

/-- C24, deviation. When the destination's valid ghosts have been reduced, the grid can
be too small: there is a field of 16 interior cells whose last interior cell keeps its
old value under `lhs <<= 7`, in every run of the accepted assignment. -/
theorem C24_reduced_ghosts_miss_interior_cells :
    ∃ (n : IntVec) (l : FieldObj) (b : Nat) (c : IntVec) (m : Mem Int), IntVec.Lt 0 n ∧ l.memType = .gpu ∧
      Target n (cpuTwin l) b ∧ Interior n l c ∧
      ∃ s0, gpuAssign true l (.scalar (t := .num) 7) m = .ok s0 ∧
        RunsTo s0 (fun r => r b (cellAddr l.geo c) = m b (cellAddr l.geo c) ∧ m b (cellAddr l.geo c) ≠ 7) := by
  have hm : OnMesh ⟨16, 1, 1⟩ GpuEx.row.geo := GpuEx.rowTarget.mesh
  obtain ⟨s0, lo, h1, h2, h3, h4, h5⟩ := C24_gpu_assigns_launched_cells (V := Int) ⟨16, 1, 1⟩ (by decide) GpuEx.row 0 rfl
    GpuEx.rowTarget (.scalar (t := .num) 7) trivial (by
      intro c hc
      unfold Interior at hc
      have e5 : GpuEx.row.geo.bc.hasExtra = 0 := by decide
      rw [e5] at hc
      simp only [Expr.onDevice, Expr.DefinedAt, ghostMax]
      iv_omega) trivial trivial fun _ _ => 0
  refine ⟨⟨16, 1, 1⟩, GpuEx.row, 0, ⟨15, 0, 0⟩, fun _ _ => 0, by decide, rfl, GpuEx.rowTarget,
    by unfold Interior; decide, s0, h1, h4, ?_⟩
  intro k s hr
  obtain ⟨r1, r2, r3⟩ := h5 k s hr
  refine ⟨r1, r2, fun hw => ?_⟩
  obtain ⟨⟨-, a2⟩, a3⟩ := r3 hw
  refine ⟨⟨?_, by decide⟩, a3⟩
  have hlo : lo.x = -1 := by
    have l1 := h3 ⟨-1, 0, 0⟩ ⟨by unfold Stored; decide, by
      simp only [Expr.onDevice, Expr.DefinedAt, ghostMax]; decide⟩
    have l2 := h2.1
    have e1 : GpuEx.row.geo.ghosts.minus = ⟨1, 0, 0⟩ := rfl
    unfold Stored at l2
    rw [e1] at l2
    iv_omega
  apply a2
  refine .inr ?_
  rintro c ⟨⟨hs, -⟩, hx, -⟩ hca
  rw [hlo] at hx
  have e0 : (16 : Int) * ((GpuEx.row.geo.window.extent.x + 15) / 16) = 16 := by decide
  rw [e0] at hx
  have e1 : GpuEx.row.geo.ghosts.minus = ⟨1, 0, 0⟩ := rfl
  have e2 : GpuEx.row.geo.ghosts.plus = ⟨1, 0, 0⟩ := rfl
  have e3 : GpuEx.row.geo.bc.hasExtra = 0 := by decide
  have hca' : c + ⟨1, 0, 0⟩ - ⟨1, 0, 0⟩ = c := by ext <;> simp
  have := cellAddr_inj (l := GpuEx.row) (minus := ⟨1, 0, 0⟩) (e := ⟨18, 1, 1⟩) (by decide)
    (x := c + ⟨1, 0, 0⟩) (y := ⟨16, 0, 0⟩)
    (by unfold Stored at hs; rw [e1, e2, e3] at hs; iv_omega) (by decide)
    (by rw [hca']; rw [hca]; rfl)
  have hc15 : c.x = 15 := by
    have := congrArg IntVec.x this
    simp at this; omega
  omega

/-! ## Choice of the backend -/

/-- C24. In a CUDA build an assignment runs on the GPU exactly if the destination lives
there and every field of the expression lives on, or has a copy on, the same device; it
runs on the CPU exactly if the destination lives there and every field lives there too
(device 0) or is a GPU field with a CPU copy; in every other case it is refused with an
exception. -/
theorem C24_backend_choice {V : Type} (l : FieldObj) (e : Expr V .num) :
    (chooseBackend l e = .ok .gpu ↔ l.memType = .gpu ∧
      e.AllFields fun f => (f.memType = .gpu ∧ f.dev = l.dev) ∨ f.consumers.lookup l.dev ≠ none) ∧
    (chooseBackend l e = .ok .cpu ↔ l.memType = .localRam ∧
      e.AllFields fun f => (f.memType = .localRam ∧ f.dev = 0) ∨ (f.memType = .gpu ∧ f.values ≠ none)) ∧
    (chooseBackend l e = .ok .gpu ∨ chooseBackend l e = .ok .cpu ∨ chooseBackend l e = .throws) := by
  have isSome_ne : ∀ {α : Type} (o : Option α), o.isSome = true ↔ o ≠ none := by
    intro α o; cases o <;> simp
  have gpuLeaf : ∀ f : FieldObj, ∃ r, f.findConsumer true .gpu l.dev = .ok r ∧
      (r = true ↔ (f.memType = .gpu ∧ f.dev = l.dev) ∨ f.consumers.lookup l.dev ≠ none) := by
    intro f
    unfold FieldObj.findConsumer
    split
    · rename_i h
      exact ⟨true, rfl, by simp [h.1.symm, h.2.symm]⟩
    · rename_i h
      refine ⟨_, rfl, ?_⟩
      rw [isSome_ne]
      constructor
      · exact .inr
      · rintro (⟨h1, h2⟩ | h1)
        · exact absurd ⟨h1.symm, h2.symm⟩ h
        · exact h1
  have gpu : ∀ {t : Ty} (e : Expr V t), ∃ r, e.gpuReady l.dev = .ok r ∧ (r = true ↔ e.AllFields fun f =>
      (f.memType = .gpu ∧ f.dev = l.dev) ∨ f.consumers.lookup l.dev ≠ none) := by
    intro t e
    induction e with
    | scalar v => exact ⟨true, rfl, by simp [Expr.AllFields]⟩
    | mask k => exact ⟨true, rfl, by simp [Expr.AllFields]⟩
    | field f => exact gpuLeaf f
    | single f => exact gpuLeaf f
    | maskShift p a ih => exact ih
    | un op a ih => exact ih
    | stencil pts a ih => exact ih
    | sumStencil pts a ih => exact ih
    | bin op a b iha ihb | and a b iha ihb | or a b iha ihb =>
      obtain ⟨x, x1, x2⟩ := iha
      obtain ⟨y, y1, y2⟩ := ihb
      simp only [Expr.gpuReady, Expr.AllFields]
      rw [x1, Outcome.ok_bind, ← x2, ← y2]
      cases x with
      | true => rw [if_pos rfl, y1]; exact ⟨y, rfl, by simp⟩
      | false => rw [if_neg (by simp)]; exact ⟨false, rfl, by simp⟩
    | cond c a b ihc iha ihb =>
      obtain ⟨z, z1, z2⟩ := ihc
      obtain ⟨x, x1, x2⟩ := iha
      obtain ⟨y, y1, y2⟩ := ihb
      simp only [Expr.gpuReady, Expr.AllFields]
      rw [z1, Outcome.ok_bind, ← x2, ← y2, ← z2]
      cases z with
      | true =>
        rw [if_pos rfl, x1, Outcome.ok_bind]
        cases x with
        | true => rw [if_pos rfl, y1]; exact ⟨y, rfl, by simp⟩
        | false => rw [if_neg (by simp)]; exact ⟨false, rfl, by simp⟩
      | false => exact ⟨false, rfl, by simp⟩
  have cpuLeaf : ∀ f : FieldObj, (f.findConsumer true .localRam 0 = .ok true ∧
        ((f.memType = .localRam ∧ f.dev = 0) ∨ (f.memType = .gpu ∧ f.values ≠ none))) ∨
      ((f.findConsumer true .localRam 0 = .ok false ∨ f.findConsumer true .localRam 0 = .throws) ∧
        ¬ ((f.memType = .localRam ∧ f.dev = 0) ∨ (f.memType = .gpu ∧ f.values ≠ none))) := by
    intro f
    unfold FieldObj.findConsumer
    split
    · rename_i h
      exact .inl ⟨rfl, .inl ⟨h.1.symm, h.2.symm⟩⟩
    · rename_i h
      dsimp only
      split
      · rename_i h2
        cases hv : f.values with
        | none =>
          refine .inr ⟨.inl rfl, ?_⟩
          rintro (⟨h3, h4⟩ | ⟨-, h3⟩)
          · exact h ⟨h3.symm, h4.symm⟩
          · exact h3 rfl
        | some v => exact .inl ⟨rfl, .inr ⟨h2.2, by simp⟩⟩
      · rename_i h2
        refine .inr ⟨.inr rfl, ?_⟩
        rintro (⟨h3, h4⟩ | ⟨h3, -⟩)
        · exact h ⟨h3.symm, h4.symm⟩
        · exact h2 ⟨rfl, h3⟩
  have cpu : ∀ {t : Ty} (e : Expr V t),
      (e.cpuReady = .ok true ∧ e.AllFields fun f =>
        (f.memType = .localRam ∧ f.dev = 0) ∨ (f.memType = .gpu ∧ f.values ≠ none)) ∨
      ((e.cpuReady = .ok false ∨ e.cpuReady = .throws) ∧ ¬ e.AllFields fun f =>
        (f.memType = .localRam ∧ f.dev = 0) ∨ (f.memType = .gpu ∧ f.values ≠ none)) := by
    intro t e
    induction e with
    | scalar v => exact .inl ⟨rfl, trivial⟩
    | mask k => exact .inl ⟨rfl, trivial⟩
    | field f => exact cpuLeaf f
    | single f => exact cpuLeaf f
    | maskShift p a ih => exact ih
    | un op a ih => exact ih
    | stencil pts a ih => exact ih
    | sumStencil pts a ih => exact ih
    | bin op a b iha ihb | and a b iha ihb | or a b iha ihb =>
      simp only [Expr.cpuReady, Expr.AllFields]
      rcases iha with ⟨a1, a2⟩ | ⟨a1, a2⟩
      · rw [a1, Outcome.ok_bind, if_pos rfl]
        rcases ihb with ⟨b1, b2⟩ | ⟨b1, b2⟩
        · exact .inl ⟨b1, a2, b2⟩
        · exact .inr ⟨b1, fun h => b2 h.2⟩
      · refine .inr ⟨?_, fun h => a2 h.1⟩
        rcases a1 with a1 | a1
        · rw [a1]; exact .inl rfl
        · rw [a1]; exact .inr rfl
    | cond c a b ihc iha ihb =>
      simp only [Expr.cpuReady, Expr.AllFields]
      rcases ihc with ⟨c1, c2⟩ | ⟨c1, c2⟩
      · rw [c1, Outcome.ok_bind, if_pos rfl]
        rcases iha with ⟨a1, a2⟩ | ⟨a1, a2⟩
        · rw [a1, Outcome.ok_bind, if_pos rfl]
          rcases ihb with ⟨b1, b2⟩ | ⟨b1, b2⟩
          · exact .inl ⟨b1, c2, a2, b2⟩
          · exact .inr ⟨b1, fun h => b2 h.2.2⟩
        · refine .inr ⟨?_, fun h => a2 h.2.1⟩
          rcases a1 with a1 | a1
          · rw [a1]; exact .inl rfl
          · rw [a1]; exact .inr rfl
      · refine .inr ⟨?_, fun h => c2 h.1⟩
        rcases c1 with c1 | c1
        · rw [c1]; exact .inl rfl
        · rw [c1]; exact .inr rfl
  unfold chooseBackend
  cases hm : l.memType with
  | gpu =>
    rw [if_pos rfl]
    obtain ⟨r, r1, r2⟩ := gpu e
    rw [r1, Outcome.ok_bind, ← r2]
    cases r <;> simp [Outcome.pure_eq]
  | localRam =>
    rw [if_neg (by simp), if_pos rfl]
    rcases cpu e with ⟨c1, c2⟩ | ⟨c1, c2⟩
    · rw [c1, Outcome.ok_bind, if_pos rfl]
      simp [Outcome.pure_eq, c2]
    · rcases c1 with c1 | c1
      · rw [c1, Outcome.ok_bind, if_neg (by simp)]
        simp [c2]
      · rw [c1]
        refine ⟨?_, ?_, .inr (.inr rfl)⟩
        · constructor
          · intro h; cases h
          · intro h; cases h.1
        · constructor
          · intro h; cases h
          · intro h; exact absurd h.2 c2
  | other =>
    rw [if_neg (by simp), if_neg (by simp)]
    simp

/-- All three outcomes occur. -/
example : chooseBackend (V := Int) (GpuEx.fld true 0) GpuEx.expr = .ok .gpu ∧
    chooseBackend (V := Int) (NeboEx.fld true 0) NeboEx.expr = .ok .cpu ∧
    chooseBackend (V := Int) (NeboEx.fld true 0) GpuEx.expr = .throws := by decide +kernel

end SpatialOps
