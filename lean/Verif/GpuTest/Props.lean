import Verif.GpuTest.Lemmas

/-!
# Assignment in a GPU test build (C86)
-/

namespace SpatialOps
namespace Nebo

/-- The field built on the device lies on the same mesh, at the same addresses. -/
private theorem twin {n : IntVec} (hn : IntVec.Lt 0 n) {l : FieldObj} {b : Nat} (ht : Target n l b) (x : Nat) :
    ∃ geo, FieldGeo.ctor false l.geo.window l.geo.bc l.geo.validGhosts = .ok geo ∧
      Target n (cpuTwin (gpuTwin l geo x)) x ∧ geo.window = l.geo.window ∧ geo.bc = l.geo.bc ∧
      geo.ghosts = l.geo.validGhosts ∧ geo.validGhosts = l.geo.validGhosts := by
  have hm := ht.mesh
  have hfit := hm.fits
  have hs := hm.size
  have hx := hm.extra
  have hv := hm.valid
  have hcopy : l.geo.validGhosts.copy = .ok l.geo.validGhosts := by
    unfold GhostData.copy GhostData.checkValid
    unfold GhostData.Valid at hv
    simp only [Outcome.assert]
    rw [if_pos (by iv_omega)]
    rfl
  have hsingle : FieldGeo.singleValueCheck false l.geo.window l.geo.validGhosts = .ok () := by
    simp [FieldGeo.singleValueCheck, Outcome.throwIf]
  have hw : Window.make l.geo.window.npts
      ⟨FieldGeo.interiorOfs1 l.geo.window.extent.x l.geo.window.offset.x l.geo.validGhosts.minus.x,
       FieldGeo.interiorOfs1 l.geo.window.extent.y l.geo.window.offset.y l.geo.validGhosts.minus.y,
       FieldGeo.interiorOfs1 l.geo.window.extent.z l.geo.window.offset.z l.geo.validGhosts.minus.z⟩
      ⟨FieldGeo.interiorExt1 l.geo.window.extent.x l.geo.validGhosts.minus.x l.geo.validGhosts.plus.x,
       FieldGeo.interiorExt1 l.geo.window.extent.y l.geo.validGhosts.minus.y l.geo.validGhosts.plus.y,
       FieldGeo.interiorExt1 l.geo.window.extent.z l.geo.validGhosts.minus.z l.geo.validGhosts.plus.z⟩ = .ok ⟨l.geo.window.npts,
      ⟨FieldGeo.interiorOfs1 l.geo.window.extent.x l.geo.window.offset.x l.geo.validGhosts.minus.x,
       FieldGeo.interiorOfs1 l.geo.window.extent.y l.geo.window.offset.y l.geo.validGhosts.minus.y,
       FieldGeo.interiorOfs1 l.geo.window.extent.z l.geo.window.offset.z l.geo.validGhosts.minus.z⟩,
      ⟨FieldGeo.interiorExt1 l.geo.window.extent.x l.geo.validGhosts.minus.x l.geo.validGhosts.plus.x,
       FieldGeo.interiorExt1 l.geo.window.extent.y l.geo.validGhosts.minus.y l.geo.validGhosts.plus.y,
       FieldGeo.interiorExt1 l.geo.window.extent.z l.geo.validGhosts.minus.z l.geo.validGhosts.plus.z⟩⟩ := by
    unfold Window.make Outcome.assert
    rw [if_pos]
    · rfl
    · unfold Window.sanityCheck FieldGeo.interiorOfs1 FieldGeo.interiorExt1
      unfold Window.Fits at hfit
      unfold GhostData.Valid at hv
      rw [hs] at hfit ⊢
      refine ⟨by iv_omega, ?_, ?_, ?_⟩ <;> refine ⟨?_, ?_, ?_⟩ <;> dsimp only <;> split <;> iv_omega
  obtain ⟨w, hw⟩ : ∃ w, _ = Outcome.ok w := ⟨_, hw⟩
  refine ⟨⟨l.geo.window, w, l.geo.bc, l.geo.validGhosts, l.geo.validGhosts, false⟩, by unfold FieldGeo.ctor; rw [hcopy, Outcome.ok_bind, hsingle, Outcome.ok_bind, hw, Outcome.ok_bind]; rfl,
    ⟨⟨hfit, hs, hx, hv, hm.finite, hv, hm.finite⟩, rfl, rfl, rfl, ?_⟩, rfl, rfl, rfl, rfl⟩
  simp only [cpuTwin, gpuTwin, origin]
  unfold Window.Fits at hfit
  rw [hs] at hfit
  constructor <;> iv_omega

/-- C86. An assignment to a CPU field in a GPU test build, whatever the devices on which the
operands live and even if the right-hand side reads the destination at other cells: the call is accepted, every
interleaving of the GPU's threads ends, and afterwards every interior cell (and, for `<<=`, every valid ghost
cell where the expression has a value) holds the expression's value on the data before the
call; no field but the destination has changed. What is missing: every other element of the destination's
memory is set to zero instead of being left alone. -/
theorem _root_.SpatialOps.C86_gpu_test_assign_partial {V : Type} [Add V] [Mul V] (zero : V) (n : IntVec)
    (hn : IntVec.Lt 0 n) (l : FieldObj) (b : Nat) (ht : Target n l b) (hl : l.alloc = l.geo.window.globNpts)
    (e : Expr V .num) (he : e.atHome.Wf n) (hd : ∀ c, Interior n l c → e.atHome.DefinedAt n c)
    (hp : e.AllFields Portable) (fresh : Nat → Nat) (hinj : Function.Injective fresh)
    (hf : e.AllFields fun f => ∀ k, f.home ≠ some (fresh k)) (useGhost : Bool) (m : Mem V) :
    ∃ s0 back, gpuTestAssign zero fresh useGhost l e m = .ok (s0, back) ∧
      RunsTo s0 fun r => ∃ m', back r = .ok m' ∧
        TestAssigned zero fresh l b e.atHome (TestRegion useGhost n l e.atHome) m m' := by
  obtain ⟨e', k, m1, p1, -, p3, p4⟩ := gpuPrep_ok (m0 := m) hinj e he hp hf 0 m fun _ _ => rfl
  obtain ⟨geo, g1, g2, gw, gb, gg, gv⟩ := twin hn ht (fresh k)
  obtain ⟨g, hg⟩ : ∃ g, g = gpuTwin l geo (fresh k) := ⟨_, rfl⟩
  rw [← hg] at g2
  have hgeo : g.geo = geo := by rw [hg]; rfl
  have hdev : g.dev = 0 := by rw [hg]; rfl
  obtain ⟨m2, hm2⟩ : ∃ m2 : Mem V, m2 = m1.store (fresh k) l.geo.window.globNpts fun _ => zero := ⟨_, rfl⟩
  have hreset : resetAny true zero g none m1 = .ok m2 := by rw [hg, hm2]; rfl
  have hprep := p4 m2 (fun j _ hj => by
      rw [hm2]; funext i
      unfold Mem.store
      rw [if_neg]; rintro ⟨h, -⟩
      have := hinj h; omega)
    (fun blk hblk => by
      rw [hm2]; funext i
      unfold Mem.store
      rw [if_neg (fun h => hblk k h.1), p3 blk fun j _ _ => hblk j])
  have hgi : ∀ c, Interior n g c ↔ Interior n l c := fun c => by unfold Interior; rw [hgeo, gb]
  have hgd : ∀ c, Interior n g c → (e'.onDevice g.dev).DefinedAt n c := fun c hc => by
    rw [hdev]; exact (hprep.dfd c).2 (hd c ((hgi c).1 hc))
  have hgpu : g.memType = .gpu := by rw [hg]; rfl
  have hval : (cpuTwin g).values = some (fresh k) := by rw [hg]; rfl
  obtain ⟨s0, ms, q1, q2, q3⟩ := C24_gpu_equals_sequential_partial n hn g (fresh k) hgpu g2 e' (by rw [hdev]; exact hprep.wf) hgd
    (by rw [hdev]; exact hprep.ind _ k (le_refl _) hval 0) (by rw [hdev]; exact hprep.apart _ k (le_refl _) hval) useGhost
    (fun _ => by rw [hgeo, gg, gv]; exact ⟨by iv_omega, by iv_omega⟩) m2
  have haddr : ∀ c, cellAddr (cpuTwin g).geo c = cellAddr l.geo c := fun c => by
    show cellAddr g.geo c = _
    unfold cellAddr origin; rw [hgeo, gw, gv]
  have hstored : ∀ c, Stored n (cpuTwin g) c ↔ HasCell l.geo c := fun c => by
    rw [hasCell_iff ht.mesh]
    show Stored n g c ↔ _
    unfold Stored InBox; rw [hgeo, gg, gb]
    constructor <;> intro h <;> iv_omega
  have hseq : Assigned (cpuTwin g) (fresh k) (e'.onDevice 0) (TestRegion useGhost n l e.atHome) m2 ms := by
    rw [hdev] at q2
    cases useGhost with
    | true =>
      obtain ⟨m', r1, r2⟩ := C22_assign_pointwise n hn (cpuTwin g) (fresh k) g2 (e'.onDevice 0) hprep.wf
        (fun c hc => by have := hgd c hc; rwa [hdev] at this) (hprep.ind _ k (le_refl _) hval 0) m2
      have : m' = ms := by unfold assign at r1; rw [r1] at q2; injection q2
      subst this
      have hreg : (fun c => Stored n (cpuTwin g) c ∧ (e'.onDevice 0).DefinedAt n c) = TestRegion true n l e.atHome := by
        funext c
        unfold TestRegion
        rw [if_pos rfl]
        exact propext (and_congr (hstored c) (hprep.dfd c))
      rw [hreg] at r2
      exact r2
    | false =>
      obtain ⟨m', r1, r2⟩ := C22_interior_assign_pointwise n hn (cpuTwin g) (fresh k) g2 (e'.onDevice 0) hprep.wf
        (fun c hc => by have := hgd c hc; rwa [hdev] at this) (hprep.ind _ k (le_refl _) hval 0) m2
      have : m' = ms := by unfold interiorAssign at r1; rw [r1] at q2; injection q2
      subst this
      have hreg : Interior n (cpuTwin g) = TestRegion false n l e.atHome := by
        funext c
        unfold TestRegion
        rw [if_neg (by decide)]
        exact propext (hgi c)
      rw [hreg] at r2
      exact r2
  have hregD : ∀ c, TestRegion useGhost n l e.atHome c → e.atHome.DefinedAt n c ∧ HasCell l.geo c := by
    intro c hc
    unfold TestRegion at hc
    cases useGhost with
    | true => rw [if_pos rfl] at hc; exact ⟨hc.2, hc.1⟩
    | false =>
      rw [if_neg (by decide)] at hc
      refine ⟨hd c hc, (hasCell_iff ht.mesh c).2 ?_⟩
      have hv := ht.mesh.valid
      unfold GhostData.Valid at hv
      unfold Interior at hc
      unfold InBox
      iv_omega
  refine ⟨s0, fun r => r.memcpy (some b) (some (fresh k)) l.alloc, ?_, q3.mono ?_⟩
  · unfold gpuTestAssign
    rw [p1, Outcome.ok_bind]
    simp only [ht.cpu, if_true]
    rw [g1, Outcome.ok_bind, ← hg, hreset, Outcome.ok_bind, q1, Outcome.ok_bind]
    have h1 : l.fieldValuesM true .localRam 0 = .ok (some b) := by
      simp [FieldObj.fieldValuesM, FieldObj.fieldValuesC, ht.writable, ht.mem, Outcome.throwIf]
    have h2 : g.fieldValuesM true .gpu 0 = .ok (some (fresh k)) := by
      rw [hg]; simp [FieldObj.fieldValuesM, FieldObj.fieldValuesC, gpuTwin, Outcome.throwIf]
    simp only [h1, h2, Outcome.ok_bind]
    rfl
  · rintro r rfl
    refine ⟨_, rfl, ?_, ?_, ?_⟩
    · intro c hc
      obtain ⟨d1, d2⟩ := hregD c hc
      obtain ⟨b1, b2⟩ := cellAddr_bound ht.mesh d2
      dsimp only
      rw [if_pos ⟨rfl, b1, by rw [hl]; exact b2⟩, ← haddr, hseq.1 c hc, hprep.val c d1]
    · intro a a1 a2 hne
      dsimp only
      rw [if_pos ⟨rfl, a1, by rw [hl]; exact a2⟩, hseq.2 _ a (.inr fun c hc => by rw [haddr]; exact hne c hc), hm2]
      unfold Mem.store
      rw [if_pos ⟨rfl, a1, a2⟩]
    · intro blk a h1 h2
      dsimp only
      rw [if_neg (by rw [hl]; rintro ⟨r1, r2, r3⟩; rcases h2 with h2 | h2 | h2; exacts [h2 r1, by omega, by omega]),
        hseq.2 _ a (.inl (h1 k)), hm2]
      unfold Mem.store
      rw [if_neg (fun h => h1 k h.1), p3 blk fun j _ _ => h1 j]

/-- C86. If the cells assigned are all there are in the destination's memory, and the right-hand side
reads the destination only at the cell being assigned, a GPU test build leaves exactly the
memory a build without CUDA would (blocks obtained during the call aside). -/
theorem _root_.SpatialOps.C86_equals_cpu_partial {V : Type} [Add V] [Mul V] (zero : V) (n : IntVec)
    (hn : IntVec.Lt 0 n) (l : FieldObj) (b : Nat) (ht : Target n l b) (hl : l.alloc = l.geo.window.globNpts)
    (hall : l.geo.ghosts = l.geo.validGhosts)
    (e : Expr V .num) (he : e.atHome.Wf n) (hd : ∀ c, Interior n l c → e.atHome.DefinedAt n c)
    (hi : e.atHome.Independent l 0)
    (hp : e.AllFields Portable) (fresh : Nat → Nat) (hinj : Function.Injective fresh)
    (hf : e.AllFields fun f => ∀ k, f.home ≠ some (fresh k)) (useGhost : Bool)
    (hcov : ∀ a, 0 ≤ a → a < l.geo.window.globNpts → ∃ c, TestRegion useGhost n l e.atHome c ∧ cellAddr l.geo c = a)
    (m : Mem V) :
    ∃ s0 back mc, gpuTestAssign zero fresh useGhost l e m = .ok (s0, back) ∧
      sequentialAssign useGhost l e.atHome m = .ok mc ∧
      RunsTo s0 fun r => ∃ m', back r = .ok m' ∧ ∀ blk a, (∀ k, blk ≠ fresh k) → m' blk a = mc blk a := by
  obtain ⟨s0, back, h1, h2⟩ := C86_gpu_test_assign_partial zero n hn l b ht hl e he hd hp fresh hinj hf useGhost m
  have hstored : ∀ c, Stored n l c ↔ HasCell l.geo c := fun c => by
    rw [hasCell_iff ht.mesh]
    unfold Stored InBox; rw [hall]
    constructor <;> intro h <;> iv_omega
  have hseq : ∃ mc, sequentialAssign useGhost l e.atHome m = .ok mc ∧
      Assigned l b e.atHome (TestRegion useGhost n l e.atHome) m mc := by
    cases useGhost with
    | true =>
      obtain ⟨mc, r1, r2⟩ := C22_assign_pointwise n hn l b ht e.atHome he hd hi m
      have hreg : (fun c => Stored n l c ∧ e.atHome.DefinedAt n c) = TestRegion true n l e.atHome := by
        funext c
        unfold TestRegion
        rw [if_pos rfl]
        exact propext (and_congr (hstored c) Iff.rfl)
      rw [hreg] at r2
      exact ⟨mc, r1, r2⟩
    | false =>
      obtain ⟨mc, r1, r2⟩ := C22_interior_assign_pointwise n hn l b ht e.atHome he hd hi m
      have hreg : Interior n l = TestRegion false n l e.atHome := by
        funext c
        unfold TestRegion
        rw [if_neg (by decide)]
      rw [hreg] at r2
      exact ⟨mc, r1, r2⟩
  obtain ⟨mc, c1, c2⟩ := hseq
  refine ⟨s0, back, mc, h1, c1, h2.mono ?_⟩
  rintro r ⟨m', k1, k2, k3, k4⟩
  refine ⟨m', k1, fun blk a hblk => ?_⟩
  by_cases hin : blk = b ∧ 0 ≤ a ∧ a < l.geo.window.globNpts
  · obtain ⟨rfl, a1, a2⟩ := hin
    obtain ⟨c, d1, d2⟩ := hcov a a1 a2
    rw [← d2, k2 c d1, c2.1 c d1]
  · have hor : blk ≠ b ∨ a < 0 ∨ l.geo.window.globNpts ≤ a := by
      by_contra hc
      simp only [not_or, not_lt, not_le, not_not] at hc
      exact hin ⟨hc.1, hc.2.1, hc.2.2⟩
    rw [k4 blk a hblk hor, c2.2 blk a]
    rcases hor with hor | hor
    · exact .inl hor
    · right
      intro c hc he'
      have hcell : HasCell l.geo c := by
        unfold TestRegion at hc
        cases useGhost with
        | true => rw [if_pos rfl] at hc; exact hc.1
        | false =>
          rw [if_neg (by decide)] at hc
          refine (hasCell_iff ht.mesh c).2 ?_
          have hv := ht.mesh.valid
          unfold GhostData.Valid at hv
          unfold Interior at hc
          unfold InBox
          iv_omega
      obtain ⟨b1, b2⟩ := cellAddr_bound ht.mesh hcell
      rw [he'] at b1 b2
      omega

namespace GpuTestEx

/-- Blocks obtained during the call. -/
def fresh (k : Nat) : Nat := 100 + k

theorem inj : Function.Injective fresh := fun a b h => by unfold fresh at h; omega

/-- The element an accepted assignment leaves at a position. -/
def peek (o : Outcome (Mem Int)) (b : Nat) (a : Int) : Option Int :=
  match o with
  | .ok m => some (m b a)
  | _ => none

/-- Interior cells have a value of the example expression. -/
theorem defined (c : IntVec) (hc : Interior ⟨4, 3, 1⟩ (NeboEx.fld true 0) c) :
    NeboEx.expr.atHome.DefinedAt ⟨4, 3, 1⟩ c := NeboEx.definedOn rfl c hc

end GpuTestEx

/-- Non-vacuity of `C86_gpu_test_assign_partial`: a conditional with a mask, a scalar multiple and a stencil, over CPU fields. -/
example : ∃ s0 back, gpuTestAssign 0 GpuTestEx.fresh true (NeboEx.fld true 0) NeboEx.expr (fun _ a => a) = .ok (s0, back) ∧
    RunsTo s0 fun r => ∃ m', back r = .ok m' ∧ TestAssigned 0 GpuTestEx.fresh (NeboEx.fld true 0) 0 NeboEx.expr.atHome
      (TestRegion true ⟨4, 3, 1⟩ (NeboEx.fld true 0) NeboEx.expr.atHome) (fun _ a => a) m' :=
  C86_gpu_test_assign_partial 0 ⟨4, 3, 1⟩ (by decide) (NeboEx.fld true 0) 0 (NeboEx.target true 0) (by decide)
    NeboEx.expr ⟨⟨NeboEx.onMesh false, by decide⟩, ⟨trivial, NeboEx.onMesh false, by decide⟩, NeboEx.onMesh true, by decide⟩
    GpuTestEx.defined
    ⟨trivial, ⟨trivial, ⟨by decide, by decide⟩⟩, ⟨by decide, by decide⟩⟩ GpuTestEx.fresh GpuTestEx.inj
    ⟨trivial, ⟨trivial, fun k h => by
      have h : some 1 = some (GpuTestEx.fresh k) := h
      injection h with h; unfold GpuTestEx.fresh at h; omega⟩, fun k h => by
      have h : some 2 = some (GpuTestEx.fresh k) := h
      injection h with h; unfold GpuTestEx.fresh at h; omega⟩ true _

/-- Non-vacuity of `C86_equals_cpu_partial`: `a <<= b` with ghost cells. -/
example : ∃ s0 back mc, gpuTestAssign 0 GpuTestEx.fresh true (NeboEx.fld false 0) (.field (NeboEx.fld false 1))
      (fun b a => (b : Int) + a) = .ok (s0, back) ∧
    sequentialAssign true (NeboEx.fld false 0) (Expr.field (NeboEx.fld false 1)).atHome (fun b a => (b : Int) + a) = .ok mc ∧
    RunsTo s0 fun r => ∃ m', back r = .ok m' ∧ ∀ blk a, (∀ k, blk ≠ GpuTestEx.fresh k) → m' blk a = mc blk a := by
  have hh := hasCell_iff (NeboEx.onMesh false)
  have e1 : (NeboEx.geo false).validGhosts.minus = ⟨1, 1, 0⟩ := rfl
  have e2 : (NeboEx.geo false).validGhosts.plus + (NeboEx.geo false).bc.hasExtra = ⟨1, 1, 0⟩ := by decide
  have e5 : (NeboEx.fld false 0).geo.bc.hasExtra = 0 := by decide
  rw [e1, e2] at hh
  unfold InBox at hh
  refine C86_equals_cpu_partial (V := Int) 0 ⟨4, 3, 1⟩ (by decide) (NeboEx.fld false 0) 0 (NeboEx.target false 0) (by decide) rfl
    (.field (NeboEx.fld false 1)) (by unfold Expr.atHome Expr.Wf; exact ⟨NeboEx.onMesh false, by decide⟩)
    (fun c hc => ?_) (by unfold Expr.atHome Expr.Independent; exact .inl (by decide))
    (by unfold Expr.AllFields; exact ⟨by decide, by decide⟩) GpuTestEx.fresh GpuTestEx.inj (by
      unfold Expr.AllFields
      intro k h
      have h : some 1 = some (GpuTestEx.fresh k) := h
      injection h with h; unfold GpuTestEx.fresh at h; omega) true (fun a a0 a1 => ?_) _
  · unfold Interior at hc
    rw [e5] at hc
    unfold Expr.atHome Expr.DefinedAt
    exact (hh c).2 (by iv_omega)
  · have e6 : origin (NeboEx.fld false 0).geo = ⟨1, 1, 0⟩ := by decide
    have e7 : (NeboEx.fld false 0).geo.window.npts = ⟨6, 5, 1⟩ := by decide
    have e8 : (NeboEx.fld false 0).geo.window.globNpts = 30 := by decide
    rw [e8] at a1
    have hcell : HasCell (NeboEx.geo false) ⟨a % 6 - 1, a / 6 - 1, 0⟩ := (hh _).2 (by iv_omega)
    refine ⟨⟨a % 6 - 1, a / 6 - 1, 0⟩, ?_, ?_⟩
    · unfold TestRegion
      rw [if_pos rfl]
      unfold Expr.atHome Expr.DefinedAt
      exact ⟨hcell, hcell⟩
    · unfold cellAddr fortranPos
      rw [e6, e7]
      simp only [IntVec.add_x, IntVec.add_y, IntVec.add_z]
      omega

/-- C86, deviation. In a GPU test build `interior_assign(f, 7)` on a field with one layer of ghost cells
destroys the ghost cells: they hold 5 before the call, keep it in a build without CUDA, and are zero
after it here. -/
theorem _root_.SpatialOps.C86_rest_is_zeroed :
    ∃ (n : IntVec) (l : FieldObj) (b : Nat) (m : Mem Int) (c : IntVec), IntVec.Lt 0 n ∧ Target n l b ∧
      HasCell l.geo c ∧ ¬ Interior n l c ∧ m b (cellAddr l.geo c) = 5 ∧
      (∃ mc, interiorAssign l (.scalar (t := .num) 7) m = .ok mc ∧ mc b (cellAddr l.geo c) = 5) ∧
      ∃ s0 back, gpuTestAssign 0 GpuTestEx.fresh false l (.scalar (t := .num) 7) m = .ok (s0, back) ∧
        RunsTo s0 fun r => ∃ m', back r = .ok m' ∧ m' b (cellAddr l.geo c) = 0 := by
  have hd : ∀ c, Interior ⟨4, 3, 1⟩ (NeboEx.fld false 0) c →
      (Expr.scalar (V := Int) (t := .num) 7).DefinedAt ⟨4, 3, 1⟩ c := by
    intro c hc
    unfold Interior at hc
    have e5 : (NeboEx.fld false 0).geo.bc.hasExtra = 0 := by decide
    rw [e5] at hc
    simp only [Expr.DefinedAt, ghostMax]
    iv_omega
  have hne : ∀ c, Interior ⟨4, 3, 1⟩ (NeboEx.fld false 0) c →
      cellAddr (NeboEx.fld false 0).geo c ≠ cellAddr (NeboEx.fld false 0).geo ⟨-1, 0, 0⟩ := by
    intro c hc he
    have e5 : (NeboEx.fld false 0).geo.bc.hasExtra = 0 := by decide
    have e6 : origin (NeboEx.fld false 0).geo = ⟨1, 1, 0⟩ := by decide
    have e7 : (NeboEx.fld false 0).geo.window.npts = ⟨6, 5, 1⟩ := by decide
    unfold Interior at hc
    rw [e5] at hc
    unfold cellAddr at he
    rw [e6, e7] at he
    have := fortranPos_inj (d := ⟨6, 5, 1⟩) (a := ⟨1, 1, 0⟩ + c) (b := ⟨1, 1, 0⟩ + ⟨-1, 0, 0⟩)
      (by unfold InBlock; iv_omega) (by decide) he
    have hx := congrArg IntVec.x this
    iv_omega
  obtain ⟨mc, c1, c2⟩ := C22_interior_assign_pointwise (V := Int) ⟨4, 3, 1⟩ (by decide) (NeboEx.fld false 0) 0 (NeboEx.target false 0)
    (.scalar (t := .num) 7) (by unfold Expr.Wf; trivial) hd (by unfold Expr.Independent; trivial) fun _ _ => 5
  obtain ⟨s0, back, h1, h2⟩ := C86_gpu_test_assign_partial (V := Int) 0 ⟨4, 3, 1⟩ (by decide) (NeboEx.fld false 0) 0
    (NeboEx.target false 0) (by decide) (.scalar (t := .num) 7) (by unfold Expr.atHome Expr.Wf; trivial) (fun c hc => by unfold Expr.atHome; exact hd c hc)
    (by unfold Expr.AllFields; trivial) GpuTestEx.fresh GpuTestEx.inj
    (by unfold Expr.AllFields; trivial) false fun _ _ => 5
  refine ⟨⟨4, 3, 1⟩, NeboEx.fld false 0, 0, fun _ _ => 5, ⟨-1, 0, 0⟩, by decide, NeboEx.target false 0,
    by unfold HasCell Window.Covers; decide, by unfold Interior; decide, rfl, ⟨mc, c1, c2.2 0 _ (.inr hne)⟩, s0, back, h1, h2.mono ?_⟩
  rintro r ⟨m', k1, -, k3, -⟩
  exact ⟨m', k1, k3 _ (by decide) (by decide) fun c hc => hne c (by simpa [TestRegion] using hc)⟩

/-- C86, deviation. When the right-hand side reads the destination at another cell (`f <<= shift(f)`), the two builds
disagree on the cells assigned: a GPU test build uses the values before the call throughout, a build without CUDA values already
overwritten. -/
theorem _root_.SpatialOps.C86_in_place_differs :
    ∃ (n : IntVec) (l : FieldObj) (b : Nat) (e : Expr Int .num) (m : Mem Int) (c : IntVec), IntVec.Lt 0 n ∧ Target n l b ∧
      e.Wf n ∧ Interior n l c ∧
      (∃ mc, interiorAssign l e m = .ok mc ∧ mc b (cellAddr l.geo c) ≠ e.value m c) ∧
      ∃ s0 back, gpuTestAssign 0 GpuTestEx.fresh false l e m = .ok (s0, back) ∧
        RunsTo s0 fun r => ∃ m', back r = .ok m' ∧ m' b (cellAddr l.geo c) = e.value m c := by
  have hw : (Expr.sumStencil (.one ⟨-1, 0, 0⟩) (.field (NeboEx.fld false 0)) : Expr Int .num).Wf ⟨4, 3, 1⟩ := by
    unfold Expr.Wf Expr.Wf; exact ⟨NeboEx.onMesh false, by decide⟩
  have hd : ∀ c, Interior ⟨4, 3, 1⟩ (NeboEx.fld false 0) c →
      (Expr.sumStencil (.one ⟨-1, 0, 0⟩) (.field (NeboEx.fld false 0)) : Expr Int .num).DefinedAt ⟨4, 3, 1⟩ c := by
    intro c hc
    have hh := hasCell_iff (NeboEx.onMesh false)
    have e1 : (NeboEx.geo false).validGhosts.minus = ⟨1, 1, 0⟩ := rfl
    have e2 : (NeboEx.geo false).validGhosts.plus + (NeboEx.geo false).bc.hasExtra = ⟨1, 1, 0⟩ := by decide
    have e5 : (NeboEx.fld false 0).geo.bc.hasExtra = 0 := by decide
    unfold Interior at hc
    rw [e5] at hc
    rw [e1, e2] at hh
    unfold InBox at hh
    intro q hq
    simp only [Pts.toList, List.mem_singleton] at hq
    subst hq
    exact ⟨(hh c).2 (by iv_omega), (hh _).2 (by iv_omega)⟩
  obtain ⟨s0, back, h1, h2⟩ := C86_gpu_test_assign_partial (V := Int) 0 ⟨4, 3, 1⟩ (by decide) (NeboEx.fld false 0) 0
    (NeboEx.target false 0) (by decide) (.sumStencil (.one ⟨-1, 0, 0⟩) (.field (NeboEx.fld false 0))) (by unfold Expr.atHome Expr.atHome Expr.Wf Expr.Wf; exact ⟨NeboEx.onMesh false, by decide⟩)
    (fun c hc => by unfold Expr.atHome Expr.atHome; exact hd c hc)
    (by unfold Expr.AllFields Expr.AllFields; exact ⟨by decide, by decide⟩) GpuTestEx.fresh GpuTestEx.inj (by
      unfold Expr.AllFields Expr.AllFields
      intro k h
      have h : some 0 = some (GpuTestEx.fresh k) := h
      injection h with h; unfold GpuTestEx.fresh at h; omega) false fun _ a => a
  have hpeek : GpuTestEx.peek (interiorAssign (NeboEx.fld false 0) (.sumStencil (.one ⟨-1, 0, 0⟩) (.field (NeboEx.fld false 0)))
      (fun _ a => a)) 0 (cellAddr (NeboEx.fld false 0).geo ⟨1, 0, 0⟩) = some 6 := by decide +kernel
  have hv : (Expr.sumStencil (.one ⟨-1, 0, 0⟩) (.field (NeboEx.fld false 0)) : Expr Int .num).value (fun _ a => a) ⟨1, 0, 0⟩ = 7 := by
    decide +kernel
  refine ⟨⟨4, 3, 1⟩, NeboEx.fld false 0, 0, .sumStencil (.one ⟨-1, 0, 0⟩) (.field (NeboEx.fld false 0)), fun _ a => a,
    ⟨1, 0, 0⟩, by decide, NeboEx.target false 0, hw, by unfold Interior; decide, ?_, s0, back, h1, h2.mono ?_⟩
  · cases ho : interiorAssign (NeboEx.fld false 0) (.sumStencil (.one ⟨-1, 0, 0⟩) (.field (NeboEx.fld false 0)))
        (fun _ a => a) with
    | ok mc =>
      rw [ho] at hpeek
      refine ⟨mc, rfl, ?_⟩
      rw [hv]
      have : mc 0 (cellAddr (NeboEx.fld false 0).geo ⟨1, 0, 0⟩) = 6 := by simpa [GpuTestEx.peek] using hpeek
      rw [this]; decide
    | _ => rw [ho] at hpeek; cases hpeek
  · rintro r ⟨m', k1, k2, -, -⟩
    exact ⟨m', k1, k2 ⟨1, 0, 0⟩ (by unfold TestRegion; rw [if_neg (by decide)]; unfold Interior; decide)⟩

end Nebo
end SpatialOps
