import Verif.NeboGpu.Walks
import Verif.NeboPar.Core

/-!
# Lemmas: the launch and the whole assignment on a GPU
-/

namespace SpatialOps
namespace Nebo

theorem gridDim_eq {e : Int} (he : 0 ≤ e) : gridDim e = (e + 15) / 16 := by
  unfold gridDim
  rw [Int.tdiv_eq_ediv_of_nonneg he, Int.tmod_eq_emod_of_nonneg he]
  split <;> omega

theorem launch_mem {gx gy : Int} {p : Int × Int} : p ∈ launchThreads gx gy ↔
    0 ≤ p.1 ∧ p.1 < 16 * gx ∧ 0 ≤ p.2 ∧ p.2 < 16 * gy := by
  unfold launchThreads
  simp only [List.mem_flatMap, List.mem_range, List.mem_map]
  constructor
  · rintro ⟨by_, h1, bx, h2, ty, h3, tx, h4, rfl⟩
    dsimp only
    omega
  · rintro ⟨h1, h2, h3, h4⟩
    refine ⟨(p.2 / 16).toNat, by omega, (p.1 / 16).toNat, by omega, (p.2 % 16).toNat, by omega,
      (p.1 % 16).toNat, by omega, ?_⟩
    apply Prod.ext <;> dsimp only <;> omega

theorem launch_nodup (gx gy : Int) : (launchThreads gx gy).Nodup := by
  unfold launchThreads
  have hr : ∀ n : Nat, List.Pairwise (· ≠ ·) (List.range n) := fun n => List.nodup_range
  rw [List.nodup_flatMap]
  refine ⟨fun by_ _ => ?_, (hr _).imp ?_⟩
  · rw [List.nodup_flatMap]
    refine ⟨fun bx _ => ?_, (hr _).imp ?_⟩
    · rw [List.nodup_flatMap]
      refine ⟨fun ty _ => ?_, (hr _).imp ?_⟩
      · apply List.Nodup.map _ List.nodup_range
        intro a b h
        simp only [Prod.mk.injEq] at h
        omega
      · intro a b hab
        simp only [Function.onFun, List.disjoint_left, List.mem_map, List.mem_range]
        rintro p ⟨x, hx, rfl⟩ ⟨y, hy, h⟩
        simp only [Prod.mk.injEq] at h
        omega
    · intro a b hab
      simp only [Function.onFun, List.disjoint_left, List.mem_flatMap, List.mem_map, List.mem_range]
      rintro p ⟨_, h1, x, hx, rfl⟩ ⟨_, h2, y, hy, h⟩
      simp only [Prod.mk.injEq] at h
      omega
  · intro a b hab
    simp only [Function.onFun, List.disjoint_left, List.mem_flatMap, List.mem_map, List.mem_range]
    rintro p ⟨_, h0, _, h1, x, hx, rfl⟩ ⟨_, h3, _, h2, y, hy, h⟩
    simp only [Prod.mk.injEq] at h
    omega

theorem onDevice_ghosts {V : Type} (dev : Nat) : {t : Ty} → (e : Expr V t) →
    (e.onDevice dev).possibleGhosts = e.possibleGhosts
  | _, .scalar _ => rfl
  | _, .field _ => rfl
  | _, .single _ => rfl
  | _, .mask _ => rfl
  | _, .maskShift _ a => by simp only [Expr.onDevice, Expr.possibleGhosts, onDevice_ghosts dev a]
  | _, .un _ a => by simp only [Expr.onDevice, Expr.possibleGhosts, onDevice_ghosts dev a]
  | _, .bin _ a b => by
    simp only [Expr.onDevice, Expr.possibleGhosts, onDevice_ghosts dev a, onDevice_ghosts dev b]
  | _, .and a b => by
    simp only [Expr.onDevice, Expr.possibleGhosts, onDevice_ghosts dev a, onDevice_ghosts dev b]
  | _, .or a b => by
    simp only [Expr.onDevice, Expr.possibleGhosts, onDevice_ghosts dev a, onDevice_ghosts dev b]
  | _, .cond c a b => by
    simp only [Expr.onDevice, Expr.possibleGhosts, onDevice_ghosts dev a, onDevice_ghosts dev b,
      onDevice_ghosts dev c]
  | _, .stencil _ a => by simp only [Expr.onDevice, Expr.possibleGhosts, onDevice_ghosts dev a]
  | _, .sumStencil _ a => by simp only [Expr.onDevice, Expr.possibleGhosts, onDevice_ghosts dev a]

/-- Elements of the cells of one column of the region. -/
def ColCells (l : FieldObj) (b : Nat) (e minus : IntVec) (p : Int × Int) (blk : Nat) (a : Int) : Prop :=
  blk = b ∧ ∃ z, InBlock e ⟨p.1, p.2, z⟩ ∧ a = cellAddr l.geo (⟨p.1, p.2, z⟩ - minus)

/-- Elements of the cells of the region in the columns of the launch. -/
def LaunchCells (l : FieldObj) (b : Nat) (e minus : IntVec) (gx gy : Int) (blk : Nat) (a : Int) : Prop :=
  blk = b ∧ ∃ x, InBlock e x ∧ x.x < 16 * gx ∧ x.y < 16 * gy ∧ a = cellAddr l.geo (x - minus)

theorem gpuAssign_core {V : Type} [Add V] [Mul V] {n : IntVec} {l : FieldObj} {b : Nat}
    (hgpu : l.memType = .gpu) (ht : Target n (cpuTwin l) b) {e : Expr V .num} (he : (e.onDevice l.dev).Wf n)
    (hi : (e.onDevice l.dev).Independent (cpuTwin l) 0) (ha : (e.onDevice l.dev).SinglesApart (cpuTwin l))
    {pg : GhostData} (hpg : e.possibleGhosts = .ok pg) (hx : IntVec.Le l.geo.bc.hasExtra pg.plus) (useGhost : Bool)
    {region : IntVec → Prop}
    (hregion : ∀ c, region c ↔
      if useGhost then Stored n l c ∧ (e.onDevice l.dev).DefinedAt n c else Interior n l c)
    (hne : ∃ c, region c) (hwin : 0 < l.geo.window.extent.x ∧ 0 < l.geo.window.extent.y) (m : Mem V) :
    ∃ (lo : IntVec) (s0 : ParState V) (W : Nat → Nat → Int → Prop) (All : Nat → Int → Prop) (fin : Nat → Mem V)
      (N T : Nat),
      gpuAssign useGhost l e m = .ok s0 ∧
      Inv W All m fin N T s0 ∧
      (∀ i j b a, i < N → j < N → W i b a → W j b a → i = j) ∧
      (∀ i b a, i < N → W i b a → All b a) ∧
      (region lo ∧ ∀ c, region c → IntVec.Le lo c) ∧
      (∀ blk a, All blk a → blk = b ∧
        ∃ c, region c ∧ c.x - lo.x < 16 * ((l.geo.window.extent.x + 15) / 16) ∧
          c.y - lo.y < 16 * ((l.geo.window.extent.y + 15) / 16) ∧ a = cellAddr l.geo c) ∧
      (∀ c, region c → c.x - lo.x < 16 * ((l.geo.window.extent.x + 15) / 16) →
        c.y - lo.y < 16 * ((l.geo.window.extent.y + 15) / 16) →
        ∃ i < N, W i b (cellAddr l.geo c) ∧ fin i b (cellAddr l.geo c) = (e.onDevice l.dev).value m c) := by
  have hpg' := hpg
  rw [← onDevice_ghosts l.dev] at hpg'
  obtain ⟨pv, pex⟩ := possibleGhosts_exact (e.onDevice l.dev) he pg hpg'
  have hmesh : OnMesh n l.geo := ht.mesh
  obtain ⟨rg, lg, c1, c2, c3, c4, c5, c6, c7, c8, c9, c10, c11⟩ := calc_ok hmesh pv hx useGhost
  have hreg : ∀ c, region c ↔ InBox n rg.minus rg.plus c := by
    intro c
    rw [hregion, c7]
    cases useGhost with
    | true =>
      simp only [if_true]
      rw [pex]
      have : Stored n l c ↔ InBox n l.geo.ghosts.minus (l.geo.ghosts.plus + l.geo.bc.hasExtra) c := by
        unfold Stored InBox; constructor <;> intro h <;> iv_omega
      rw [this]
    | false =>
      simp only [Bool.false_eq_true, if_false]
      unfold Interior InBox
      constructor <;> intro h <;> iv_omega
  have hbox : IntVec.Lt 0 (n + rg.minus + rg.plus) := by
    obtain ⟨c, hc⟩ := hne
    have := (hreg c).1 hc
    unfold InBox at this; iv_omega
  have hdef : ∀ c, InBox n rg.minus rg.plus c → (e.onDevice l.dev).DefinedAt n c := by
    intro c hc
    rw [pex]
    unfold InBox at hc ⊢; iv_omega
  have add0 : ∀ a : IntVec, a + 0 = a := fun a => by ext <;> simp
  obtain ⟨g, geo, g1, g2, g3, g4⟩ := reset_ok' hmesh ht.room c4 c5 c6 c8 c9 hbox
  have gw : geo.window = ⟨l.geo.window.npts, origin l.geo - rg.minus, n + rg.minus + rg.plus⟩ := by rw [g3]
  obtain ⟨w, w1, w2⟩ := gpuInit_ok l.dev hbox (cpuTwin l) e he 0
    (fun c hc => ⟨hdef c hc, by rw [add0]; exact hdef c hc⟩) hi ha
  have hext : l.ext = some b := ht.mem
  have hbase : l.fieldValuesM true .gpu l.dev = .ok (some b) := by
    unfold FieldObj.fieldValuesM FieldObj.fieldValuesC
    have hro : l.readOnly = false := ht.writable
    rw [Outcome.throwIf_false (by simp [hro]), Outcome.ok_bind]
    dsimp only
    rw [if_pos rfl, if_pos ⟨hgpu, rfl⟩, hext]
  generalize hE : n + rg.minus + rg.plus = E at *
  have hgx : gridDim l.geo.window.extent.x = (l.geo.window.extent.x + 15) / 16 := gridDim_eq (by omega)
  have hgy : gridDim l.geo.window.extent.y = (l.geo.window.extent.y + 15) / 16 := gridDim_eq (by omega)
  have hposx : 0 < (l.geo.window.extent.x + 15) / 16 := by omega
  have hposy : 0 < (l.geo.window.extent.y + 15) / 16 := by omega
  generalize hGX : (l.geo.window.extent.x + 15) / 16 = gx at *
  generalize hGY : (l.geo.window.extent.y + 15) / 16 = gy at *
  have hset : gpuAssign useGhost l e m = .ok
      ⟨(launchThreads gx gy).map fun p => some (threadActs (some b) geo.window w p.1 p.2), 0,
        (launchThreads gx gy).length, m⟩ := by
    unfold gpuAssign
    rw [hpg, Outcome.ok_bind, c1, Outcome.ok_bind, c3, Outcome.ok_bind]
    dsimp only
    rw [hgx, hgy, g1, Outcome.ok_bind, g2, Outcome.ok_bind, hbase, Outcome.ok_bind, w1, Outcome.ok_bind,
      Outcome.throwIf_false (by omega), Outcome.ok_bind]
    rfl
  have haddr : ∀ x : IntVec, fortranPos geo.window.npts (geo.window.offset + x) = cellAddr l.geo (x - rg.minus) := by
    intro x
    rw [gw]
    unfold cellAddr
    congr 1
    ext <;> simp <;> omega
  have hgf : geo.window.Fits := by rw [gw]; exact g4
  have gext : geo.window.extent = E := by rw [gw]
  -- each thread alone
  have htask : ∀ p : Int × Int, p ∈ launchThreads gx gy → ∃ c m',
      Act.Runs (ColCells l b E rg.minus p) (LaunchCells l b E rg.minus gx gy) m
        (threadActs (some b) geo.window w p.1 p.2) c m' ∧
      ∀ z, InBlock E ⟨p.1, p.2, z⟩ →
        m' b (cellAddr l.geo (⟨p.1, p.2, z⟩ - rg.minus)) =
          (e.onDevice l.dev).value m (⟨p.1, p.2, z⟩ - rg.minus) := by
    rintro ⟨x, y⟩ hp
    obtain ⟨p1, p2, p3, p4⟩ := launch_mem.1 hp
    dsimp only at p1 p2 p3 p4 ⊢
    obtain ⟨w', s1, s2⟩ := w2 x y m
    have hstart : ∀ blk a, OtherMem (cpuTwin l) blk a → ColCells l b E rg.minus (x, y) blk a ∨
        ¬ LaunchCells l b E rg.minus gx gy blk a := by
      intro blk a h
      refine .inr fun h2 => h ?_
      rw [h2.1]; exact ht.mem.symm
    unfold threadActs
    dsimp only
    by_cases hv : x < E.x ∧ 0 ≤ x ∧ y < E.y ∧ 0 ≤ y
    · have hz : ∀ z : Int, 0 ≤ z → z < E.z → InBlock E ⟨x, y, z⟩ := by
        intro z z0 z1; iv_omega
      have ecur : ∀ z : Int, winStart geo.window + (x + y * geo.window.npts.x) +
          z * (geo.window.npts.x * geo.window.npts.y) = cellAddr l.geo (⟨x, y, z⟩ - rg.minus) := by
        intro z
        rw [← haddr]
        unfold winStart fortranPos
        simp only [IntVec.add_x, IntVec.add_y, IntVec.add_z]
        ring
      have hinj : ∀ i j : Nat, (i : Int) < E.z → (j : Int) < E.z →
          cellAddr l.geo (⟨x, y, i⟩ - rg.minus) = cellAddr l.geo (⟨x, y, j⟩ - rg.minus) → i = j := by
        intro i j h1 h2 h3
        have := cellAddr_inj (l := l) g4 (hz i (by omega) h1) (hz j (by omega) h2) h3
        simpa using this
      obtain ⟨c, hc⟩ := threadLoop_runs (size := geo.window.globNpts) (h := E.z)
        (step := geo.window.npts.x * geo.window.npts.y)
        (cur := winStart geo.window + (x + y * geo.window.npts.x)) (b := b) (u := w')
        (P := fun z => MayRead (cpuTwin l) (⟨x, y, z⟩ - rg.minus))
        (v := fun m' z => (e.onDevice l.dev).value2 m m' (⟨x, y, z⟩ - rg.minus + 0))
        (val := fun z => (e.onDevice l.dev).value m (⟨x, y, z⟩ - rg.minus)) m
        (s2 hv.2.1 hv.1 hv.2.2.2 hv.2.2.1)
        (by
          intro i j h1 h2 h3
          rw [ecur, ecur] at h3
          exact hinj i j h1 h2 h3)
        (by
          intro k hk
          rw [ecur, ← haddr]
          refine fortranPos_bound (d := geo.window.npts) ?_
          obtain ⟨f1, f2, f3, f4⟩ := hgf
          have := hz k (by omega) hk
          rw [gext] at *
          iv_omega)
        (by
          intro k hk m' hm'
          have := value2_eq (m0 := m) (m := m') (l := cpuTwin l) (c := ⟨x, y, k⟩ - rg.minus) (n := n) (by
            intro blk a hba
            apply hm'
            rcases hba with hba | hba
            · left; intro hb; apply hba; rw [ht.mem, hb]
            · right; rw [ecur]; exact hba) (e.onDevice l.dev) he 0 hi
          rw [this, add0])
        (ColCells l b E rg.minus (x, y)) (LaunchCells l b E rg.minus gx gy)
        (by
          intro k hk blk a hba
          by_cases hb : blk = b
          · left
            rcases hba with hba | hba
            · exact absurd (by rw [ht.mem, hb]) hba
            · exact ⟨hb, k, hz k (by omega) hk, hba⟩
          · exact .inr fun h => hb h.1)
        (by
          intro k hk
          exact ⟨rfl, k, hz k (by omega) hk, ecur k⟩)
        E.z.toNat 0 (by have := hbox.2.2; simp at this; omega)
      simp only [Nat.cast_zero, zero_mul, add_zero] at hc
      obtain ⟨n', r⟩ := s1 _ _ hstart (fun w' => threadLoop (some b) geo.window.globNpts
          (decide (x < geo.window.extent.x ∧ 0 ≤ x ∧ y < geo.window.extent.y ∧ 0 ≤ y)) geo.window.extent.z
          (geo.window.npts.x * geo.window.npts.y) geo.window.extent.z.toNat 0
          (if decide (x < geo.window.extent.x ∧ 0 ≤ x ∧ y < geo.window.extent.y ∧ 0 ≤ y) = true then
            winStart geo.window + (x + y * geo.window.npts.x) else winStart geo.window) w') _ _ (by
          rw [gext, decide_eq_true hv, if_pos rfl]
          exact hc)
      refine ⟨n', _, r, ?_⟩
      intro z hzz
      have h1 : 0 ≤ z ∧ z < E.z := by iv_omega
      have := viewC_val (b := b) (val := fun z => (e.onDevice l.dev).value m (⟨x, y, z⟩ - rg.minus)) (m0 := m)
        (addr := fun z => winStart geo.window + (x + y * geo.window.npts.x) + z * (geo.window.npts.x * geo.window.npts.y))
        (h := E.z) (by
          intro i j h1 h2 h3
          rw [ecur, ecur] at h3
          exact hinj i j h1 h2 h3) E.z.toNat (by omega) z.toNat (by omega)
      rw [ecur, Int.toNat_of_nonneg h1.1] at this
      exact this
    · obtain ⟨n', r⟩ := s1 _ _ hstart (fun w' => threadLoop (some b) geo.window.globNpts
          (decide (x < geo.window.extent.x ∧ 0 ≤ x ∧ y < geo.window.extent.y ∧ 0 ≤ y)) geo.window.extent.z
          (geo.window.npts.x * geo.window.npts.y) geo.window.extent.z.toNat 0
          (if decide (x < geo.window.extent.x ∧ 0 ≤ x ∧ y < geo.window.extent.y ∧ 0 ≤ y) = true then
            winStart geo.window + (x + y * geo.window.npts.x) else winStart geo.window) w') 0 m (by
          rw [gext, decide_eq_false hv]
          exact threadLoop_invalid _ _ _ _ _ _ _ _ _ _ _ (by have := hbox.2.2; simp at this; omega))
      refine ⟨n', m, r, ?_⟩
      intro z hzz
      exact absurd (show x < E.x ∧ 0 ≤ x ∧ y < E.y ∧ 0 ≤ y by iv_omega) hv
  -- the column of each thread
  have hP : ∀ i : Nat, ∃ p : Int × Int, i < (launchThreads gx gy).length →
      (launchThreads gx gy)[i]? = some p ∧ p ∈ launchThreads gx gy := by
    intro i
    by_cases h : i < (launchThreads gx gy).length
    · exact ⟨(launchThreads gx gy)[i], fun _ => ⟨List.getElem?_eq_getElem h, List.getElem_mem h⟩⟩
    · exact ⟨(0, 0), fun h' => absurd h' h⟩
  choose col hcol using hP
  have hT : ∀ i : Nat, ∃ cm : Nat × Mem V, i < (launchThreads gx gy).length →
      Act.Runs (ColCells l b E rg.minus (col i)) (LaunchCells l b E rg.minus gx gy) m
        (threadActs (some b) geo.window w (col i).1 (col i).2) cm.1 cm.2 ∧
      ∀ z, InBlock E ⟨(col i).1, (col i).2, z⟩ →
        cm.2 b (cellAddr l.geo (⟨(col i).1, (col i).2, z⟩ - rg.minus)) =
          (e.onDevice l.dev).value m (⟨(col i).1, (col i).2, z⟩ - rg.minus) := by
    intro i
    by_cases h : i < (launchThreads gx gy).length
    · obtain ⟨c, m', hh⟩ := htask (col i) (hcol i h).2
      exact ⟨(c, m'), fun _ => hh⟩
    · exact ⟨(0, m), fun h' => absurd h' h⟩
  choose cm hcm using hT
  refine ⟨-rg.minus, _, fun i => ColCells l b E rg.minus (col i), LaunchCells l b E rg.minus gx gy, fun i => (cm i).2,
    (launchThreads gx gy).length,
    (∑ i ∈ Finset.range (launchThreads gx gy).length, ((cm i).1 + 1)) + (launchThreads gx gy).length, hset,
    ⟨?_, ⟨fun i => (cm i).1 + 1, rfl, ?_⟩, ?_, ?_⟩, ?_, ?_, ⟨?_, ?_⟩, ?_, ?_⟩
  · simp
  · intro i t hti
    dsimp only at hti ⊢
    rw [List.getElem?_map] at hti
    have hi' : i < (launchThreads gx gy).length := by
      by_contra hge
      rw [List.getElem?_eq_none (by omega)] at hti
      simp at hti
    rw [(hcol i hi').1] at hti
    injection hti with hti
    subst hti
    exact ⟨m, (cm i).1, rfl, (hcm i hi').1, fun _ _ _ => rfl, fun _ _ _ => rfl⟩
  · intro _ _ _; rfl
  · dsimp only
    have : posted ((launchThreads gx gy).map fun p => some (threadActs (some b) geo.window w p.1 p.2)) = 0 := by
      unfold posted
      rw [List.countP_eq_zero]
      intro a ha
      obtain ⟨x, -, rfl⟩ := List.mem_map.1 ha
      simp
    rw [this]
  · rintro i j blk a hi' hj' ⟨-, x, hx, hxa⟩ ⟨-, y, hy, hya⟩
    have hxy := cellAddr_inj (l := l) g4 hx hy (hxa.symm.trans hya)
    have h1 := (hcol i hi').1
    have h2 := (hcol j hj').1
    have hc : col i = col j := by
      rw [IntVec.mk.injEq] at hxy
      exact Prod.ext hxy.1 hxy.2.1
    rw [hc, ← h2] at h1
    exact (List.nodup_iff_injective_getElem.1 (launch_nodup gx gy)
      (a₁ := ⟨i, hi'⟩) (a₂ := ⟨j, hj'⟩) (by
        rw [List.getElem?_eq_getElem hi', List.getElem?_eq_getElem hj'] at h1
        injection h1) |> fun h => by simpa using h)
  · rintro i blk a hi' ⟨hb, z, hz, hza⟩
    obtain ⟨p1, p2, p3, p4⟩ := launch_mem.1 (hcol i hi').2
    exact ⟨hb, _, hz, p2, p4, hza⟩
  · rw [← hE] at hbox
    rw [hreg]; unfold InBox; iv_omega
  · intro c hc
    have := (hreg c).1 hc
    unfold InBox at this; exact this.1
  · rintro blk a ⟨hb, x, hx, hx1, hx2, hxa⟩
    refine ⟨hb, x - rg.minus, (hreg _).2 ?_, ?_, ?_, hxa⟩
    · rw [← hE] at hx
      unfold InBox; iv_omega
    · simp; omega
    · simp; omega
  · intro c hc hc1 hc2
    have hc' := (hreg c).1 hc
    have hcE : InBlock E ⟨c.x + rg.minus.x, c.y + rg.minus.y, c.z + rg.minus.z⟩ := by
      rw [← hE]
      unfold InBox at hc'
      iv_omega
    have hm : ((c.x + rg.minus.x, c.y + rg.minus.y) : Int × Int) ∈ launchThreads gx gy := by
      rw [launch_mem]
      unfold InBlock at hcE
      simp at hc1 hc2
      refine ⟨hcE.1.1, ?_, hcE.1.2.1, ?_⟩ <;> dsimp only <;> omega
    obtain ⟨i, i1⟩ := List.mem_iff_getElem?.1 hm
    have hlt : i < (launchThreads gx gy).length := (List.getElem?_eq_some_iff.1 i1).1
    have hci : col i = (c.x + rg.minus.x, c.y + rg.minus.y) := by
      have := (hcol i hlt).1
      rw [i1] at this
      injection this with this
      exact this.symm
    have ec : (⟨c.x + rg.minus.x, c.y + rg.minus.y, c.z + rg.minus.z⟩ : IntVec) - rg.minus = c := by
      ext <;> simp
    refine ⟨i, hlt, ⟨rfl, c.z + rg.minus.z, by rw [hci]; exact hcE, ?_⟩, ?_⟩
    · rw [hci]; dsimp only; rw [ec]
    · have := (hcm i hlt).2 (c.z + rg.minus.z) (by rw [hci]; exact hcE)
      rw [hci] at this
      dsimp only at this
      rw [ec] at this
      exact this

end Nebo
end SpatialOps
