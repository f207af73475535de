import Verif.NeboPar.Task
import Verif.Nebo.Props

/-!
# Lemmas: enumeration of locations, and the whole parallel assignment
-/

namespace SpatialOps
namespace Nebo

/-! ## Locations -/

/-- Position of a location in the scheduling order (`z` fastest). -/
def locPos (split loc : IntVec) : Int := fortranPos ⟨split.z, split.y, split.x⟩ ⟨loc.z, loc.y, loc.x⟩

theorem locPos_inj {split a b : IntVec} (ha : InBlock split a) (hb : InBlock split b)
    (h : locPos split a = locPos split b) : a = b := by
  have := fortranPos_inj (d := ⟨split.z, split.y, split.x⟩) (a := ⟨a.z, a.y, a.x⟩) (b := ⟨b.z, b.y, b.x⟩)
    (by iv_omega) (by iv_omega) h
  rw [IntVec.mk.injEq] at this
  ext <;> omega

theorem locPos_bound {split a : IntVec} (ha : InBlock split a) :
    0 ≤ locPos split a ∧ locPos split a < partitionCount split := by
  have := fortranPos_bound (d := ⟨split.z, split.y, split.x⟩) (c := ⟨a.z, a.y, a.x⟩) (by iv_omega)
  unfold locPos partitionCount
  refine ⟨this.1, lt_of_lt_of_eq this.2 ?_⟩
  dsimp only
  ring

theorem locPos_next {split loc : IntVec} (h : InBlock split loc)
    (hlt : locPos split loc + 1 < partitionCount split) :
    InBlock split (nextPartition loc split) ∧ locPos split (nextPartition loc split) = locPos split loc + 1 := by
  unfold nextPartition
  split
  · refine ⟨by iv_omega, ?_⟩
    unfold locPos fortranPos
    dsimp only
    ring
  · rename_i h1
    have hz : loc.z = split.z - 1 := by iv_omega
    split
    · refine ⟨by iv_omega, ?_⟩
      unfold locPos fortranPos
      dsimp only
      rw [hz]
      ring
    · rename_i h2
      have hy : loc.y = split.y - 1 := by iv_omega
      have hx : loc.x < split.x - 1 := by
        by_contra hx
        have hx' : loc.x = split.x - 1 := by iv_omega
        apply absurd hlt
        rw [not_lt]
        apply le_of_eq
        unfold locPos fortranPos partitionCount
        dsimp only
        rw [hx', hy, hz]
        ring
      refine ⟨by iv_omega, ?_⟩
      unfold locPos fortranPos
      dsimp only
      rw [hy, hz]
      ring

theorem locations_length (split : IntVec) (k : Nat) (loc : IntVec) : (locations split k loc).length = k := by
  induction k generalizing loc with
  | zero => rfl
  | succ k ih => simp [locations, ih]

theorem locations_get {split : IntVec} (k : Nat) (loc : IntVec) (h : InBlock split loc)
    (hle : locPos split loc + k ≤ partitionCount split) (i : Nat) (hi : i < k) :
    ∃ x, (locations split k loc)[i]? = some x ∧ InBlock split x ∧ locPos split x = locPos split loc + i := by
  induction k generalizing loc i with
  | zero => omega
  | succ k ih =>
    cases i with
    | zero => exact ⟨loc, rfl, h, by simp⟩
    | succ i =>
      obtain ⟨h1, h2⟩ := locPos_next h (by omega)
      obtain ⟨x, x1, x2, x3⟩ := ih (nextPartition loc split) h1 (by omega) i (by omega)
      exact ⟨x, by simpa [locations] using x1, x2, by rw [x3, h2]; push_cast; ring⟩

theorem locPos_zero (split : IntVec) : locPos split 0 = 0 := by
  unfold locPos fortranPos; simp

/-- The `i`-th task's location. -/
theorem locations_spec {split : IntVec} (hs : IntVec.Lt 0 split) :
    (∀ i : Nat, i < (partitionCount split).toNat → ∃ x,
      (locations split (partitionCount split).toNat 0)[i]? = some x ∧ InBlock split x ∧ locPos split x = i) ∧
    ∀ x, InBlock split x → ∃ i : Nat, i < (partitionCount split).toNat ∧
      (locations split (partitionCount split).toNat 0)[i]? = some x := by
  have h0 : InBlock split 0 := by iv_omega
  have hp : 0 < partitionCount split := by
    have := locPos_bound h0; omega
  have key : ∀ i : Nat, i < (partitionCount split).toNat → ∃ x,
      (locations split (partitionCount split).toNat 0)[i]? = some x ∧ InBlock split x ∧ locPos split x = i := by
    intro i hi
    obtain ⟨x, x1, x2, x3⟩ := locations_get (partitionCount split).toNat 0 h0
      (by rw [locPos_zero]; omega) i hi
    exact ⟨x, x1, x2, by rw [x3, locPos_zero]; omega⟩
  refine ⟨key, fun x hx => ?_⟩
  have hb := locPos_bound hx
  obtain ⟨y, y1, y2, y3⟩ := key (locPos split x).toNat (by omega)
  refine ⟨_, ?_, y1.trans ?_⟩
  · omega
  · congr 1
    exact locPos_inj y2 hx (by rw [y3]; omega)

theorem findPartition_ok {ext : IntVec} {n : Int} (he : IntVec.Lt 0 ext) (hn : 1 ≤ n) :
    IntVec.Lt 0 (findPartition ext n) ∧ IntVec.Le (findPartition ext n) ext := by
  unfold findPartition
  split
  · iv_omega
  · split
    · iv_omega
    · split <;> iv_omega

/-! ## The whole assignment -/

/-- Elements of the cells of the part at `loc`. -/
def PartCells (l : FieldObj) (b : Nat) (e minus split loc : IntVec) (blk : Nat) (a : Int) : Prop :=
  blk = b ∧ ∃ x, InBlock (partExt e split loc) x ∧ a = cellAddr l.geo (x + partOfs e split loc - minus)

/-- Elements of all cells assigned. -/
def AllCells (l : FieldObj) (b : Nat) (e minus : IntVec) (blk : Nat) (a : Int) : Prop :=
  blk = b ∧ ∃ x, InBlock e x ∧ a = cellAddr l.geo (x - minus)

theorem cellAddr_inj {l : FieldObj} {minus e : IntVec}
    (hf : Window.Fits ⟨l.geo.window.npts, origin l.geo - minus, e⟩) {x y : IntVec} (hx : InBlock e x)
    (hy : InBlock e y) (h : cellAddr l.geo (x - minus) = cellAddr l.geo (y - minus)) : x = y := by
  have haddr : ∀ x, winAddr ⟨l.geo.window.npts, origin l.geo - minus, e⟩ x = cellAddr l.geo (x - minus) := by
    intro x
    unfold winAddr cellAddr
    congr 1
    ext <;> simp <;> omega
  apply winAddr_inj hf hx hy
  rw [haddr, haddr]; exact h

theorem parallelAssign_core {V : Type} [Add V] [Mul V] {n : IntVec} {l : FieldObj} {b : Nat}
    (ht : Target n l b) {e : Expr V .num} (he : e.Wf n) (hi : e.Independent l 0) {pg : GhostData}
    (hpg : e.possibleGhosts = .ok pg) (hx : IntVec.Le l.geo.bc.hasExtra pg.plus) (useGhost : Bool)
    (hne : ∃ c, if useGhost then Stored n l c ∧ e.DefinedAt n c else Interior n l c)
    {count : Int} (hcount : 1 ≤ count) (m : Mem V) :
    ∃ (s0 : ParState V) (W : Nat → Nat → Int → Prop) (All : Nat → Int → Prop) (fin : Nat → Mem V) (N T : Nat),
      parallelAssign useGhost l count e m = .ok s0 ∧
      Inv W All m fin N T s0 ∧ s0.waits = N ∧
      (∀ i j b a, i < N → j < N → W i b a → W j b a → i = j) ∧
      (∀ i b a, i < N → W i b a → All b a) ∧
      (∀ blk a, All blk a → blk = b ∧
        ∃ c, (if useGhost then Stored n l c ∧ e.DefinedAt n c else Interior n l c) ∧ a = cellAddr l.geo c) ∧
      (∀ c, (if useGhost then Stored n l c ∧ e.DefinedAt n c else Interior n l c) →
        ∃ i < N, W i b (cellAddr l.geo c) ∧ fin i b (cellAddr l.geo c) = e.value m c) := by
  obtain ⟨pv, pex⟩ := possibleGhosts_exact e he pg hpg
  obtain ⟨rg, lg, c1, c2, c3, c4, c5, c6, c7, c8, c9, c10, c11⟩ := calc_ok ht.mesh pv hx useGhost
  have hreg : ∀ c, (if useGhost = true then Stored n l c ∧ e.DefinedAt n c else Interior n l c) ↔
      InBox n rg.minus rg.plus c := by
    intro c
    rw [c7]
    cases useGhost with
    | true =>
      simp only [if_true]
      rw [pex]
      have : Stored n l c ↔ InBox n l.geo.ghosts.minus (l.geo.ghosts.plus + l.geo.bc.hasExtra) c := by
        unfold Stored InBox; constructor <;> intro h <;> iv_omega
      rw [this]
    | false =>
      simp only [Bool.false_eq_true, if_false]
      unfold Interior InBox
      constructor <;> intro h <;> iv_omega
  have hbox : IntVec.Lt 0 (n + rg.minus + rg.plus) := by
    obtain ⟨c, hc⟩ := hne
    have := (hreg c).1 hc
    unfold InBox at this; iv_omega
  have hdef : ∀ c, InBox n rg.minus rg.plus c → e.DefinedAt n c := by
    intro c hc
    rw [pex]
    unfold InBox at hc ⊢; iv_omega
  have add0 : ∀ a : IntVec, a + 0 = a := fun a => by ext <;> simp
  obtain ⟨g, geo, g1, g2, g3, g4⟩ := reset_ok' ht.mesh ht.room c4 c5 c6 c8 c9 hbox
  have gw : geo.window = ⟨l.geo.window.npts, origin l.geo - rg.minus, n + rg.minus + rg.plus⟩ := by rw [g3]
  -- the field used to choose the partition
  have hE : l.geo.window.extent + (lg.minus + lg.plus - l.geo.validGhosts.minus - l.geo.validGhosts.plus) =
      n + rg.minus + rg.plus := by rw [ht.mesh.size, c5, c6]; ext <;> simp <;> omega
  have hB0 : l.geo.window.offset + (l.geo.validGhosts.minus - lg.minus) = origin l.geo - rg.minus := by
    unfold origin; rw [c5]; ext <;> simp <;> omega
  obtain ⟨r, r1, r2, -⟩ := reshape_ok (f := l.geo) ht.mesh.ghosts
    (em := lg.minus + lg.plus - l.geo.validGhosts.minus - l.geo.validGhosts.plus)
    (sh := l.geo.validGhosts.minus - lg.minus) (by rw [hB0, hE]; exact g4) (by rw [hB0, hE]; exact hbox)
  rw [hB0, hE] at r2
  have rext : r.window.extent = n + rg.minus + rg.plus := by rw [r2]
  obtain ⟨e', x1, x2⟩ := resize_tracks m hbox l e he hdef
  generalize hE' : n + rg.minus + rg.plus = E at *
  generalize hS : findPartition E count = split
  have hsplit : IntVec.Lt 0 split ∧ IntVec.Le split E := by rw [← hS]; exact findPartition_ok hbox hcount
  obtain ⟨L1, L2⟩ := locations_spec hsplit.1
  generalize hN : (partitionCount split).toNat = N at *
  have hset : parallelAssign useGhost l count e m = .ok
      ⟨(locations split N 0).map fun loc => some (taskActs { l with geo := geo } e' split loc), 0, N, m⟩ := by
    unfold parallelAssign resizeGhost
    rw [hpg, Outcome.ok_bind, c1, Outcome.ok_bind, c3, Outcome.ok_bind, r1, Outcome.ok_bind]
    dsimp only
    rw [rext, hS, hN, g1, Outcome.ok_bind, g2, Outcome.ok_bind, x1]
    rfl
  -- each task alone
  have htask : ∀ loc, InBlock split loc → ∃ c m',
      Act.Runs (PartCells l b E rg.minus split loc) (AllCells l b E rg.minus) m
        (taskActs { l with geo := geo } e' split loc) c m' ∧
      ∀ x, InBlock (partExt E split loc) x →
        m' b (cellAddr l.geo (x + partOfs E split loc - rg.minus)) =
          e.value m (x + partOfs E split loc - rg.minus) := by
    intro loc hloc
    obtain ⟨b1, b2, b3⟩ := part_bounds hsplit hloc
    obtain ⟨w, w1, w2⟩ := x2 split loc 0 hsplit hloc (fun c hc => by rw [add0]; exact hdef c hc) hi
    have hgf : geo.window.Fits := by rw [gw]; exact g4
    have hpart := refine_part hgf (split := split) (loc := loc) (by rw [gw]; exact hsplit) hloc
    rw [gw] at hpart
    dsimp only at hpart
    have hpf : Window.Fits ⟨l.geo.window.npts, origin l.geo - rg.minus + partOfs E split loc, partExt E split loc⟩ := by
      have hF := ht.mesh.fits
      generalize partOfs E split loc = o at *
      generalize partExt E split loc = x at *
      generalize origin l.geo = og at *
      refine ⟨hF.1, ?_, ?_, ?_⟩ <;> iv_omega
    obtain ⟨pgeo, p1, p2, -⟩ := windowCopy_ok (f := geo) (by rw [g3]; exact ht.mesh.ghosts)
      (w := ⟨l.geo.window.npts, origin l.geo - rg.minus + partOfs E split loc, partExt E split loc⟩)
      hpf b2 (by rw [gw])
    have haddr : ∀ x, winAddr pgeo.window x = cellAddr l.geo (x + partOfs E split loc - rg.minus) := by
      intro x
      rw [p2]
      unfold winAddr cellAddr
      congr 1
      ext <;> simp <;> omega
    have hext : pgeo.window.extent = partExt E split loc := by rw [p2]
    obtain ⟨c, m', q1, q2⟩ := walkActs_runs (l := { l with geo := pgeo }) (b := b) ht.mem ht.cpu ht.writable
      (by dsimp only; rw [p2]; exact hpf) (by dsimp only; rw [p2]; exact b2) (u := w)
      (P := fun x => MayRead l (x + partOfs E split loc - rg.minus))
      (v := fun m' x => e.value2 m m' (x + partOfs E split loc - rg.minus + 0))
      (val := fun x => e.value m (x + partOfs E split loc - rg.minus)) m
      (by dsimp only; rw [hext]; exact w2)
      (by
        intro x hx m' hm'
        dsimp only at hm' ⊢
        have := value2_eq (m0 := m) (m := m') (l := l) (c := x + partOfs E split loc - rg.minus) (n := n) (by
          intro blk a ha
          apply hm'
          rcases ha with ha | ha
          · left; intro hb; apply ha; rw [ht.mem, hb]
          · right; rw [haddr]; exact ha) e he 0 hi
        rw [this, add0])
      (PartCells l b E rg.minus split loc) (AllCells l b E rg.minus)
      (by
        intro x hx blk a ha
        dsimp only at hx
        rw [hext] at hx
        by_cases hb : blk = b
        · left
          rcases ha with ha | ha
          · exact absurd (by rw [ht.mem, hb]) ha
          · exact ⟨hb, x, hx, ha⟩
        · exact .inr fun h => hb h.1)
      (by
        intro x hx
        dsimp only at hx ⊢
        rw [hext] at hx
        exact ⟨rfl, x, hx, haddr x⟩)
    refine ⟨c, m', ?_, ?_⟩
    · unfold taskActs partGeo
      dsimp only
      rw [gw, hpart, Outcome.ok_bind, p1, w1]
      exact q1
    · intro x hx
      have := q2 x (by dsimp only; rw [hext]; exact hx)
      dsimp only at this
      rw [haddr] at this
      exact this
  -- the location of each task
  have hL : ∀ i : Nat, ∃ x, i < N → (locations split N 0)[i]? = some x ∧ InBlock split x ∧ locPos split x = i := by
    intro i
    by_cases h : i < N
    · obtain ⟨x, hx⟩ := L1 i h; exact ⟨x, fun _ => hx⟩
    · exact ⟨0, fun h' => absurd h' h⟩
  choose loc hloc using hL
  have hT : ∀ i : Nat, ∃ cm : Nat × Mem V, i < N →
      Act.Runs (PartCells l b E rg.minus split (loc i)) (AllCells l b E rg.minus) m
        (taskActs { l with geo := geo } e' split (loc i)) cm.1 cm.2 ∧
      ∀ x, InBlock (partExt E split (loc i)) x →
        cm.2 b (cellAddr l.geo (x + partOfs E split (loc i) - rg.minus)) =
          e.value m (x + partOfs E split (loc i) - rg.minus) := by
    intro i
    by_cases h : i < N
    · obtain ⟨c, m', hh⟩ := htask (loc i) (hloc i h).2.1
      exact ⟨(c, m'), fun _ => hh⟩
    · exact ⟨(0, m), fun h' => absurd h' h⟩
  choose cm hcm using hT
  have hinblk : ∀ loc, InBlock split loc → ∀ x, InBlock (partExt E split loc) x → InBlock E (x + partOfs E split loc) := by
    intro loc hl x hx
    obtain ⟨b1, b2, b3⟩ := part_bounds hsplit hl
    generalize partOfs E split loc = o at *
    generalize partExt E split loc = y at *
    iv_omega
  refine ⟨_, fun i => PartCells l b E rg.minus split (loc i), AllCells l b E rg.minus, fun i => (cm i).2, N,
    (∑ i ∈ Finset.range N, ((cm i).1 + 1)) + N, hset, ⟨?_, ⟨fun i => (cm i).1 + 1, rfl, ?_⟩, ?_, ?_⟩, rfl, ?_, ?_, ?_, ?_⟩
  · simp [locations_length]
  · intro i t hti
    dsimp only at hti ⊢
    rw [List.getElem?_map] at hti
    have hi' : i < N := by
      by_contra hge
      rw [List.getElem?_eq_none (by rw [locations_length]; omega)] at hti
      simp at hti
    rw [(hloc i hi').1] at hti
    injection hti with hti
    subst hti
    exact ⟨m, (cm i).1, rfl, (hcm i hi').1, fun _ _ _ => rfl, fun _ _ _ => rfl⟩
  · intro _ _ _; rfl
  · dsimp only
    have : posted ((locations split N 0).map fun loc => some (taskActs { l with geo := geo } e' split loc)) = 0 := by
      unfold posted
      rw [List.countP_eq_zero]
      intro a ha
      obtain ⟨x, -, rfl⟩ := List.mem_map.1 ha
      simp
    rw [this]
  · rintro i j blk a hi' hj' ⟨-, x, hx, hxa⟩ ⟨-, y, hy, hya⟩
    have hi2 := (hloc i hi').2.1
    have hj2 := (hloc j hj').2.1
    have hxy := cellAddr_inj g4 (hinblk _ hi2 x hx) (hinblk _ hj2 y hy) (hxa.symm.trans hya)
    obtain ⟨l0, u1, u2, u3⟩ := part_unique hsplit (hinblk _ hi2 x hx)
    have e1 := u3 (loc i) hi2 (by
      have : x + partOfs E split (loc i) - partOfs E split (loc i) = x := by ext <;> simp
      rw [this]; exact hx)
    have e2 := u3 (loc j) hj2 (by
      have : y + partOfs E split (loc j) - partOfs E split (loc j) = y := by ext <;> simp
      rw [hxy, this]; exact hy)
    have h1 := (hloc i hi').2.2
    have h2 := (hloc j hj').2.2
    rw [e1] at h1
    rw [e2] at h2
    omega
  · rintro i blk a hi' ⟨hb, x, hx, hxa⟩
    exact ⟨hb, _, hinblk _ (hloc i hi').2.1 x hx, hxa⟩
  · rintro blk a ⟨hb, x, hx, hxa⟩
    refine ⟨hb, x - rg.minus, (hreg _).2 ?_, hxa⟩
    rw [← hE'] at hx
    unfold InBox; iv_omega
  · intro c hc
    have hc' := (hreg c).1 hc
    have hcE : InBlock E (c + rg.minus) := by
      rw [← hE']
      unfold InBox at hc'
      iv_omega
    obtain ⟨l0, u1, u2, u3⟩ := part_unique hsplit hcE
    obtain ⟨i, i1, i2⟩ := L2 l0 u1
    have hli : loc i = l0 := by
      have := (hloc i i1).1
      rw [i2] at this
      injection this with this
      exact this.symm
    have ec : c + rg.minus - partOfs E split l0 + partOfs E split l0 - rg.minus = c := by ext <;> simp
    refine ⟨i, i1, ⟨rfl, _, by rw [hli]; exact u2, ?_⟩, ?_⟩
    · rw [hli, ec]
    · have := (hcm i i1).2 _ (by rw [hli]; exact u2)
      rw [hli, ec] at this
      exact this

end Nebo
end SpatialOps
