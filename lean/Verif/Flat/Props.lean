import Verif.Flat.Refuse
import Verif.Conserve.Lemmas

/-!
# C72: one- and two-dimensional problems

Property theorems about fields on meshes with a single cell in some direction, built with the same ghost counts in all
directions, as in `GhostData ghost(1)`.
-/

namespace SpatialOps
namespace Nebo

/-- C72. The public constructors, given ghost counts and a mesh with single-cell directions, build a field that
has the interior, boundary and ghost cells in the other directions and exactly one layer in those. -/
theorem _root_.SpatialOps.C72_built (n : IntVec) (hn : IntVec.Lt 0 n) (g : GhostData) (hg : g.Valid) (hf : g.isInf = false)
    (bx bY bz : Bool) (e : IntVec) (he : IntVec.Le 0 e)
    (hflat : InPlane n (BcInfo.build bx bY bz e).hasExtra) :
    ∃ f, BuiltAs n g (BcInfo.build bx bY bz e) f ∧ f.bc = BcInfo.build bx bY bz e ∧ f.ghosts = g ∧ FlatOn n g f ∧
      (∀ c, FlatHas n f c → InBlock f.window.npts (places n g.minus c)) ∧
      ∀ l : FieldObj, l.geo = f → l.memType = .localRam → l.readOnly = false → ∀ b, l.values = some b → FlatTarget n g l b := by
  obtain ⟨w, f, h1, h2, h3, h4, h5, h6, h7, -, -, -, h8, h9, -⟩ := C09_field_layout n g bx bY bz e hg he
  have hbc : f.bc = BcInfo.build bx bY bz e := by
    unfold FieldGeo.ctor at h2
    obtain ⟨g1, -, h2⟩ := Outcome.bind_eq_ok.1 h2
    obtain ⟨-, -, h2⟩ := Outcome.bind_eq_ok.1 h2
    obtain ⟨i, -, h2⟩ := Outcome.bind_eq_ok.1 h2
    injection h2 with h2
    rw [← h2]
  have hw : w.npts = ⟨getDimWithGhost n.x g.minus.x g.plus.x (BcInfo.build bx bY bz e).hasExtra.x,
     getDimWithGhost n.y g.minus.y g.plus.y (BcInfo.build bx bY bz e).hasExtra.y,
     getDimWithGhost n.z g.minus.z g.plus.z (BcInfo.build bx bY bz e).hasExtra.z⟩ := by
    unfold getWindowWithGhost Window.makeFull Window.make at h1
    obtain ⟨-, -, h1⟩ := Outcome.bind_eq_ok.1 h1
    injection h1 with h1
    rw [← h1]
  have hx : IntVec.Le 0 (BcInfo.build bx bY bz e).hasExtra := by
    rw [hasExtra_build]
    unfold extraCells
    unfold IntVec.Le at he ⊢
    cases bx <;> cases bY <;> cases bz <;> simp at he ⊢ <;> omega
  generalize hB : BcInfo.build bx bY bz e = bc at *
  have dim : ∀ n lo hi ex : Int, 0 < n → (n = 1 → ex = 0) →
      Span n (getDimWithGhost n lo hi ex) ex lo hi lo hi ∧ (n ≠ 1 → getDimWithGhost n lo hi ex = n + lo + hi + ex) ∧
      (n = 1 → getDimWithGhost n lo hi ex = 1) := by
    intro n lo hi ex h0 h1
    unfold Span getDimWithGhost
    refine ⟨⟨fun e => ?_, fun e => ?_⟩, fun e => ?_, fun e => ?_⟩ <;> split <;> omega
  obtain ⟨n1, n2, n3⟩ := hn
  obtain ⟨f1, f2, f3⟩ := hflat
  have dx := dim n.x g.minus.x g.plus.x bc.hasExtra.x n1 f1
  have dy := dim n.y g.minus.y g.plus.y bc.hasExtra.y n2 f2
  have dz := dim n.z g.minus.z g.plus.z bc.hasExtra.z n3 f3
  have on : FlatOn n g f := by
    constructor
    · rw [h3]; exact h6
    · rw [h3, h5, hw, hbc, h9]; exact dx.1
    · rw [h3, h5, hw, hbc, h9]; exact dy.1
    · rw [h3, h5, hw, hbc, h9]; exact dz.1
    · rw [hbc]; exact hx
    · rw [h9]; exact hg
    · rw [h9]; exact hf
    · rw [h8]; exact hg
    · rw [h8]; exact hf
  have inb : ∀ n lo hi ex c : Int, 0 < n → (n = 1 → ex = 0) → InSpan n lo (hi + ex) c →
      0 ≤ place n lo c ∧ place n lo c < getDimWithGhost n lo hi ex := by
    intro n lo hi ex c h0 h1 h2
    unfold InSpan at h2
    unfold place getDimWithGhost
    by_cases e : n = 1
    · rw [if_pos e, if_neg (by omega)]; omega
    · rw [if_neg e, if_pos (by omega)]; have := h2.2 e; omega
  refine ⟨f, ⟨w, h1, h2⟩, hbc, h8, on, fun c hc => ?_, fun l hl hcpu hro b hb => ?_⟩
  · unfold FlatHas at hc
    rw [h9, hbc] at hc
    have ix := inb n.x g.minus.x g.plus.x bc.hasExtra.x c.x n1 f1 hc.1
    have iy := inb n.y g.minus.y g.plus.y bc.hasExtra.y c.y n2 f2 hc.2.1
    have iz := inb n.z g.minus.z g.plus.z bc.hasExtra.z c.z n3 f3 hc.2.2
    rw [h3, hw]
    exact ⟨⟨ix.1, iy.1, iz.1⟩, ix.2, iy.2, iz.2⟩
  · subst hl
    have rm : ∀ n lo hi ex : Int, (n ≠ 1 → getDimWithGhost n lo hi ex = n + lo + hi + ex) →
        Room n 0 (getDimWithGhost n lo hi ex) ex lo lo hi lo hi := by
      intro n lo hi ex h
      refine ⟨fun _ => ⟨rfl, rfl⟩, fun e => ?_⟩
      have := h e
      omega
    refine ⟨on, hcpu, hro, hb, ?_, ?_, ?_⟩
    · rw [h3, h4, hw, hbc, h8, h9]; exact rm _ _ _ _ dx.2.1
    · rw [h3, h4, hw, hbc, h8, h9]; exact rm _ _ _ _ dy.2.1
    · rw [h3, h4, hw, hbc, h8, h9]; exact rm _ _ _ _ dz.2.1

/-- What the assignment to a flat field needs of the mesh with its ghost cells. -/
theorem flat_ready {V : Type} {n : IntVec} (hn : IntVec.Lt 0 n) {g : GhostData} (hg : Moderate g) {l : FieldObj} {b : Nat}
    (ht : FlatTarget n g l b) (e : Expr V .num) (he : e.FlatWf n g) (hd : ∀ c, FlatInterior n l c → e.FlatDefined n c) :
    ∃ pg, e.possibleGhosts = .ok pg ∧ IntVec.Le l.geo.bc.hasExtra pg.plus ∧
      Stored (flatMesh n g) l (emb n g 0) ∧ e.DefinedAt (flatMesh n g) (emb n g 0) := by
  have hn' : 0 < n.x ∧ 0 < n.y ∧ 0 < n.z := hn
  have hwf := flat_wf e he
  have hex := ht.mesh.extra
  have hI : ∀ c, InSpans n 0 0 c → FlatInterior n l c := by
    intro c hc
    unfold FlatInterior
    unfold InSpans InSpan at *
    iv_omega
  obtain ⟨pg, hpg⟩ := possibleGhosts_core (flat_core hn hg.1) e hwf fun c hc => by
    obtain ⟨c0, h0, rfl⟩ := hc
    exact (flat_defined hg e he c0 (inSpans_plane h0)).2 (hd c0 (hI c0 h0))
  obtain ⟨pv, pex⟩ := possibleGhosts_exact e hwf pg hpg
  have hint : IntVec.Le l.geo.bc.hasExtra pg.plus := by
    let c1 : IntVec := flat0 n (n + l.geo.bc.hasExtra - ⟨1, 1, 1⟩)
    have hc1 : FlatInterior n l c1 := by
      unfold FlatInterior InSpans InSpan
      refine ⟨⟨fun e => if_pos e, fun e => ?_⟩, ⟨fun e => if_pos e, fun e => ?_⟩, fun e => if_pos e, fun e => ?_⟩ <;>
        simp only [c1, flat0, if_neg e] <;> iv_omega
    have h2 := (pex _).1 ((flat_defined hg e he c1 (inSpans_plane hc1)).2 (hd c1 hc1))
    have key : ∀ n ex glo ghi p : Int, (n = 1 → ex = 0) → 0 ≤ p →
        emb1 n glo (if n = 1 then 0 else n + ex - 1) < mesh1 n glo ghi + p → ex ≤ p := by
      intro n ex glo ghi p h0 h1 h
      unfold emb1 mesh1 at h
      by_cases en : n = 1
      · have := h0 en; omega
      · simp only [if_neg en] at h; omega
    obtain ⟨gx, gy, gz⟩ := flatGhost ht
    obtain ⟨-, p2⟩ := pv
    exact ⟨key n.x _ _ _ _ (fun e => (gx e).1) p2.1 h2.2.1, key n.y _ _ _ _ (fun e => (gy e).1) p2.2.1 h2.2.2.1,
      key n.z _ _ _ _ (fun e => (gz e).1) p2.2.2 h2.2.2.2⟩
  have hgv := ht.mesh.ghosts
  have in1 : ∀ n lo hi : Int, 0 < n → 0 ≤ lo → 0 ≤ hi → InSpan n lo hi 0 := by
    intro n lo hi h0 h1 h2
    unfold InSpan
    omega
  have h00 : InSpans n 0 0 0 :=
    ⟨in1 _ _ _ hn'.1 (Int.le_refl 0) (Int.le_refl 0), in1 _ _ _ hn'.2.1 (Int.le_refl 0) (Int.le_refl 0),
      in1 _ _ _ hn'.2.2 (Int.le_refl 0) (Int.le_refl 0)⟩
  have hs0 : FlatStored n l 0 := by
    obtain ⟨v1, v2⟩ := hgv
    exact ⟨in1 _ _ _ hn'.1 v1.1 (Int.add_nonneg v2.1 hex.1), in1 _ _ _ hn'.2.1 v1.2.1 (Int.add_nonneg v2.2.1 hex.2.1),
      in1 _ _ _ hn'.2.2 v1.2.2 (Int.add_nonneg v2.2.2 hex.2.2)⟩
  exact ⟨pg, hpg, hint, (flat_stored ht (inSpans_plane h00)).2 hs0,
    (flat_defined hg e he 0 (inSpans_plane h00)).2 (hd 0 (hI 0 h00))⟩

/-- C72. On such a mesh `lhs <<= e`, for an expression whose stencils stay in the plane and that has a value at every interior
cell of the destination, is accepted and stores at every interior and ghost cell where the expression has a value exactly
that value; no other element of memory changes. Missing from the full property: `interior_assign` and fields with different
ghost counts, for which it fails (`C72_interior_assign_refused`, `C72_other_ghosts_refused`). -/
theorem _root_.SpatialOps.C72_assign_partial {V : Type} [Add V] [Mul V] (n : IntVec) (hn : IntVec.Lt 0 n) (g : GhostData)
    (hg : Moderate g) (l : FieldObj) (b : Nat) (ht : FlatTarget n g l b) (e : Expr V .num) (he : e.FlatWf n g)
    (hd : ∀ c, FlatInterior n l c → e.FlatDefined n c) (hi : e.Independent l 0) (m : Mem V) :
    ∃ m', assign l e m = .ok m' ∧
      FlatAssigned n l b e (fun c => FlatStored n l c ∧ e.FlatDefined n c) m m' := by
  have hwf := flat_wf e he
  have hT := flatTarget_target ht
  obtain ⟨pg, hpg, hint, hc0⟩ := flat_ready hn hg ht e he hd
  obtain ⟨m', h1, h2, h3⟩ := sequentialAssign_core hT hwf hi hpg hint true ⟨emb n g 0, by rw [if_pos rfl]; exact hc0⟩ m
  simp only [if_true] at h2 h3
  refine ⟨m', h1, fun c hc => ?_, fun blk a ha => h3 blk a ?_⟩
  · have hp := inSpans_plane hc.1
    rw [← flat_addr ht.mesh, h2 _ ⟨(flat_stored ht hp).2 hc.1, (flat_defined hg e he c hp).2 hc.2⟩, flat_value m e he]
  · rcases ha with ha | ha
    · exact .inl ha
    · refine .inr fun c hc => ?_
      obtain ⟨e1, e2⟩ := stored_emb ht hc.1
      rw [← e1, flat_addr ht.mesh]
      refine ha _ ⟨(flat_stored ht e2).1 (by rw [e1]; exact hc.1), (flat_defined hg e he _ e2).1 (by rw [e1]; exact hc.2)⟩

/-- C72. A stencil with a point that leads across a single-cell direction is refused: nothing is stored. -/
theorem _root_.SpatialOps.C72_across_refused {V : Type} [Add V] [Mul V] (n : IntVec) (g : GhostData) (l src : FieldObj)
    (hl : FlatOn n g l.geo) (hs : FlatOn n g src.geo) (ht : Thin n src.geo) (m : Mem V) :
    (∀ pts : Pts (IntVec × V), (∃ q ∈ pts.toList, ¬ InPlane n q.1) → Refused (assign l (.stencil pts (.field src)) m)) ∧
    (∀ pts : Pts IntVec, (∃ q ∈ pts.toList, ¬ InPlane n q) → Refused (assign l (.sumStencil pts (.field src)) m)) := by
  refine ⟨fun pts ⟨q, h1, h2⟩ => ?_, fun pts ⟨q, h1, h2⟩ => ?_⟩
  · exact crossing_refused hl hs ht h2 (crossing_stencil hs h1) true m
  · exact crossing_refused hl hs ht h2 (crossing_sum hs h1) true m

theorem pair_mem {K : Type} : {ps : Pts IntVec} → {cs : Pts K} → {w : Pts (IntVec × K)} → Stencil.pair ps cs = some w →
    {p : IntVec} → p ∈ ps.toList → ∃ c, (p, c) ∈ w.toList
  | .one q, .one c, w, h, p, hp => by
    simp only [Stencil.pair, Option.some.injEq] at h
    subst h
    simp only [Pts.toList, List.mem_singleton] at hp
    exact ⟨c, by simp [Pts.toList, hp]⟩
  | .more ps q, .more cs c, w, h, p, hp => by
    simp only [Stencil.pair, Option.map_eq_some_iff] at h
    obtain ⟨w', h1, rfl⟩ := h
    simp only [Pts.toList, List.mem_append, List.mem_singleton] at hp
    rcases hp with hp | rfl
    · obtain ⟨c', h2⟩ := pair_mem h1 hp
      exact ⟨c', by simp [Pts.toList, h2]⟩
    · exact ⟨c, by simp [Pts.toList]⟩
  | .one _, .more _ _, _, h, _, _ | .more _ _, .one _, _, h, _, _ => by simp [Stencil.pair] at h

/-- C72 for the operators of `build_stencils`: an operator with a point that leads across a single-cell direction is
refused by `apply_to_field`. -/
theorem _root_.SpatialOps.C72_operator_across_refused {K : Type} [Field K] (n : IntVec) (g : GhostData) (dest src : FieldObj)
    (hl : FlatOn n g dest.geo) (hs : FlatOn n g src.geo) (hthin : Thin n src.geo) (h : Stencil.Dir → K)
    (r : Stencil.Reg) (hr : r ∈ Stencil.registrations) (hp : ∃ p ∈ r.reads, ¬ InPlane n p) (m : Mem K) :
    Refused (r.applyToField h src dest m) := by
  obtain ⟨t, w, den, s, ht, hw, -⟩ := Stencil.reg_weights hr
  obtain ⟨e, he, -⟩ := Stencil.apply_value h t r.coef (.field src) w den s hw
  obtain ⟨p, p1, p2⟩ := hp
  rw [Stencil.reads_eq ht] at p1
  have hre : r.apply h (.field src) = some e := by
    unfold Stencil.Reg.apply
    change r.type.bind _ = _
    rw [ht]
    exact he
  unfold Stencil.Reg.applyToField
  rw [hre]
  dsimp only
  unfold Stencil.OpType.apply at he
  split at he
  · rename_i cs _
    rw [Option.map_eq_some_iff] at he
    obtain ⟨ps, e1, rfl⟩ := he
    obtain ⟨c, hc⟩ := pair_mem e1 p1
    exact crossing_refused hl hs hthin p2 (crossing_stencil hs hc) true m
  · injection he with he
    rw [← he]
    exact crossing_refused hl hs hthin p2 (crossing_sum hs p1) true m
  · injection he with he
    rw [← he]
    exact crossing_refused hl hs hthin p2 (crossing_bin (crossing_sum hs p1) _ _) true m
  · cases he

/-- C72, deviation: with two or more ghost layers counted in a single-cell direction, `interior_assign` is refused
for every right-hand side, even a constant. The full claim "interior assignment stores the value at every interior
cell" fails for such fields. -/
theorem _root_.SpatialOps.C72_interior_assign_refused {V : Type} [Add V] [Mul V] (n : IntVec) (g : GhostData) (l : FieldObj) (b : Nat)
    (ht : FlatTarget n g l b) (e : Expr V .num) (he : e.FlatWf n g)
    (hd : (n.x = 1 ∧ 2 ≤ g.minus.x + g.plus.x) ∨ (n.y = 1 ∧ 2 ≤ g.minus.y + g.plus.y) ∨
      (n.z = 1 ∧ 2 ≤ g.minus.z + g.plus.z)) (m : Mem V) : Refused (interiorAssign l e m) :=
  interior_refused ht he hd m

/-- C72, deviation: a field whose ghost counts in a single-cell direction add up to at least two more or less than the
destination's cannot be assigned to it, although both have the same single layer of cells there. -/
theorem _root_.SpatialOps.C72_other_ghosts_refused {V : Type} [Add V] [Mul V] (n : IntVec) (g g' : GhostData) (l src : FieldObj) (b : Nat)
    (ht : FlatTarget n g l b) (hs : FlatOn n g' src.geo)
    (hd : (n.x = 1 ∧ (g.minus.x + g.plus.x + 2 ≤ g'.minus.x + g'.plus.x ∨ g'.minus.x + g'.plus.x + 2 ≤ g.minus.x + g.plus.x)) ∨
      (n.y = 1 ∧ (g.minus.y + g.plus.y + 2 ≤ g'.minus.y + g'.plus.y ∨ g'.minus.y + g'.plus.y + 2 ≤ g.minus.y + g.plus.y)) ∨
      (n.z = 1 ∧ (g.minus.z + g.plus.z + 2 ≤ g'.minus.z + g'.plus.z ∨ g'.minus.z + g'.plus.z + 2 ≤ g.minus.z + g.plus.z)))
    (m : Mem V) : Refused (assign l (.field src) m) := mismatch_refused ht hs hd m

/-! ## Non-vacuity -/

namespace FlatEx

/-- Layout of a field with `4x3x1` interior cells and `GhostData(k)`, with a boundary cell in `x` if `bx`. -/
def geo (k : Int) (bx : Bool) : FieldGeo :=
  let e : Int := if bx then 1 else 0
  ⟨⟨⟨4 + 2 * k + e, 3 + 2 * k, 1⟩, 0, ⟨4 + 2 * k + e, 3 + 2 * k, 1⟩⟩, ⟨⟨4 + 2 * k + e, 3 + 2 * k, 1⟩, ⟨k, k, 0⟩, ⟨4 + e, 3, 1⟩⟩,
    BcInfo.build bx true true ⟨1, 0, 0⟩, ⟨⟨k, k, k⟩, ⟨k, k, k⟩, false⟩, ⟨⟨k, k, k⟩, ⟨k, k, k⟩, false⟩, false⟩

/-- A CPU field with that layout. -/
def fld (k : Int) (bx : Bool) (b : Nat) : FieldObj :=
  ⟨geo k bx, some b, none, true, .localRam, 0, false, [], [], false, (geo k bx).window.globNpts⟩

/-- `GhostData(1)`. -/
def ghost : GhostData := ⟨⟨1, 1, 1⟩, ⟨1, 1, 1⟩, false⟩

/-- The public constructors build this layout. -/
example : BuiltAs ⟨4, 3, 1⟩ ghost (BcInfo.build true true true ⟨1, 0, 0⟩) (geo 1 true) := ⟨_, rfl, by decide⟩

/-- The hypotheses of `C72_built`. -/
example : IntVec.Lt 0 ⟨4, 3, 1⟩ ∧ ghost.Valid ∧ InPlane ⟨4, 3, 1⟩ (BcInfo.build true true true ⟨1, 0, 0⟩).hasExtra := by
  refine ⟨by decide, by decide, ?_⟩
  unfold InPlane
  decide

theorem on (bx : Bool) : FlatOn ⟨4, 3, 1⟩ ghost (geo 1 bx) := by
  cases bx <;> constructor <;> first | decide | (unfold Span; decide)

theorem room (bx : Bool) (n ex gm gp : IntVec) (hn : n = ⟨4, 3, 1⟩) (he : ex = (geo 1 bx).bc.hasExtra)
    (hm : gm = ⟨1, 1, 1⟩) (hp : gp = ⟨1, 1, 1⟩) :
    Room n.x 0 (geo 1 bx).window.npts.x ex.x gm.x gm.x gp.x 1 1 ∧ Room n.y 0 (geo 1 bx).window.npts.y ex.y gm.y gm.y gp.y 1 1 ∧
    Room n.z 0 (geo 1 bx).window.npts.z ex.z gm.z gm.z gp.z 1 1 := by
  subst hn he hm hp
  cases bx <;> unfold Room <;> decide

theorem target (bx : Bool) (b : Nat) : FlatTarget ⟨4, 3, 1⟩ ghost (fld 1 bx b) b :=
  have h := room bx ⟨4, 3, 1⟩ (geo 1 bx).bc.hasExtra ⟨1, 1, 1⟩ ⟨1, 1, 1⟩ rfl rfl rfl rfl
  ⟨on bx, rfl, rfl, rfl, h.1, h.2.1, h.2.2⟩

/-- The gradient in `x` of a cell field, times a field on the faces. -/
def expr : Expr Int .num :=
  .bin (s := .num) (t := .num) (· * ·) (.stencil (.more (.one (⟨-1, 0, 0⟩, -1)) (⟨0, 0, 0⟩, 1)) (.field (fld 1 false 1)))
    (.field (fld 1 true 2))

theorem wf : expr.FlatWf ⟨4, 3, 1⟩ ghost := by
  refine ⟨⟨?_, on false, by decide⟩, on true, by decide⟩
  intro q hq
  simp only [Pts.toList, List.mem_append, List.mem_singleton] at hq
  unfold InPlane
  rcases hq with rfl | rfl <;> decide

theorem definedOn (c : IntVec) (hc : FlatInterior ⟨4, 3, 1⟩ (fld 1 true 0) c) : expr.FlatDefined ⟨4, 3, 1⟩ c := by
  have e1 : (fld 1 true 0).geo.bc.hasExtra = ⟨1, 0, 0⟩ := by decide
  have h1 : ∀ c, FlatHas ⟨4, 3, 1⟩ (geo 1 false) c ↔ (-1 ≤ c.x ∧ c.x < 5) ∧ (-1 ≤ c.y ∧ c.y < 4) ∧ c.z = 0 := by
    intro c
    have e2 : (geo 1 false).validGhosts.minus = ⟨1, 1, 1⟩ := by decide
    have e3 : (geo 1 false).validGhosts.plus + (geo 1 false).bc.hasExtra = ⟨1, 1, 1⟩ := by decide
    unfold FlatHas InSpans InSpan
    rw [e2, e3]
    dsimp only
    omega
  have h2 : ∀ c, FlatHas ⟨4, 3, 1⟩ (geo 1 true) c ↔ (-1 ≤ c.x ∧ c.x < 6) ∧ (-1 ≤ c.y ∧ c.y < 4) ∧ c.z = 0 := by
    intro c
    have e2 : (geo 1 true).validGhosts.minus = ⟨1, 1, 1⟩ := by decide
    have e3 : (geo 1 true).validGhosts.plus + (geo 1 true).bc.hasExtra = ⟨2, 1, 1⟩ := by decide
    unfold FlatHas InSpans InSpan
    rw [e2, e3]
    dsimp only
    omega
  unfold FlatInterior InSpans InSpan at hc
  rw [e1] at hc
  simp only [IntVec.zero_x, IntVec.zero_y, IntVec.zero_z] at hc
  replace hc : (0 ≤ c.x ∧ c.x < 5) ∧ (0 ≤ c.y ∧ c.y < 3) ∧ c.z = 0 := by
    have hz := hc.2.2.1 trivial
    omega
  refine ⟨?_, (h2 c).2 (by omega)⟩
  intro q hq
  simp only [Pts.toList, List.mem_append, List.mem_singleton] at hq
  rcases hq with rfl | rfl
  · exact ⟨(h1 c).2 (by omega), (h1 _).2 (by iv_omega)⟩
  · exact ⟨(h1 c).2 (by omega), (h1 _).2 (by iv_omega)⟩

theorem independent : expr.Independent (fld 1 true 0) 0 := by
  refine ⟨?_, .inl (by decide)⟩
  intro q _
  exact .inl (by decide)

/-- All hypotheses of `C72_assign_partial` hold: the heat flux on a plane mesh. -/
example (m : Mem Int) : ∃ m', assign (fld 1 true 0) expr m = .ok m' :=
  let ⟨m', h, _⟩ := C72_assign_partial ⟨4, 3, 1⟩ (by decide) ghost ⟨by decide, by decide, by decide⟩ _ 0 (target true 0) expr wf
    definedOn independent m
  ⟨m', h⟩

/-- ... and the value at face 2 of row 1 is the product of the two values there. -/
example (m m' : Mem Int) (h : assign (fld 1 true 0) expr m = .ok m') :
    m' 0 (7 * 2 + 3) = (m 1 (6 * 2 + 2) * -1 + m 1 (6 * 2 + 3) * 1) * m 2 (7 * 2 + 3) := by
  obtain ⟨m2, h1, h2, -⟩ := C72_assign_partial ⟨4, 3, 1⟩ (by decide) ghost ⟨by decide, by decide, by decide⟩ _ 0 (target true 0) expr wf
    definedOn independent m
  obtain rfl := Outcome.ok.inj (h.symm.trans h1)
  have hc : FlatInterior ⟨4, 3, 1⟩ (fld 1 true 0) ⟨2, 1, 0⟩ := by
    unfold FlatInterior InSpans InSpan; decide
  have hst : FlatStored ⟨4, 3, 1⟩ (fld 1 true 0) ⟨2, 1, 0⟩ := by
    unfold FlatStored InSpans InSpan; decide
  have hv := h2 ⟨2, 1, 0⟩ ⟨hst, definedOn _ hc⟩
  have a0 : flatAddr ⟨4, 3, 1⟩ (fld 1 true 0).geo ⟨2, 1, 0⟩ = 7 * 2 + 3 := by decide
  have a1 : flatAddr ⟨4, 3, 1⟩ (fld 1 false 1).geo (⟨2, 1, 0⟩ + ⟨-1, 0, 0⟩) = 6 * 2 + 2 := by decide
  have a2 : flatAddr ⟨4, 3, 1⟩ (fld 1 false 1).geo (⟨2, 1, 0⟩ + ⟨0, 0, 0⟩) = 6 * 2 + 3 := by decide
  have a3 : flatAddr ⟨4, 3, 1⟩ (fld 1 true 2).geo ⟨2, 1, 0⟩ = 7 * 2 + 3 := by decide
  have hw : expr.flatValue ⟨4, 3, 1⟩ m ⟨2, 1, 0⟩ =
      (m 1 (flatAddr ⟨4, 3, 1⟩ (fld 1 false 1).geo (⟨2, 1, 0⟩ + ⟨-1, 0, 0⟩)) * -1 +
        m 1 (flatAddr ⟨4, 3, 1⟩ (fld 1 false 1).geo (⟨2, 1, 0⟩ + ⟨0, 0, 0⟩)) * 1) *
        m 2 (flatAddr ⟨4, 3, 1⟩ (fld 1 true 2).geo ⟨2, 1, 0⟩) := rfl
  rw [a0, hw, a1, a2, a3] at hv
  exact hv

/-- A stencil in `z` on this mesh meets the hypotheses of `C72_across_refused`. -/
example (m : Mem Int) : Refused (assign (fld 1 true 0) (.stencil (.more (.one (⟨0, 0, -1⟩, -1)) (⟨0, 0, 0⟩, 1)) (.field (fld 1 false 1))) m) :=
  (C72_across_refused ⟨4, 3, 1⟩ ghost _ _ (on true) (on false) (by unfold Thin; decide) m).1 _
    ⟨(⟨0, 0, -1⟩, -1), by decide, by unfold InPlane; decide⟩

/-- The gradient in `z` reads across. -/
example (m : Mem ℚ) : Refused (Stencil.Reg.applyToField (fun _ => 1) ⟨.gradient, .sVol, .sSurfZ, .per .z⟩ (fld 1 false 1) (fld 1 false 0) m) :=
  C72_operator_across_refused ⟨4, 3, 1⟩ ghost _ _ (on false) (on false) (by unfold Thin; decide) _ _ (by decide +kernel)
    ⟨⟨0, 0, -1⟩, by decide +kernel, by unfold InPlane; decide⟩ m

/-- `interior_assign(f, 7)` is refused. -/
example (m : Mem Int) : Refused (interiorAssign (fld 1 true 0) (.scalar (t := .num) 7) m) :=
  C72_interior_assign_refused ⟨4, 3, 1⟩ ghost _ 0 (target true 0) _ (by unfold Expr.FlatWf; trivial) (by decide) m

/-- Fields with `GhostData(1)` and `GhostData(2)` do not mix. -/
example (m : Mem Int) : Refused (assign (fld 1 true 0) (.field (fld 2 true 1)) m) :=
  C72_other_ghosts_refused ⟨4, 3, 1⟩ ghost ⟨⟨2, 2, 2⟩, ⟨2, 2, 2⟩, false⟩ _ _ 0 (target true 0)
    (by constructor <;> first | decide | (unfold Span; decide)) (by decide) m

end FlatEx

end Nebo
end SpatialOps
