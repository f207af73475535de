import Verif.BoxFilter.Lemmas
import Verif.Heat.Props
import Mathlib.Tactic.FinCases

/-!
# C102: box filters in one, two and three directions
-/

namespace SpatialOps
namespace BoxFilter

open Nebo Stencil Heat

section
variable {K : Type} [Field K]

/-- Assignment of an expression made of filters. -/
theorem assign_fit {n : IntVec} (hn : IntVec.Lt 0 n) {g : GhostData} {r : IntVec} {src dest : FieldObj} {k : Nat} (hf : Fit n g r src dest k)
    {e : Expr K .num} (hw : e.FlatWf n g) (hd : ∀ c, FlatInterior n dest c → e.FlatDefined n c) (hi : e.Independent dest 0) (m : Mem K) :
    ∃ m', assign dest e m = .ok m' ∧ (∀ c, FlatInterior n dest c → val n m' dest c = e.flatValue n m c) ∧
      ∀ blk, blk ≠ k → ∀ a, m' blk a = m blk a := by
  obtain ⟨m', h1, h2, h3⟩ := C72_assign_partial n hn g hf.ghosts dest k hf.target e hw hd hi m
  refine ⟨m', h1, fun c hc => ?_, fun blk hb a => h3 blk a (.inl hb)⟩
  unfold val
  rw [hf.target.mem, Option.getD_some, h2 c ⟨?_, hd c hc⟩]
  have hv := hf.target.mesh.ghosts
  obtain ⟨v1, v2⟩ := hv
  unfold FlatInterior FlatStored InSpans InSpan at *
  iv_omega

/-- C102. `apply_to_field` of a box filter stores in every interior cell of the destination the mean of the source over the box around the
cell, three cells wide in the directions of the filter, and changes no other field. -/
theorem _root_.SpatialOps.C102_mean (b : Box) (n : IntVec) (hn : IntVec.Lt 0 n) (g : GhostData) (src dest : FieldObj) (k : Nat)
    (hf : Fit n g b.reach src dest k) (m : Mem K) :
    ∃ m', applyToField b src dest m = .ok m' ∧ (∀ c, FlatInterior n dest c → val n m' dest c = mean b (val n m src) c) ∧
      ∀ blk, blk ≠ k → ∀ a, m' blk a = m blk a := by
  obtain ⟨m', h1, h2, h3⟩ := assign_fit hn hf (e := filter b (.field src)) (filter_wf (e := (.field src : Expr K .num)) hf.plane (And.intro hf.mesh hf.mem)) (fun c hc => by
      have hb := interior_bounds hn hf.extra hc
      exact filter_defined ⟨by iv_omega, by iv_omega⟩ (inSpans_plane hc) (hf.reads c hc))
    (filter_independent (e := (.field src : Expr K .num)) (fun _ => Or.inl hf.apart) 0) m
  refine ⟨m', h1, fun c hc => ?_, h3⟩
  rw [h2 c hc, filter_value]
  rfl

/-- C102. A filter over a direction with a single cell is refused. -/
theorem _root_.SpatialOps.C102_across_refused (b : Box) (n : IntVec) (g : GhostData) (src dest : FieldObj) (hl : FlatOn n g dest.geo)
    (hs : FlatOn n g src.geo) (ht : Thin n src.geo) (d : Dir) (hd : comp n d = 1) (hb : b.over d = true) (m : Mem K) :
    Refused (applyToField b src dest m) := by
  have : ∃ p ∈ b.pts.toList, ¬ InPlane n p := by
    have key : ∃ p ∈ b.pts.toList, comp p d ≠ 0 := by
      clear hd
      revert hb
      cases b <;> cases d <;> decide
    obtain ⟨p, h1, h2⟩ := key
    refine ⟨p, h1, fun h => h2 ?_⟩
    cases d
    · exact h.1 hd
    · exact h.2.1 hd
    · exact h.2.2 hd
  obtain ⟨p, h1, h2⟩ := this
  exact crossing_refused hl hs ht h2 (crossing_bin (crossing_sum hs h1) _ _) true m

/-- The filters over two or three directions and the filters they are composed of. -/
def compositions : List (Box × List Box) := [(.xy, [.x, .y]), (.xz, [.x, .z]), (.yz, [.y, .z]), (.xyz, [.x, .y, .z]), (.xyz, [.xy, .z]), (.xyz, [.x, .yz])]

theorem mean_chain [CharZero K] : ∀ p ∈ compositions, ∀ (v : IntVec → K) c, p.2.foldr mean v c = mean p.1 v c := by
  intro p hp v c
  have hv : ∀ (v : IntVec → K) (c : IntVec) (x y z : Int), v (c + ⟨x, y, z⟩) = v ⟨c.x + x, c.y + y, c.z + z⟩ := fun _ _ _ _ _ => rfl
  fin_cases hp <;>
    · simp only [List.foldr, mean_pts, Box.pts, box3D, box2DXY, box2DXZ, box2DYZ, box1DX, box1DY, box1DZ, mkPts, List.foldl_cons, List.foldl_nil,
        Pts.sum, len, hv, add_zero]
      push_cast
      ring

/-- C102. The filters over two and three directions are the filters over one direction applied one after the other, in one
expression. -/
theorem _root_.SpatialOps.C102_separable [CharZero K] (p : Box × List Box) (hp : p ∈ compositions) (n : IntVec) (hn : IntVec.Lt 0 n) (g : GhostData)
    (src dest : FieldObj) (k : Nat) (hf : Fit n g p.1.reach src dest k) (m : Mem K) :
    ∃ m1 m2, assign dest (p.2.foldr filter (.field src)) m = .ok m1 ∧ applyToField p.1 src dest m = .ok m2 ∧
      ∀ c, FlatInterior n dest c → val n m1 dest c = val n m2 dest c := by
  obtain ⟨m2, h1, h2, -⟩ := C102_mean p.1 n hn g src dest k hf m
  have wf : ∀ bs : List Box, (∀ b ∈ bs, InPlane n b.reach) → (bs.foldr filter (.field src) : Expr K .num).FlatWf n g := by
    intro bs
    induction bs with
    | nil => exact fun _ => And.intro hf.mesh hf.mem
    | cons b bs ih => exact fun h => filter_wf (h b (by simp)) (ih fun b' hb => h b' (by simp [hb]))
  have ind : ∀ (bs : List Box) s, (bs.foldr filter (.field src) : Expr K .num).Independent dest s := by
    intro bs
    induction bs with
    | nil => exact fun _ => Or.inl hf.apart
    | cons b bs ih => exact filter_independent ih
  have df : ∀ (bs : List Box) (r c : IntVec), r = bs.foldr (fun b r => b.reach + r) 0 → IntVec.Le r ⟨10, 10, 10⟩ → InPlane n r → InPlane n c →
      (IntVec.Le ⟨-50, -50, -50⟩ (c - r) ∧ IntVec.Lt (c + r) (n + ⟨50, 50, 50⟩)) →
      (∀ q, IntVec.Le (c - r) q → IntVec.Le q (c + r) → FlatHas n src.geo q) →
      (bs.foldr filter (.field src) : Expr K .num).FlatDefined n c := by
    intro bs
    induction bs with
    | nil =>
      intro r c hr _ _ _ _ h
      have hr : r = 0 := hr
      subst hr
      exact h c (by iv_omega) (by iv_omega)
    | cons b bs ih =>
      intro r c hr hl hpr hpc hb h
      have rb : IntVec.Le 0 b.reach := by cases b <;> decide
      have rr : ∀ bs : List Box, IntVec.Le 0 (bs.foldr (fun b r => b.reach + r) 0) := by
        intro bs
        induction bs with
        | nil => decide
        | cons b bs ih =>
          have : IntVec.Le 0 b.reach := by cases b <;> decide
          simp only [List.foldr]
          iv_omega
      have rs := rr bs
      simp only [List.foldr] at hr
      generalize hR : bs.foldr (fun b r => b.reach + r) 0 = R at *
      subst hr
      refine filter_defined ⟨by iv_omega, by iv_omega⟩ hpc fun q q1 q2 => ?_
      refine ih R q rfl (by iv_omega) ?_ ?_ ⟨by iv_omega, by iv_omega⟩ fun q' q3 q4 => h q' (by iv_omega) (by iv_omega)
      · unfold InPlane at *; iv_omega
      · unfold InPlane at *; iv_omega
  have hreach : p.1.reach = p.2.foldr (fun b r => b.reach + r) 0 := by
    have := (by decide : ∀ p ∈ compositions, p.1.reach = p.2.foldr (fun b r => b.reach + r) 0)
    exact this p hp
  have hsub : ∀ b ∈ p.2, IntVec.Le 0 b.reach ∧ IntVec.Le b.reach p.1.reach := by
    have := (by decide : ∀ p ∈ compositions, ∀ b ∈ p.2, IntVec.Le 0 b.reach ∧ IntVec.Le b.reach p.1.reach)
    exact this p hp
  obtain ⟨m1, g1, g2, -⟩ := assign_fit hn hf (e := p.2.foldr filter (.field src)) (wf p.2 fun b hb => by
      have := hsub b hb
      have := hf.plane
      unfold InPlane at *
      iv_omega) (fun c hc => by
      have hb := interior_bounds hn hf.extra hc
      have rl : IntVec.Le 0 p.1.reach ∧ IntVec.Le p.1.reach ⟨1, 1, 1⟩ := by cases p.1 <;> decide
      exact df p.2 p.1.reach c hreach (by iv_omega) hf.plane (inSpans_plane hc) ⟨by iv_omega, by iv_omega⟩ (hf.reads c hc)) (ind p.2 0) m
  have hval : ∀ (bs : List Box) (c : IntVec), ((bs.foldr filter (.field src) : Expr K .num).flatValue n m c : K) = bs.foldr mean (val n m src) c := by
    intro bs
    induction bs with
    | nil => exact fun _ => rfl
    | cons b bs ih =>
      intro c
      simp only [List.foldr]
      rw [filter_value]
      exact congrArg (fun v => mean b v c) (funext ih)
  refine ⟨m1, m2, g1, h1, fun c hc => ?_⟩
  rw [g2 c hc, h2 c hc, hval, mean_chain p hp]

theorem mean_affine [CharZero K] (b : Box) (a0 ax ay az : K) (c : IntVec) :
    mean b (fun q => a0 + ax * q.x + ay * q.y + az * q.z) c = a0 + ax * c.x + ay * c.y + az * c.z := by
  rw [mean_pts]
  cases b <;>
    · simp only [Box.pts, box3D, box2DXY, box2DXZ, box2DYZ, box1DX, box1DY, box1DZ, mkPts, List.foldl_cons, List.foldl_nil, Pts.sum, len,
        IntVec.add_x, IntVec.add_y, IntVec.add_z]
      push_cast
      ring

/-- C102. Affine functions of the cell pass through every box filter unchanged. -/
theorem _root_.SpatialOps.C102_affine [CharZero K] (b : Box) (n : IntVec) (hn : IntVec.Lt 0 n) (g : GhostData) (src dest : FieldObj) (k : Nat)
    (hf : Fit n g b.reach src dest k) (m : Mem K) (a0 ax ay az : K)
    (ha : ∀ c, FlatHas n src.geo c → val n m src c = a0 + ax * c.x + ay * c.y + az * c.z) :
    ∃ m', applyToField b src dest m = .ok m' ∧
      ∀ c, FlatInterior n dest c → val n m' dest c = a0 + ax * c.x + ay * c.y + az * c.z := by
  obtain ⟨m', h1, h2, -⟩ := C102_mean b n hn g src dest k hf m
  refine ⟨m', h1, fun c hc => ?_⟩
  rw [h2 c hc, mean_congr fun q q1 q2 => ha q (hf.reads c hc q q1 q2), mean_affine]

end

section
variable {K : Type} [Field K] [LinearOrder K] [IsStrictOrderedRing K]

theorem sum_between {v : IntVec → K} {lo hi : K} : ∀ {P : Pts IntVec}, (∀ p ∈ P.toList, lo ≤ v p ∧ v p ≤ hi) →
    (len P : K) * lo ≤ P.sum v ∧ P.sum v ≤ (len P : K) * hi := by
  intro P
  induction P with
  | one a => intro h; simpa [len, Pts.sum] using h a (by simp [Pts.toList])
  | more e a ih =>
    intro h
    have i := ih fun p hp => h p (by simp [Pts.toList, hp])
    have j := h a (by simp [Pts.toList])
    simp only [len, Pts.sum]
    push_cast
    constructor <;> linarith [i.1, i.2, j.1, j.2]

/-- C102. A filtered value lies between any bounds of the values in the box. -/
theorem _root_.SpatialOps.C102_bounds (b : Box) (n : IntVec) (hn : IntVec.Lt 0 n) (g : GhostData) (src dest : FieldObj) (k : Nat)
    (hf : Fit n g b.reach src dest k) (m : Mem K) :
    ∃ m', applyToField b src dest m = .ok m' ∧ ∀ c, FlatInterior n dest c → ∀ lo hi,
      (∀ q, IntVec.Le (c - b.reach) q → IntVec.Le q (c + b.reach) → lo ≤ val n m src q ∧ val n m src q ≤ hi) →
      lo ≤ val n m' dest c ∧ val n m' dest c ≤ hi := by
  obtain ⟨m', h1, h2, -⟩ := C102_mean b n hn g src dest k hf m
  refine ⟨m', h1, fun c hc lo hi hb => ?_⟩
  have := sum_between (P := b.pts) (v := fun p => val n m src (c + p)) fun p hp => by
    have := pts_near b p hp
    exact hb (c + p) (by iv_omega) (by iv_omega)
  have hl : (0 : K) < (len b.pts : K) := by exact_mod_cast len_pos b
  rw [h2 c hc, mean_pts, le_div_iff₀ hl, div_le_iff₀ hl]
  constructor <;> linarith [this.1, this.2]

end

/-- C102. The choice by the dimensions of the mesh: the filter over exactly the directions with more than one cell; none if there is no such
direction. -/
theorem _root_.SpatialOps.C102_chosen (n : IntVec) (hn : IntVec.Lt 0 n) :
    (n = ⟨1, 1, 1⟩ → choose n = none) ∧ (n ≠ ⟨1, 1, 1⟩ → ∃ b, choose n = some b ∧ ∀ d, b.over d = true ↔ 1 < comp n d) := by
  obtain ⟨x, y, z⟩ := n
  have h0 : 0 < x ∧ 0 < y ∧ 0 < z := hn
  refine ⟨fun h => by injection h with h1 h2 h3; subst h1 h2 h3; rfl, fun h => ?_⟩
  have h' : x ≠ 1 ∨ y ≠ 1 ∨ z ≠ 1 := by
    by_contra hc
    push Not at hc
    exact h (by rw [hc.1, hc.2.1, hc.2.2])
  unfold choose
  dsimp only
  split_ifs <;>
    first
    | (refine ⟨_, rfl, fun d => ?_⟩; cases d <;> simp [Box.over, comp] <;> omega)
    | (exfalso; omega)

section
variable {K : Type} [Field K]

/-- C102. The operator that `build_stencils` registers as filter is the box filter over three directions. -/
theorem _root_.SpatialOps.C102_registered (h : Dir → K) (v : FieldType) (hv : v ∈ volumes) (e : Expr K .num) :
    Reg.apply h ⟨.filter, v, v, .absent⟩ e = some (filter .xyz e) := by
  unfold Reg.apply operatorType
  dsimp only
  rw [if_pos ⟨rfl, hv⟩]
  rfl

/-- What a field of the test looks like. -/
theorem newField_ok {n : IntVec} (hn : IntVec.Lt 0 n) (b : Nat) : ∃ f, newField n b = .ok f ∧ FlatTarget n G f b ∧ f.geo.bc.hasExtra = 0 ∧
    f.geo.validGhosts = G ∧ ((n.x = 1 → f.geo.interior.offset.x = 0) ∧ (n.x ≠ 1 → f.geo.interior.offset.x = 1) ∧
      (n.y = 1 → f.geo.interior.offset.y = 0) ∧ (n.y ≠ 1 → f.geo.interior.offset.y = 1) ∧
      (n.z = 1 → f.geo.interior.offset.z = 0) ∧ (n.z ≠ 1 → f.geo.interior.offset.z = 1)) := by
  obtain ⟨w, f, h1, h2, h3, h4, h5, h6, h7, h8, h9, h10, h11, h12, h13, lx, ly, lz⟩ := C09_field_layout n G false false false FieldType.sVol.bcExtra
    (by decide) (by decide)
  have hx : (BcInfo.build false false false FieldType.sVol.bcExtra).hasExtra = 0 := by decide
  obtain ⟨f', ⟨w', b1, b2⟩, b3, b4, b5, b6, b7⟩ := C72_built n hn G (by decide) rfl false false false FieldType.sVol.bcExtra (by decide)
      (by rw [hx]; exact plane_zero n)
  rw [h1] at b1
  obtain rfl := Outcome.ok.inj b1
  rw [h2] at b2
  obtain rfl := Outcome.ok.inj b2
  refine ⟨⟨f, some b, none, true, .localRam, 0, false, [], [], false, w.globNpts⟩, ?_, b7 _ rfl rfl rfl b rfl, ?_, h12, ?_⟩
  · unfold newField
    rw [show GhostData.makeUniform 1 = .ok G from ghost_eq, Outcome.ok_bind]
    dsimp only
    rw [h1, Outcome.ok_bind, h2, Outcome.ok_bind]
    rfl
  · dsimp only
    rw [b3, hx]
  · dsimp only
    have key : ∀ {n gm gp ex al io ie : Int}, 0 < n → Layout1 n gm gp ex al io ie → gm = 1 → (n = 1 → io = 0) ∧ (n ≠ 1 → io = 1) := by
      intro n gm gp ex al io ie h0 hl hg
      refine ⟨fun e => (hl.inactive (by omega)).1, fun e => ?_⟩
      rw [(hl.active (by omega)).1, hg]
    obtain ⟨n1, n2, n3⟩ := hn
    have kx := key n1 lx rfl
    have ky := key n2 ly rfl
    have kz := key n3 lz rfl
    exact ⟨kx.1, kx.2, ky.1, ky.2, kz⟩

/-- C102. The test of the filters succeeds on every mesh with more than one cell and in every direction: the filtered coordinate is the
coordinate. -/
theorem _root_.SpatialOps.C102_test [CharZero K] (d : Dir) (n : IntVec) (hn : IntVec.Lt 0 n) (h1 : n ≠ ⟨1, 1, 1⟩) (L : Dir → K) (blk blk' : Nat)
    (hb : blk ≠ blk') (m : Mem K) :
    ∃ f fbar m', runTest d n L blk blk' m = .ok (f, fbar, m') ∧
      ∀ c, InMesh n c → val n m' f c = position (meshSpacing n L) .sVol c d ∧ val n m' fbar c = position (meshSpacing n L) .sVol c d := by
  obtain ⟨f, f1, f2, f3, f4, f5⟩ := newField_ok hn blk
  obtain ⟨f', e1, e2, e3, e4, e5⟩ := newField_ok hn blk'
  obtain ⟨m1, c1, c2, c3⟩ := coord_flat hn L d f2 f3 f4 f5 m
  obtain ⟨b, hc, ho⟩ := (C102_chosen n hn).2 h1
  have hplane : InPlane n b.reach := by
    have := ho .x
    have := ho .y
    have := ho .z
    unfold InPlane Box.reach
    simp only [comp] at *
    refine ⟨fun h => ?_, fun h => ?_, fun h => ?_⟩ <;> split <;> first | rfl | (exfalso; simp_all)
  have hr : IntVec.Le 0 b.reach ∧ IntVec.Le b.reach ⟨1, 1, 1⟩ := by cases b <;> decide
  have has : ∀ c, FlatHas n f.geo c ↔ InSpans n ⟨1, 1, 1⟩ ⟨1, 1, 1⟩ c := by
    intro c
    unfold FlatHas
    rw [f3, f4]
    rfl
  have fit : Fit n G b.reach f f' blk' :=
    { ghosts := G_moderate
      target := e2
      extra := by rw [e3]; decide
      mesh := f2.mesh
      mem := by rw [f2.mem]; exact Option.some_ne_none _
      apart := by rw [f2.mem, e2.mem]; simpa using hb
      plane := hplane
      reads := by
        intro c hc q q1 q2
        unfold FlatInterior at hc
        rw [e3] at hc
        rw [has]
        unfold InPlane at hplane
        unfold InSpans InSpan at *
        iv_omega }
  have hs : ∀ c, InMesh n c → InSpans n 0 0 c := fun c hc => block_spans (plane_zero n) hc.1 (by have := hc.2; iv_omega)
  let h := meshSpacing n L
  have pos : ∀ c, position h .sVol c d = h d * (1 / 2) + (if d = .x then h d else 0) * c.x + (if d = .y then h d else 0) * c.y +
      (if d = .z then h d else 0) * c.z := by
    intro c
    rw [position_stagger]
    have st : indexStagger .sVol d = 0 := by cases d <;> rfl
    rw [st]
    cases d <;> simp [comp] <;> ring
  obtain ⟨m2, a1, a2⟩ := C102_affine b n hn G f f' blk' fit m1 (h d * (1 / 2)) (if d = .x then h d else 0) (if d = .y then h d else 0)
    (if d = .z then h d else 0) fun c hc' => by rw [c2 c ((has c).1 hc'), ← pos]
  obtain ⟨m2', a1', -, a3⟩ := C102_mean b n hn G f f' blk' fit m1
  obtain rfl := Outcome.ok.inj (a1.symm.trans a1')
  refine ⟨f, f', m2, ?_, fun c hc' => ⟨?_, ?_⟩⟩
  · unfold runTest
    rw [f1, Outcome.ok_bind, e1, Outcome.ok_bind, c1, Outcome.ok_bind, hc]
    dsimp only
    rw [a1]
    rfl
  · rw [← c2 c (mesh_spans hc')]
    unfold val
    rw [f2.mem, Option.getD_some, a3 blk hb]
  · rw [a2 c (by unfold FlatInterior; rw [e3]; exact hs c hc'), ← pos]

end

/-! ## Concrete cases -/

namespace BoxFilterEx

theorem plane : InPlane ⟨4, 3, 1⟩ Box.xy.reach := by
  unfold InPlane
  decide

/-- Two fields on a plane mesh of 4 by 3 cells fit the filter over both its directions. -/
theorem fit : Fit ⟨4, 3, 1⟩ FlatEx.ghost Box.xy.reach (FlatEx.fld 1 false 0) (FlatEx.fld 1 false 1) 1 where
  ghosts := ⟨by decide, by decide, by decide⟩
  target := FlatEx.target false 1
  extra := by decide
  mesh := FlatEx.on false
  mem := by decide
  apart := by decide
  plane := plane
  reads := by
    intro c hc q q1 q2
    have e1 : (FlatEx.fld 1 false 1).geo.bc.hasExtra = ⟨0, 0, 0⟩ := by decide
    have e2 : (FlatEx.fld 1 false 0).geo.validGhosts.minus = ⟨1, 1, 1⟩ := by decide
    have e3 : (FlatEx.fld 1 false 0).geo.validGhosts.plus + (FlatEx.fld 1 false 0).geo.bc.hasExtra = ⟨1, 1, 1⟩ := by decide
    have e4 : Box.xy.reach = ⟨1, 1, 0⟩ := by decide
    unfold FlatInterior at hc
    unfold FlatHas
    rw [e1] at hc
    rw [e2, e3]
    rw [e4] at q1 q2
    have pz : c.z = 0 := (inSpans_plane hc).2.2 rfl
    unfold InSpans InSpan at *
    iv_omega

/-- The filtered value of cell (1, 1) is the mean of nine elements of memory. -/
example (m : Mem ℚ) : ∃ m', applyToField .xy (FlatEx.fld 1 false 0) (FlatEx.fld 1 false 1) m = .ok m' ∧
    m' 1 (6 * 2 + 2) = (m 0 7 + m 0 8 + m 0 9 + m 0 13 + m 0 14 + m 0 15 + m 0 19 + m 0 20 + m 0 21) / 9 := by
  obtain ⟨m', h1, h2, -⟩ := C102_mean (K := ℚ) .xy ⟨4, 3, 1⟩ (by decide) FlatEx.ghost _ _ 1 fit m
  refine ⟨m', h1, ?_⟩
  have hv : ∀ (m : Mem ℚ) (b : Nat) (c : IntVec), val ⟨4, 3, 1⟩ m (FlatEx.fld 1 false b) c = m b (flatAddr ⟨4, 3, 1⟩ (FlatEx.geo 1 false) c) := fun _ _ _ => rfl
  have := h2 ⟨1, 1, 0⟩ (by unfold FlatInterior InSpans InSpan; decide)
  rw [mean_pts, hv] at this
  simp only [Box.pts, box2DXY, mkPts, List.foldl_cons, List.foldl_nil, Pts.sum, len, hv] at this
  have a : ∀ x y : Int, flatAddr ⟨4, 3, 1⟩ (FlatEx.geo 1 false) (⟨1, 1, 0⟩ + ⟨x, y, 0⟩) = 6 * (2 + y) + (2 + x) := by
    intro x y
    unfold flatAddr
    have e1 : (FlatEx.geo 1 false).window = ⟨⟨6, 5, 1⟩, 0, ⟨6, 5, 1⟩⟩ := by decide
    have e2 : (FlatEx.geo 1 false).validGhosts.minus = ⟨1, 1, 1⟩ := by decide
    rw [e1, e2]
    simp [places, place, fortranPos]
    ring
  have a0 : flatAddr ⟨4, 3, 1⟩ (FlatEx.geo 1 false) ⟨1, 1, 0⟩ = 14 := by decide
  simp only [a, a0] at this
  norm_num at this ⊢
  exact this

/-- The filter over three directions is refused on that mesh. -/
example (m : Mem ℚ) : Refused (applyToField .xyz (FlatEx.fld 1 false 0) (FlatEx.fld 1 false 1) m) :=
  C102_across_refused .xyz ⟨4, 3, 1⟩ FlatEx.ghost _ _ (FlatEx.on false) (FlatEx.on false)
    ⟨by decide, by decide, by decide⟩ .z rfl rfl m

/-- The test on a mesh of 30 by 1 by 30 cells. -/
example (m : Mem ℚ) : ∃ f fbar m', runTest .z ⟨30, 1, 30⟩ (fun _ => 1) 0 1 m = .ok (f, fbar, m') ∧
    val ⟨30, 1, 30⟩ m' fbar ⟨4, 0, 29⟩ = 59 / 60 := by
  obtain ⟨f, fbar, m', h1, h2⟩ := C102_test (K := ℚ) .z ⟨30, 1, 30⟩ (by decide) (by decide) (fun _ => 1) 0 1 (by decide) m
  refine ⟨f, fbar, m', h1, ?_⟩
  rw [(h2 ⟨4, 0, 29⟩ (by unfold InMesh; decide)).2]
  norm_num [position, meshSpacing, staggered, comp]

end BoxFilterEx
end BoxFilter
end SpatialOps
