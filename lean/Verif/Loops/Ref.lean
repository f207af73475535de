import Verif.Loops.Lemmas
import Mathlib.Tactic.Ring

/-!
# Lemmas: the reference stencils
-/

namespace SpatialOps
namespace Loops

open Nebo Stencil

theorem hasExtra_build (x y z : Bool) (e : IntVec) : (BcInfo.build x y z e).hasExtra = (BcInfo.build x y z e).isbc * e := by
  cases x <;> cases y <;> cases z <;> ext <;> simp [BcInfo.build, BcInfo.hasExtra, BcInfo.b2i]

/-- What is used of a part of a field. -/
structure PartOf (f p : FieldObj) (w : Window) : Prop where
  values : p.values = f.values
  memType : p.memType = f.memType
  readOnly : p.readOnly = f.readOnly
  window : p.geo.window = w

theorem part_ok {f : FieldObj} (hg : f.geo.ghosts.Valid) {o e : IntVec} (hw : Proper ⟨f.geo.window.npts, o, e⟩) :
    ∃ p, part f f.geo.window.npts o e = .ok p ∧ PartOf f p ⟨f.geo.window.npts, o, e⟩ := by
  obtain ⟨h1, h2⟩ := hw
  have hs : Window.sanityCheck ⟨f.geo.window.npts, o, e⟩ := by
    unfold Window.sanityCheck
    iv_omega
  have : ∃ geo : FieldGeo, part f f.geo.window.npts o e = .ok { f with geo := geo } ∧
      geo.window = ⟨f.geo.window.npts, o, e⟩ := by
    refine ⟨{ f.geo with
      window := ⟨f.geo.window.npts, o, e⟩
      validGhosts := f.geo.ghosts
      disableInterior := if FieldGeo.cutsInterior ⟨f.geo.window.npts, o, e⟩ f.geo.interior then true else f.geo.disableInterior }, ?_, rfl⟩
    unfold part Window.make
    rw [Outcome.assert_true hs, Outcome.ok_bind, Outcome.pure_eq, Outcome.ok_bind]
    unfold FieldGeo.windowCopy
    rw [GhostData.copy_ok hg, Outcome.ok_bind]
    unfold FieldGeo.singleValueCheck
    rw [Outcome.throwIf_false (by simp), Outcome.ok_bind, Outcome.throwIf_false (by simp), Outcome.ok_bind,
      Outcome.assert_true hs, Outcome.ok_bind, Outcome.assert_true (by dsimp only; iv_omega), Outcome.ok_bind,
      Outcome.assert_true (by dsimp only; iv_omega), Outcome.ok_bind, Outcome.assert_true (by dsimp only; iv_omega), Outcome.ok_bind,
      Outcome.pure_eq, Outcome.ok_bind, Outcome.pure_eq]
  obtain ⟨geo, h3, h4⟩ := this
  exact ⟨_, h3, rfl, rfl, rfl, h4⟩

theorem parts_ok {f : FieldObj} (hg : f.geo.ghosts.Valid) {e : IntVec} {os : List IntVec}
    (hw : ∀ o ∈ os, Proper ⟨f.geo.window.npts, o, e⟩) :
    ∃ ps, parts f e os = .ok ps ∧
      ps.map whole = os.map (fun o => (f.values.getD 0, (⟨f.geo.window.npts, o, e⟩ : Window))) ∧
      ps.length = os.length ∧
      ∀ p ∈ ps, p.values = f.values ∧ p.memType = f.memType ∧ p.readOnly = f.readOnly := by
  induction os with
  | nil => exact ⟨[], rfl, rfl, rfl, fun p h => by cases h⟩
  | cons o os ih =>
    obtain ⟨p, h1, h2⟩ := part_ok hg (hw o (by simp))
    obtain ⟨ps, h3, h4, h5, h6⟩ := ih fun o h => hw o (by simp [h])
    refine ⟨p :: ps, ?_, ?_, ?_, ?_⟩
    · unfold parts
      rw [h1, Outcome.ok_bind, h3]
      rfl
    · rw [List.map_cons, List.map_cons, h4]
      unfold whole
      rw [h2.values, h2.window]
    · simp [h5]
    · intro q hq
      rcases List.mem_cons.1 hq with rfl | hq
      · exact ⟨h2.values, h2.memType, h2.readOnly⟩
      · exact h6 q hq

section
variable {K : Type} [Field K]

omit [Field K] in
/-- Sources and destination cut out of two fields, the `i`-th source displaced by `ps[i]` from the destination. -/
theorem cut_ok {src dest : FieldObj} {b : Nat} (hd : Dest dest b) (hdg : dest.geo.ghosts.Valid) (hsg : src.geo.ghosts.Valid)
    (hv : src.values ≠ none) (ha : src.values ≠ dest.values)
    {od e : IntVec} {ps : List IntVec} (hpd : Proper ⟨dest.geo.window.npts, origin dest.geo + od, e⟩)
    (hps : ∀ p ∈ ps, Proper ⟨src.geo.window.npts, origin src.geo + (od + p), e⟩) (f : List K → K) (m : Mem K) :
    ∃ d ss, part dest dest.geo.window.npts (origin dest.geo + od) e = .ok d ∧
      parts src e (ps.map fun p => origin src.geo + (od + p)) = .ok ss ∧ ss.length = ps.length ∧
      (begins ss = .ok ((ss.map whole).map (curAt · 0))) ∧
      (src.memType = .localRam → src.readOnly = false → beginsM ss = .ok ((ss.map whole).map (curAt · 0))) ∧
      ∃ m', loop f d ((ss.map whole).map (curAt · 0)) m = .ok m' ∧
        (∀ c, InExtent od e c → valueAt m' dest c = f (ps.map fun p => valueAt m src (c + p))) ∧
        (∀ blk a, (blk ≠ b ∨ ∀ c, InExtent od e c → cellAddr dest.geo c ≠ a) → m' blk a = m blk a) := by
  obtain ⟨d, d1, d2⟩ := part_ok hdg hpd
  obtain ⟨ss, s1, s2, s3, s4⟩ := parts_ok hsg (e := e) (os := ps.map fun p => origin src.geo + (od + p))
    (by simpa using hps)
  have hv' : ∀ s ∈ ss, s.values ≠ none := fun s h => by rw [(s4 s h).1]; exact hv
  refine ⟨d, ss, d1, s1, by simp [s3], begins_ok hv', fun h1 h2 => beginsM_ok fun s h => ?_, ?_⟩
  · obtain ⟨q1, q2, q3⟩ := s4 s h
    exact ⟨hv' s h, by rw [q2, h1], by rw [q3, h2]⟩
  have hd' : Dest d b := ⟨by rw [d2.memType, hd.cpu], by rw [d2.readOnly, hd.writable], by rw [d2.values, hd.mem]⟩
  have hw : d.geo.window = ⟨dest.geo.window.npts, origin dest.geo + od, e⟩ := d2.window
  rw [loop_eq hd' (by rw [hw]; exact hpd.2), s2, hw]
  have hbne : src.values.getD 0 ≠ b := by
    obtain ⟨v, hv⟩ := Option.ne_none_iff_exists'.1 hv
    rw [hv, hd.mem] at ha
    rw [hv]
    intro h
    exact ha (congrArg some h)
  obtain ⟨m', cs, h1, h2, h3⟩ := same_extent (f := f) (b := b) hpd
    (srcs := ((ps.map fun p => origin src.geo + (od + p)).map (fun o => (src.values.getD 0, (⟨src.geo.window.npts, o, e⟩ : Window)))))
    (by
      intro s h
      simp only [List.map_map, List.mem_map, Function.comp] at h
      obtain ⟨p, hp, rfl⟩ := h
      exact hps p hp)
    (by
      intro s h
      simp only [List.map_map, List.mem_map, Function.comp] at h
      obtain ⟨p, hp, rfl⟩ := h
      exact .inl hbne)
    (by
      intro s h
      simp only [List.map_map, List.mem_map, Function.comp] at h
      obtain ⟨p, hp, rfl⟩ := h
      rfl) m
  have hcell : ∀ (g : FieldGeo) (o loc : IntVec), element ⟨g.window.npts, origin g + o, e⟩ loc = cellAddr g (o + loc) := by
    intro g o loc
    unfold element cellAddr
    congr 1
    ext <;> simp only [IntVec.add_x, IntVec.add_y, IntVec.add_z] <;> omega
  refine ⟨m', by rw [h1]; rfl, fun c hc => ?_, fun blk a hb => h3 blk a ?_⟩
  · have := h2 (c - od) (by unfold InExtent at hc; dsimp only; iv_omega)
    have e1 : od + (c - od) = c := by ext <;> simp only [IntVec.add_x, IntVec.add_y, IntVec.add_z, IntVec.sub_x, IntVec.sub_y, IntVec.sub_z] <;> omega
    rw [hcell, e1] at this
    unfold valueAt
    rw [hd.mem]
    dsimp only [Option.getD_some]
    rw [this]
    unfold inputs
    beta_reduce
    rw [List.map_map, List.map_map]
    congr 1
    refine List.map_congr_left fun p hp => ?_
    simp only [Function.comp]
    rw [hcell]
    congr 2
    ext <;> simp only [IntVec.add_x, IntVec.add_y, IntVec.add_z, IntVec.sub_x, IntVec.sub_y, IntVec.sub_z] <;> omega
  · rcases hb with hb | hb
    · exact .inl hb
    · right
      intro loc hloc
      rw [hcell]
      exact hb _ (by unfold InExtent; dsimp only at hloc; iv_omega)

end

/-! ## The tables of extents -/

/-- What is needed of the extents for boundaries `bc` and points `ps`. -/
def ExtOk (st dt : FieldType) (x : Extents) (ps : List IntVec) (bc : IntVec) : Prop :=
  bc * st.bcExtra + (x.srcExtent + bc * x.srcExtentBC) = bc * dt.bcExtra + (x.destExtent + bc * x.destExtentBC) ∧
  IntVec.Le 0 x.destOffset ∧ IntVec.Le (x.destOffset + (x.destExtent + bc * x.destExtentBC)) 0 ∧
  (∀ o ∈ x.srcOffsets, IntVec.Le 0 o ∧ IntVec.Le (o + (x.srcExtent + bc * x.srcExtentBC)) 0) ∧
  IntVec.Le x.destOffset ⟨1, 1, 1⟩ ∧ IntVec.Le 0 (⟨1, 1, 1⟩ + (x.destOffset + (x.destExtent + bc * x.destExtentBC))) ∧
  IntVec.Le ⟨-2, -2, -2⟩ (bc * dt.bcExtra + (x.destExtent + bc * x.destExtentBC)) ∧
  x.srcOffsets = ps.map (x.destOffset + ·)

/-- What is needed of the points of an operator for boundaries `bc`. -/
def PtsOk (st dt : FieldType) (ps : List IntVec) (bc : IntVec) : Prop :=
  IntVec.Le 0 (bc * st.bcExtra) ∧ IntVec.Le (bc * dt.bcExtra) ⟨1, 1, 1⟩ ∧
  ∀ p ∈ ps, IntVec.Le ⟨-1, -1, -1⟩ p ∧ IntVec.Le (bc * dt.bcExtra + p) (bc * st.bcExtra + ⟨1, 1, 1⟩)

instance (st dt : FieldType) (x : Extents) (ps : List IntVec) (bc : IntVec) : Decidable (ExtOk st dt x ps bc) := by
  unfold ExtOk; infer_instance

instance (st dt : FieldType) (ps : List IntVec) (bc : IntVec) : Decidable (PtsOk st dt ps bc) := by
  unfold PtsOk; infer_instance

/-- The vectors of boundary flags. -/
def flags : List IntVec :=
  [⟨0, 0, 0⟩, ⟨0, 0, 1⟩, ⟨0, 1, 0⟩, ⟨0, 1, 1⟩, ⟨1, 0, 0⟩, ⟨1, 0, 1⟩, ⟨1, 1, 0⟩, ⟨1, 1, 1⟩]

theorem isbc_flags (x y z : Bool) (e : IntVec) : (BcInfo.build x y z e).isbc ∈ flags := by
  cases x <;> cases y <;> cases z <;> simp [BcInfo.build, BcInfo.b2i, flags]

def check2 (r : Reg) : Bool :=
  match extents2 r.src r.dest with
  | some x => flags.all fun bc => decide (ExtOk r.src r.dest x (stencil2 r.src.offset r.dest.offset).toList bc)
  | none => false

def check4 (r : Reg) : Bool :=
  match extents4 r.src r.dest with
  | some x => flags.all fun bc => decide (ExtOk r.src r.dest x (stencil4 r.src.offset r.dest.offset).toList bc)
  | none => false

theorem all_check2 : registrations.all (fun r =>
    !decide (r.type = some (.coefs r.op (stencil2 r.src.offset r.dest.offset) r.src r.dest)) || check2 r) = true := by decide +kernel

theorem all_check4 : registrations.all (fun r =>
    !decide (r.type = some (.coefs r.op (stencil4 r.src.offset r.dest.offset) r.src r.dest)) || check4 r) = true := by decide +kernel

theorem all_pts : registrations.all (fun r => flags.all fun bc => decide (PtsOk r.src r.dest r.reads bc)) = true := by decide +kernel

theorem table2 {r : Reg} (hr : r ∈ registrations)
    (ht : r.type = some (.coefs r.op (stencil2 r.src.offset r.dest.offset) r.src r.dest)) :
    ∃ x, extents2 r.src r.dest = some x ∧ ∀ bc ∈ flags, ExtOk r.src r.dest x (stencil2 r.src.offset r.dest.offset).toList bc := by
  have h := List.all_eq_true.1 all_check2 r hr
  simp only [ht, decide_true, Bool.not_true, Bool.false_or] at h
  unfold check2 at h
  cases hx : extents2 r.src r.dest with
  | none => rw [hx] at h; simp at h
  | some x =>
    rw [hx] at h
    exact ⟨x, rfl, fun bc hbc => of_decide_eq_true (List.all_eq_true.1 h bc hbc)⟩

theorem table4 {r : Reg} (hr : r ∈ registrations)
    (ht : r.type = some (.coefs r.op (stencil4 r.src.offset r.dest.offset) r.src r.dest)) :
    ∃ x, extents4 r.src r.dest = some x ∧ ∀ bc ∈ flags, ExtOk r.src r.dest x (stencil4 r.src.offset r.dest.offset).toList bc := by
  have h := List.all_eq_true.1 all_check4 r hr
  simp only [ht, decide_true, Bool.not_true, Bool.false_or] at h
  unfold check4 at h
  cases hx : extents4 r.src r.dest with
  | none => rw [hx] at h; simp at h
  | some x =>
    rw [hx] at h
    exact ⟨x, rfl, fun bc hbc => of_decide_eq_true (List.all_eq_true.1 h bc hbc)⟩

theorem pts_ok {r : Reg} (hr : r ∈ registrations) : ∀ bc ∈ flags, PtsOk r.src r.dest r.reads bc := fun bc hbc =>
  of_decide_eq_true (List.all_eq_true.1 (List.all_eq_true.1 all_pts r hr) bc hbc)

theorem Twins.dest {n : IntVec} {st dt : FieldType} {src dest : FieldObj} {b : Nat} (h : Twins n st dt src dest b) : Dest dest b :=
  ⟨h.target.cpu, h.target.writable, h.target.mem⟩

/-- What the operator needs holds for twins. -/
theorem readable {n : IntVec} {r : Reg} (hr : r ∈ registrations) {src dest : FieldObj} {b : Nat}
    (h : Twins n r.src r.dest src dest b) : Readable n r src dest b := by
  obtain ⟨x, y, z, b1, b2⟩ := h.bc
  have hf := isbc_flags x y z r.src.bcExtra
  have hi : (BcInfo.build x y z r.dest.bcExtra).isbc = (BcInfo.build x y z r.src.bcExtra).isbc := rfl
  obtain ⟨p1, p2, p3⟩ := pts_ok hr _ hf
  have hsx : src.geo.bc.hasExtra = (BcInfo.build x y z r.src.bcExtra).isbc * r.src.bcExtra := by rw [b1, hasExtra_build]
  have hdx : dest.geo.bc.hasExtra = (BcInfo.build x y z r.src.bcExtra).isbc * r.dest.bcExtra := by rw [b2, hasExtra_build, hi]
  rw [← hsx] at p1 p3
  rw [← hdx] at p2 p3
  have hs := h.mesh.size
  have hm := h.minus
  have hp := h.plus
  have he := h.enough
  have key : ∀ c, Interior n dest c → ∀ p : IntVec, IntVec.Le ⟨-1, -1, -1⟩ p →
      IntVec.Le (dest.geo.bc.hasExtra + p) (src.geo.bc.hasExtra + ⟨1, 1, 1⟩) → HasCell src.geo (c + p) := by
    intro c hc p q1 q2
    unfold HasCell Window.Covers origin
    unfold Interior at hc
    rw [hs, hm, hp]
    generalize src.geo.bc.hasExtra = sx at *
    generalize dest.geo.bc.hasExtra = dx at *
    iv_omega
  refine ⟨h.target, p2, h.mesh, h.mem, h.apart, fun c hc => ?_, fun c hc p hp => key c hc p (p3 p hp).1 (p3 p hp).2⟩
  have := key c hc 0 (by decide) (by
    generalize src.geo.bc.hasExtra = sx at *
    generalize dest.geo.bc.hasExtra = dx at *
    iv_omega)
  rwa [show c + (0 : IntVec) = c by ext <;> simp] at this

section
variable {K : Type} [Field K]

/-- What a reference stencil leaves in the destination. -/
def Left (n : IntVec) (src dest : FieldObj) (b : Nat) (f : List K → K) (ps : List IntVec) (m m' : Mem K) : Prop :=
  ∃ od e : IntVec, (∀ c, Interior n dest c → InExtent od e c) ∧ (∀ c, InExtent od e c → HasCell dest.geo c) ∧
    (∀ c, InExtent od e c → ∀ p ∈ ps, HasCell src.geo (c + p)) ∧
    (∀ c, InExtent od e c → valueAt m' dest c = f (ps.map fun p => valueAt m src (c + p))) ∧
    (∀ blk a, (blk ≠ b ∨ ∀ c, InExtent od e c → cellAddr dest.geo c ≠ a) → m' blk a = m blk a)

theorem refApply_ok {n : IntVec} (hn : IntVec.Lt 0 n) {st dt : FieldType} {src dest : FieldObj} {b : Nat} (h : Twins n st dt src dest b)
    {x : Extents} {ps : List IntVec} (hx : ∀ bc ∈ flags, ExtOk st dt x ps bc) (const : Bool)
    (hc : const = false → src.memType = .localRam ∧ src.readOnly = false) (cs : List K) (m : Mem K) :
    ∃ m', refApply const x cs src dest m = .ok m' ∧ Left n src dest b (combine cs) ps m m' := by
  obtain ⟨bx, bY, bz, b1, b2⟩ := h.bc
  have hf := isbc_flags bx bY bz st.bcExtra
  have hi : (BcInfo.build bx bY bz dt.bcExtra).isbc = (BcInfo.build bx bY bz st.bcExtra).isbc := rfl
  obtain ⟨x1, x2, x3, x4, x5, x6, x7, x8⟩ := hx _ hf
  have hsx : src.geo.bc.hasExtra = (BcInfo.build bx bY bz st.bcExtra).isbc * st.bcExtra := by rw [b1, hasExtra_build]
  have hdx : dest.geo.bc.hasExtra = (BcInfo.build bx bY bz st.bcExtra).isbc * dt.bcExtra := by rw [b2, hasExtra_build, hi]
  have i1 : src.geo.bc.isbc = (BcInfo.build bx bY bz st.bcExtra).isbc := by rw [b1]
  have i2 : dest.geo.bc.isbc = (BcInfo.build bx bY bz st.bcExtra).isbc := by rw [b2, hi]
  rw [← hsx, ← hdx] at x1
  rw [← hdx] at x7
  have hss := h.mesh.size
  have hds := h.target.mesh.size
  have hsf := h.mesh.fits
  have hdf := h.target.mesh.fits
  have hm := h.minus
  have hp := h.plus
  have he := h.enough
  have hos : origin src.geo = src.geo.window.offset + dest.geo.validGhosts.minus := by unfold origin; rw [hm]
  have hod : origin dest.geo = dest.geo.window.offset + dest.geo.validGhosts.minus := rfl
  rw [hm, hp] at hss
  have d1 := congrArg IntVec.x hds
  have d2 := congrArg IntVec.y hds
  have d3 := congrArg IntVec.z hds
  have s1 := congrArg IntVec.x hss
  have s2 := congrArg IntVec.y hss
  have s3 := congrArg IntVec.z hss
  simp only [IntVec.add_x, IntVec.add_y, IntVec.add_z] at d1 d2 d3 s1 s2 s3
  have hse0 : src.geo.window.extent + x.srcExtent + src.geo.bc.isbc * x.srcExtentBC =
      dest.geo.window.extent + x.destExtent + dest.geo.bc.isbc * x.destExtentBC := by
    rw [hss, hds, i1, i2]
    generalize src.geo.bc.hasExtra = sx at *
    generalize dest.geo.bc.hasExtra = dx at *
    generalize (BcInfo.build bx bY bz st.bcExtra).isbc * x.srcExtentBC = u at *
    generalize (BcInfo.build bx bY bz st.bcExtra).isbc * x.destExtentBC = v at *
    have e1 := congrArg IntVec.x x1
    have e2 := congrArg IntVec.y x1
    have e3 := congrArg IntVec.z x1
    simp only [IntVec.add_x, IntVec.add_y, IntVec.add_z] at e1 e2 e3
    ext <;> simp only [IntVec.add_x, IntVec.add_y, IntVec.add_z] <;> omega
  have hos' : x.srcOffsets.map (src.geo.window.offset + ·) =
      ps.map fun p => origin src.geo + ((x.destOffset - dest.geo.validGhosts.minus) + p) := by
    rw [x8, List.map_map]
    refine List.map_congr_left fun p hp => ?_
    rw [hos]
    ext <;> simp only [Function.comp, IntVec.add_x, IntVec.add_y, IntVec.add_z, IntVec.sub_x, IntVec.sub_y, IntVec.sub_z] <;> omega
  have hod' : dest.geo.window.offset + x.destOffset = origin dest.geo + (x.destOffset - dest.geo.validGhosts.minus) := by
    rw [hod]
    ext <;> simp only [IntVec.add_x, IntVec.add_y, IntVec.add_z, IntVec.sub_x, IntVec.sub_y, IntVec.sub_z] <;> omega
  have hpd : Proper ⟨dest.geo.window.npts, origin dest.geo + (x.destOffset - dest.geo.validGhosts.minus),
      dest.geo.window.extent + x.destExtent + dest.geo.bc.isbc * x.destExtentBC⟩ := by
    rw [← hod', i2]
    generalize dest.geo.bc.hasExtra = dx at *
    generalize (BcInfo.build bx bY bz st.bcExtra).isbc * x.destExtentBC = v at *
    constructor
    · iv_omega
    · iv_omega
  have hin : ∀ p ∈ ps, IntVec.Le 0 (x.destOffset + p) ∧
      IntVec.Le ((x.destOffset + p) + (x.srcExtent + (BcInfo.build bx bY bz st.bcExtra).isbc * x.srcExtentBC)) 0 := by
    intro p hp
    exact x4 _ (by rw [x8]; exact List.mem_map.2 ⟨p, hp, rfl⟩)
  have hps : ∀ p ∈ ps, Proper ⟨src.geo.window.npts, origin src.geo + ((x.destOffset - dest.geo.validGhosts.minus) + p),
      dest.geo.window.extent + x.destExtent + dest.geo.bc.isbc * x.destExtentBC⟩ := by
    intro p hp
    obtain ⟨o1, o2⟩ := hin p hp
    refine ⟨?_, hpd.2⟩
    have hne := hpd.2
    rw [← hse0, i1] at hne
    rw [← hse0, hos, i1]
    generalize (BcInfo.build bx bY bz st.bcExtra).isbc * x.srcExtentBC = v at *
    iv_omega
  obtain ⟨d, ss, c1, c2, c3, c4, c5, m', c6, c7, c8⟩ := cut_ok h.dest h.target.mesh.ghosts h.mesh.ghosts h.mem h.apart hpd hps (combine cs) m
  refine ⟨m', ?_, _, _, ?_, ?_, ?_, c7, c8⟩
  · unfold refApply
    dsimp only
    rw [Outcome.assert_true hse0, Outcome.ok_bind, hod', c1, Outcome.ok_bind, hse0, hos', c2, Outcome.ok_bind]
    cases const with
    | true => rw [if_pos rfl, c4, Outcome.ok_bind]; exact c6
    | false => rw [if_neg (by simp), c5 (hc rfl).1 (hc rfl).2, Outcome.ok_bind]; exact c6
  · intro c hc
    unfold Interior at hc
    unfold InExtent
    rw [hds, i2]
    generalize dest.geo.bc.hasExtra = dx at *
    generalize (BcInfo.build bx bY bz st.bcExtra).isbc * x.destExtentBC = v at *
    iv_omega
  · intro c hc
    unfold InExtent at hc
    unfold HasCell Window.Covers
    rw [hod]
    rw [i2] at hc
    generalize (BcInfo.build bx bY bz st.bcExtra).isbc * x.destExtentBC = v at *
    iv_omega
  · intro c hc p hp
    obtain ⟨o1, o2⟩ := hin p hp
    rw [← hse0, i1] at hc
    unfold InExtent at hc
    unfold HasCell Window.Covers
    rw [hos]
    generalize (BcInfo.build bx bY bz st.bcExtra).isbc * x.srcExtentBC = v at *
    iv_omega

/-- What an operator leaves in the interior of the destination, in terms of the expression it stands for. -/
theorem apply_at (h : Dir → K) {r : Reg} (hr : r ∈ registrations) {n : IntVec} (hn : IntVec.Lt 0 n) {src dest : FieldObj} {b : Nat}
    (ha : Readable n r src dest b) {e : Expr K .num} (he : r.apply h (.field src) = some e) (m : Mem K) :
    ∃ m', r.applyToField h src dest m = .ok m' ∧ ∀ c, Interior n dest c → valueAt m' dest c = e.value m c := by
  obtain ⟨t, w, den, s, ht, hw, -⟩ := reg_weights hr
  obtain ⟨e', he', hv⟩ := apply_value h t r.coef (.field src) w den s hw
  have hee : e' = e := by
    unfold Reg.apply at he
    unfold Reg.type at ht
    rw [ht] at he
    dsimp only [Option.bind_some] at he
    rw [he'] at he
    exact Option.some.inj he
  subst hee
  obtain ⟨m', h1, h2, -⟩ := apply_any h ht hw hn ha m
  refine ⟨m', h1, fun c hc => ?_⟩
  rw [h2 c hc, (hv n m c).2]
  rfl

theorem cell_inj {f : FieldGeo} (hf : f.window.Fits) {a b : IntVec} (ha : HasCell f a) (hb : HasCell f b)
    (h : cellAddr f a = cellAddr f b) : a = b := by
  unfold HasCell Window.Covers at ha hb
  have := fortranPos_inj (d := f.window.npts) (a := origin f + a) (b := origin f + b) (by iv_omega) (by iv_omega) h
  have h1 := congrArg IntVec.x this
  have h2 := congrArg IntVec.y this
  have h3 := congrArg IntVec.z this
  simp only [IntVec.add_x, IntVec.add_y, IntVec.add_z] at h1 h2 h3
  ext <;> omega

omit [Field K] in
theorem agrees {n : IntVec} {src dest : FieldObj} {b : Nat} (hd : Dest dest b) (hf : dest.geo.window.Fits) {f : List K → K} {ps : List IntVec}
    {m m1 m2 : Mem K} (hl : Left n src dest b f ps m m1) {value : IntVec → K} {reads : IntVec → IntVec → Prop}
    (hr : ∀ c q, reads c q → q ∈ ps.map (c + ·))
    (hv : ∀ c, f (ps.map fun p => valueAt m src (c + p)) = value c)
    (h2 : ∀ c, Interior n dest c → valueAt m2 dest c = value c) : Agrees n src dest b reads value m m1 m2 := by
  obtain ⟨od, e, l1, l2, l3, l4, l5⟩ := hl
  have hval : ∀ c, InExtent od e c → valueAt m1 dest c = value c := fun c hc => by rw [l4 c hc, hv c]
  refine ⟨fun c hc => ?_, fun c hc => hval c (l1 c hc), fun c hc => ?_, fun blk a ha => l5 blk a ?_⟩
  · rw [hval c (l1 c hc), h2 c hc]
  · by_cases hin : InExtent od e c
    · refine .inl ⟨hval c hin, fun q hq => ?_⟩
      obtain ⟨p, hp, rfl⟩ := List.mem_map.1 (hr c q hq)
      exact l3 c hin p hp
    · right
      unfold valueAt
      rw [hd.mem]
      refine l5 _ _ (.inr fun c' hc' heq => hin ?_)
      rw [← cell_inj hf (l2 c' hc') hc heq]
      exact hc'
  · rcases ha with ha | ha
    · exact .inl ha
    · exact .inr fun c hc => ha c (l2 c hc)

theorem fd_ok {n : IntVec} (hn : IntVec.Lt 0 n) {t : FieldType} {src dest : FieldObj} {b : Nat} (h : Twins n t t src dest b)
    (hw : src.geo.window = dest.geo.window) (d : Dir) (lo hi : K) (m : Mem K) :
    ∃ m', refFd d lo hi src dest m = .ok m' ∧ Left n src dest b (combine [lo, hi]) (fdStencil d).toList m m' := by
  obtain ⟨bx, bY, bz, b1, b2⟩ := h.bc
  have hx : src.geo.bc.hasExtra = dest.geo.bc.hasExtra := by rw [b1, b2]
  have hds := h.target.mesh.size
  have hdf := h.target.mesh.fits
  have hxe := h.target.mesh.extra
  have he := h.enough
  have hos : origin src.geo = origin dest.geo := by unfold origin; rw [hw, h.minus]
  have hod : origin dest.geo = dest.geo.window.offset + dest.geo.validGhosts.minus := rfl
  have d1 := congrArg IntVec.x hds
  have d2 := congrArg IntVec.y hds
  have d3 := congrArg IntVec.z hds
  simp only [IntVec.add_x, IntVec.add_y, IntVec.add_z] at d1 d2 d3
  have hu : unitTriplet d = ⟨1, 0, 0⟩ ∨ unitTriplet d = ⟨0, 1, 0⟩ ∨ unitTriplet d = ⟨0, 0, 1⟩ := by
    cases d
    · exact .inl rfl
    · exact .inr (.inl rfl)
    · exact .inr (.inr rfl)
  have hpts : (fdStencil d).toList = [-unitTriplet d, unitTriplet d] := by cases d <;> rfl
  rw [hpts]
  obtain ⟨u, hud⟩ : ∃ u, u = unitTriplet d := ⟨_, rfl⟩
  rw [← hud] at hu ⊢
  have hu0 : IntVec.Le 0 u ∧ IntVec.Le u ⟨1, 1, 1⟩ := by rcases hu with rfl | rfl | rfl <;> decide
  have hpd : Proper ⟨dest.geo.window.npts, origin dest.geo + (u - dest.geo.validGhosts.minus), dest.geo.window.extent - (u + u)⟩ := by
    rw [hod]
    generalize dest.geo.bc.hasExtra = dx at *
    constructor <;> iv_omega
  have hps : ∀ p ∈ [-u, u], Proper ⟨src.geo.window.npts, origin src.geo + ((u - dest.geo.validGhosts.minus) + p), dest.geo.window.extent - (u + u)⟩ := by
    intro p hp
    refine ⟨?_, hpd.2⟩
    have hne := hpd.2
    have hp' : p = -u ∨ p = u := by simpa using hp
    rw [hos, hod, hw]
    rcases hp' with rfl | rfl <;> iv_omega
  obtain ⟨dp, ss, c1, c2, c3, c4, c5, m', c6, c7, c8⟩ := cut_ok h.dest h.target.mesh.ghosts h.mesh.ghosts h.mem h.apart hpd hps (combine [lo, hi]) m
  refine ⟨m', ?_, u - dest.geo.validGhosts.minus, dest.geo.window.extent - (u + u), ?_, ?_, ?_, c7, c8⟩
  · have o1 : dest.geo.window.offset + u = origin dest.geo + (u - dest.geo.validGhosts.minus) := by
      rw [hod]
      ext <;> simp only [IntVec.add_x, IntVec.add_y, IntVec.add_z, IntVec.sub_x, IntVec.sub_y, IntVec.sub_z] <;> omega
    have o2 : [dest.geo.window.offset, dest.geo.window.offset + (u + u)] =
        [-u, u].map fun p => origin src.geo + ((u - dest.geo.validGhosts.minus) + p) := by
      rw [hos, hod]
      simp only [List.map_cons, List.map_nil, List.cons.injEq, and_true]
      constructor <;> ext <;> simp only [IntVec.add_x, IntVec.add_y, IntVec.add_z, IntVec.sub_x, IntVec.sub_y, IntVec.sub_z,
        IntVec.neg_x, IntVec.neg_y, IntVec.neg_z] <;> omega
    unfold refFd
    dsimp only
    rw [← hud, hw, o1, c1, Outcome.ok_bind, o2, c2, Outcome.ok_bind, c4, Outcome.ok_bind]
    exact c6
  · intro c hc
    unfold Interior at hc
    unfold InExtent
    generalize dest.geo.bc.hasExtra = dx at *
    iv_omega
  · intro c hc
    unfold InExtent at hc
    unfold HasCell Window.Covers
    rw [hod]
    iv_omega
  · intro c hc p hp
    have hp' : p = -u ∨ p = u := by simpa using hp
    unfold InExtent at hc
    unfold HasCell Window.Covers
    rw [hos, hod, hw]
    rcases hp' with rfl | rfl <;> iv_omega

theorem null_ok {n : IntVec} (hn : IntVec.Lt 0 n) {st dt : FieldType} {src dest : FieldObj} {b : Nat} (h : Twins n st dt src dest b)
    (hw : src.geo.window = dest.geo.window) (m : Mem K) :
    ∃ m', refNull src dest m = .ok m' ∧ Left n src dest b (fun vs : List K => vs.headD 0) nullStencil.toList m m' := by
  have hds := h.target.mesh.size
  have hdf := h.target.mesh.fits
  have hxe := h.target.mesh.extra
  have he := h.enough
  have hos : origin src.geo = origin dest.geo := by unfold origin; rw [hw, h.minus]
  have hod : origin dest.geo = dest.geo.window.offset + dest.geo.validGhosts.minus := rfl
  have d1 := congrArg IntVec.x hds
  have d2 := congrArg IntVec.y hds
  have d3 := congrArg IntVec.z hds
  simp only [IntVec.add_x, IntVec.add_y, IntVec.add_z] at d1 d2 d3
  have hpts : nullStencil.toList = [0] := rfl
  rw [hpts]
  have hne : dest.geo.window.Nonempty := by
    generalize dest.geo.bc.hasExtra = dx at *
    iv_omega
  have hbne : src.values.getD 0 ≠ b := by
    have ha := h.apart
    obtain ⟨v, hv⟩ := Option.ne_none_iff_exists'.1 h.mem
    rw [hv, h.target.mem] at ha
    rw [hv]
    intro h
    exact ha (congrArg some h)
  obtain ⟨m', cs, h1, h2, h3⟩ := same_extent (f := fun vs : List K => vs.headD 0) (b := b) (wd := dest.geo.window) (srcs := [whole src])
    ⟨hdf, hne⟩ (by intro s hs; obtain rfl := List.mem_singleton.1 hs; unfold whole; rw [hw]; exact ⟨hdf, hne⟩)
    (by intro s hs; obtain rfl := List.mem_singleton.1 hs; exact .inl hbne)
    (by intro s hs; obtain rfl := List.mem_singleton.1 hs; unfold whole; rw [hw]) m
  refine ⟨m', ?_, -dest.geo.validGhosts.minus, dest.geo.window.extent, ?_, ?_, ?_, ?_, ?_⟩
  · unfold refNull zip
    rw [Outcome.assert_true hw, Outcome.ok_bind, begins_ok (by intro s hs; obtain rfl := List.mem_singleton.1 hs; exact h.mem),
      Outcome.ok_bind, loop_eq h.dest hne]
    simp only [List.map_cons, List.map_nil] at h1 ⊢
    rw [h1]
    rfl
  · intro c hc
    unfold Interior at hc
    unfold InExtent
    generalize dest.geo.bc.hasExtra = dx at *
    iv_omega
  · intro c hc
    unfold InExtent at hc
    unfold HasCell Window.Covers
    rw [hod]
    iv_omega
  · intro c hc p hp
    obtain rfl := List.mem_singleton.1 hp
    unfold InExtent at hc
    unfold HasCell Window.Covers
    rw [hos, hod, hw]
    iv_omega
  · intro c hc
    have := h2 (c + dest.geo.validGhosts.minus) (by unfold InExtent at hc; iv_omega)
    have e1 : dest.geo.window.offset + (c + dest.geo.validGhosts.minus) = origin dest.geo + c := by
      rw [hod]
      ext <;> simp only [IntVec.add_x, IntVec.add_y, IntVec.add_z] <;> omega
    have e2 : c + (0 : IntVec) = c := by ext <;> simp
    unfold inputs element whole at this
    simp only [List.map_cons, List.map_nil, List.headD_cons, hw, e1] at this
    simp only [List.map_cons, List.map_nil, List.headD_cons, e2]
    unfold valueAt cellAddr
    rw [hos, hw, h.target.mem]
    exact this
  · intro blk a hb
    apply h3
    rcases hb with hb | hb
    · exact .inl hb
    · right
      intro loc hloc
      have := hb (loc - dest.geo.validGhosts.minus) (by unfold InExtent; iv_omega)
      unfold cellAddr at this
      have e1 : origin dest.geo + (loc - dest.geo.validGhosts.minus) = dest.geo.window.offset + loc := by
        rw [hod]
        ext <;> simp only [IntVec.add_x, IntVec.add_y, IntVec.add_z, IntVec.sub_x, IntVec.sub_y, IntVec.sub_z] <;> omega
      rw [e1] at this
      exact this

theorem box_ok {n : IntVec} (hn : IntVec.Lt 0 n) {t : FieldType} {src dest : FieldObj} {b : Nat} (h : Twins n t t src dest b) (m : Mem K) :
    ∃ m', refBox src dest m = .ok m' ∧
      Left n src dest b (fun vs : List K => vs.foldl (· + ·) 0 * (1 / ((27 : Nat) : K))) box3D.toList m m' := by
  obtain ⟨bx, bY, bz, b1, b2⟩ := h.bc
  have hx : src.geo.bc.hasExtra = dest.geo.bc.hasExtra := by rw [b1, b2]
  have hss := h.mesh.size
  have hds := h.target.mesh.size
  have hsf := h.mesh.fits
  have hdf := h.target.mesh.fits
  have hxe := h.target.mesh.extra
  have he := h.enough
  have hos : origin src.geo = src.geo.window.offset + dest.geo.validGhosts.minus := by unfold origin; rw [h.minus]
  have hod : origin dest.geo = dest.geo.window.offset + dest.geo.validGhosts.minus := rfl
  have hse : src.geo.window.extent = dest.geo.window.extent := by rw [hss, hds, hx, h.minus, h.plus]
  have d1 := congrArg IntVec.x hds
  have d2 := congrArg IntVec.y hds
  have d3 := congrArg IntVec.z hds
  simp only [IntVec.add_x, IntVec.add_y, IntVec.add_z] at d1 d2 d3
  have big : ∀ w : Window, w.Fits → w.extent = dest.geo.window.extent →
      boxOf w.npts.x = 1 ∧ boxOf w.npts.y = 1 ∧ boxOf w.npts.z = 1 ∧ boxOffsets w.npts = box3D.toList.map (⟨1, 1, 1⟩ + ·) := by
    intro w hw hwe
    rw [← hwe] at d1 d2 d3
    generalize dest.geo.bc.hasExtra = dx at *
    have hx : 1 < w.npts.x ∧ 1 < w.npts.y ∧ 1 < w.npts.z := by iv_omega
    refine ⟨if_pos hx.1, if_pos hx.2.1, if_pos hx.2.2, ?_⟩
    unfold boxOffsets boxHi
    rw [if_pos hx.1, if_pos hx.2.1, if_pos hx.2.2]
    decide
  obtain ⟨sx, sy, sz, so⟩ := big _ hsf hse
  obtain ⟨dx, dy, dz, -⟩ := big _ hdf rfl
  have hpd : Proper ⟨dest.geo.window.npts, origin dest.geo + (⟨1, 1, 1⟩ - dest.geo.validGhosts.minus), dest.geo.window.extent - ⟨2, 2, 2⟩⟩ := by
    rw [hod]
    generalize dest.geo.bc.hasExtra = dx at *
    constructor <;> iv_omega
  have near : ∀ p ∈ box3D.toList, IntVec.Le ⟨-1, -1, -1⟩ p ∧ IntVec.Le p ⟨1, 1, 1⟩ := by decide
  have hps : ∀ p ∈ box3D.toList, Proper ⟨src.geo.window.npts, origin src.geo + ((⟨1, 1, 1⟩ - dest.geo.validGhosts.minus) + p),
      dest.geo.window.extent - ⟨2, 2, 2⟩⟩ := by
    intro p hp
    have hp := near p hp
    refine ⟨?_, hpd.2⟩
    have hne := hpd.2
    rw [hos]
    rw [← hse] at hne ⊢
    iv_omega
  obtain ⟨dp, ss, c1, c2, c3, c4, c5, m', c6, c7, c8⟩ := cut_ok h.dest h.target.mesh.ghosts h.mesh.ghosts h.mem h.apart hpd hps
    (fun vs : List K => vs.foldl (· + ·) 0 * (1 / ((27 : Nat) : K))) m
  refine ⟨m', ?_, ⟨1, 1, 1⟩ - dest.geo.validGhosts.minus, dest.geo.window.extent - ⟨2, 2, 2⟩, ?_, ?_, ?_, c7, c8⟩
  · have o1 : dest.geo.window.offset + ⟨1, 1, 1⟩ = origin dest.geo + (⟨1, 1, 1⟩ - dest.geo.validGhosts.minus) := by
      rw [hod]
      ext <;> simp only [IntVec.add_x, IntVec.add_y, IntVec.add_z, IntVec.sub_x, IntVec.sub_y, IntVec.sub_z] <;> omega
    have o2 : (boxOffsets src.geo.window.npts).map (src.geo.window.offset + ·) =
        box3D.toList.map fun p => origin src.geo + ((⟨1, 1, 1⟩ - dest.geo.validGhosts.minus) + p) := by
      rw [so, hos, List.map_map]
      refine List.map_congr_left fun p _ => ?_
      ext <;> simp only [Function.comp, IntVec.add_x, IntVec.add_y, IntVec.add_z, IntVec.sub_x, IntVec.sub_y, IntVec.sub_z] <;> omega
    have hl : ss.length = 27 := by rw [c3]; rfl
    unfold refBox
    dsimp only
    rw [sx, sy, sz, dx, dy, dz, o2, hse]
    simp only [Int.mul_one]
    rw [c2, Outcome.ok_bind, c4, Outcome.ok_bind, o1, c1, Outcome.ok_bind, hl]
    exact c6
  · intro c hc
    unfold Interior at hc
    unfold InExtent
    generalize dest.geo.bc.hasExtra = dx at *
    iv_omega
  · intro c hc
    unfold InExtent at hc
    unfold HasCell Window.Covers
    rw [hod]
    iv_omega
  · intro c hc p hp
    have hp := near p hp
    unfold InExtent at hc
    unfold HasCell Window.Covers
    rw [hos, hse]
    iv_omega

theorem foldl_sum {α : Type} (f : α → K) (p : Pts α) (a : K) : (p.toList.map f).foldl (· + ·) a = a + p.sum f := by
  induction p with
  | one x => rfl
  | more e x ih =>
    simp only [Pts.toList, List.map_append, List.foldl_append, ih, Pts.sum, List.map_cons, List.map_nil, List.foldl_cons, List.foldl_nil, add_assoc]

end

/-! ## The operators the reference stencils are for -/

theorem onlyDir_of {src dest : FieldType} {d : Dir} (h : OnlyDirection src dest d) : onlyDir src dest d = true := by
  unfold onlyDir
  refine List.all_eq_true.2 fun e _ => ?_
  have := h e
  generalize staggered src e = b1 at *
  generalize staggered dest e = b2 at *
  by_cases he : e = d <;> cases b1 <;> cases b2 <;> simp_all

def isTwo (r : Reg) (d : Dir) : Bool :=
  r.type == some (.coefs r.op (stencil2 r.src.offset r.dest.offset) r.src r.dest) &&
  stencil2 r.src.offset r.dest.offset == .more (.one (lowPt r.dest d)) (lowPt r.dest d + unit d) &&
  r.coef == (if r.op = .interpolant then .half else .per d)

theorem all_two : registrations.all (fun r => [Dir.x, .y, .z].all fun d => !onlyDir r.src r.dest d || isTwo r d) = true := by
  decide +kernel

theorem mem_dirs (d : Dir) : d ∈ [Dir.x, .y, .z] := by cases d <;> decide

theorem two_of {r : Reg} (hr : r ∈ registrations) {d : Dir} (hd : OnlyDirection r.src r.dest d) :
    r.type = some (.coefs r.op (stencil2 r.src.offset r.dest.offset) r.src r.dest) ∧
      stencil2 r.src.offset r.dest.offset = .more (.one (lowPt r.dest d)) (lowPt r.dest d + unit d) ∧
      r.coef = (if r.op = .interpolant then .half else .per d) := by
  have h := List.all_eq_true.1 (List.all_eq_true.1 all_two r hr) d (mem_dirs d)
  rw [onlyDir_of hd] at h
  simpa [isTwo, and_assoc] using h

def twoDirs (src dest : FieldType) (d1 d2 : Dir) : Bool :=
  d1 != d2 && [Dir.x, .y, .z].all fun e => (staggered src e != staggered dest e) == (e == d1 || e == d2)

theorem twoDirs_of {src dest : FieldType} {d1 d2 : Dir} (h : TwoDirections src dest d1 d2) : twoDirs src dest d1 d2 = true := by
  unfold twoDirs
  rw [Bool.and_eq_true]
  refine ⟨bne_iff_ne.2 h.1, List.all_eq_true.2 fun e _ => ?_⟩
  have := h.2 e
  generalize staggered src e = b1 at *
  generalize staggered dest e = b2 at *
  by_cases h1 : e = d1 <;> by_cases h2 : e = d2 <;> cases b1 <;> cases b2 <;> simp_all

def isFour (r : Reg) (d1 d2 : Dir) : Bool :=
  let l := lowPt r.dest d1 + lowPt r.dest d2
  r.type == some (.coefs r.op (stencil4 r.src.offset r.dest.offset) r.src r.dest) &&
  (stencil4 r.src.offset r.dest.offset == .more (.more (.more (.one l) (l + unit d1)) (l + unit d2)) (l + unit d1 + unit d2) ||
    stencil4 r.src.offset r.dest.offset == .more (.more (.more (.one l) (l + unit d2)) (l + unit d1)) (l + unit d2 + unit d1)) &&
  r.coef == .quarter

theorem all_four : registrations.all (fun r => [Dir.x, .y, .z].all fun d1 => [Dir.x, .y, .z].all fun d2 =>
    !twoDirs r.src r.dest d1 d2 || isFour r d1 d2) = true := by
  decide +kernel

theorem four_of {r : Reg} (hr : r ∈ registrations) {d1 d2 : Dir} (hd : TwoDirections r.src r.dest d1 d2) :
    isFour r d1 d2 = true := by
  have h := List.all_eq_true.1 (List.all_eq_true.1 (List.all_eq_true.1 all_four r hr) d1 (mem_dirs d1)) d2 (mem_dirs d2)
  rw [twoDirs_of hd] at h
  simpa using h

def isFd (r : Reg) (d : Dir) : Bool :=
  r.type == some (.coefs r.op (fdStencil d) r.src r.dest) && r.src == r.dest &&
  r.coef == (if r.op = .interpolantD d then .half else .halfPer d)

theorem all_fd : registrations.all (fun r => [Dir.x, .y, .z].all fun d =>
    !(r.op == .interpolantD d || r.op == .gradientD d) || isFd r d) = true := by
  decide +kernel

theorem fd_of {r : Reg} (hr : r ∈ registrations) {d : Dir} (hd : r.op = .interpolantD d ∨ r.op = .gradientD d) :
    r.type = some (.coefs r.op (fdStencil d) r.src r.dest) ∧ r.src = r.dest ∧
      r.coef = (if r.op = .interpolantD d then .half else .halfPer d) := by
  have h := List.all_eq_true.1 (List.all_eq_true.1 all_fd r hr) d (mem_dirs d)
  have : (r.op == Tag.interpolantD d || r.op == .gradientD d) = true := by rcases hd with h | h <;> simp [h]
  rw [this] at h
  simpa [isFd, and_assoc] using h

def sameDirs (src dest : FieldType) : Bool := [Dir.x, .y, .z].all fun e => staggered src e == staggered dest e

theorem all_null : registrations.all (fun r =>
    !(r.op == .interpolant && sameDirs r.src r.dest) || (r.type == some (.sum nullStencil r.src r.dest) && r.coef == .absent)) = true := by
  decide +kernel

theorem null_of {r : Reg} (hr : r ∈ registrations) (ho : r.op = .interpolant) (hd : ∀ d, staggered r.src d = staggered r.dest d) :
    r.type = some (.sum nullStencil r.src r.dest) ∧ r.coef = .absent := by
  have h := List.all_eq_true.1 all_null r hr
  have : sameDirs r.src r.dest = true := List.all_eq_true.2 fun e _ => by simp [hd e]
  rw [this, ho] at h
  simpa using h

theorem all_box : registrations.all (fun r =>
    !(r.op == .filter) || (r.type == some (.average box3D r.src r.dest) && r.coef == .absent && r.src == r.dest)) = true := by
  decide +kernel

theorem box_of {r : Reg} (hr : r ∈ registrations) (ho : r.op = .filter) :
    r.type = some (.average box3D r.src r.dest) ∧ r.coef = .absent ∧ r.src = r.dest := by
  have h := List.all_eq_true.1 all_box r hr
  rw [ho] at h
  simpa [and_assoc] using h

end Loops
end SpatialOps
