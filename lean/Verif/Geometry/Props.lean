import Verif.Geometry.Spec
import Verif.Ghost.Props
import Verif.Index.Props

/-!
# Properties C09, C10 (field geometry), C51 (views), C52 (single-value fields)
-/

namespace SpatialOps
open FieldGeo

theorem Window.make_ok {n o e : IntVec} (h : Window.sanityCheck ⟨n, o, e⟩) :
    Window.make n o e = .ok ⟨n, o, e⟩ := by
  unfold Window.make; rw [Outcome.assert_true h]; rfl

theorem Window.make_abort {n o e : IntVec} (h : ¬ Window.sanityCheck ⟨n, o, e⟩) :
    Window.make n o e = .abort := by
  unfold Window.make; rw [Outcome.assert_false h]; rfl

theorem b2i_ne (b : Bool) : (BcInfo.b2i b ≠ 0) ↔ b = true := by cases b <;> decide

theorem hasExtra_build (bx bY bz : Bool) (e : IntVec) :
    (BcInfo.build bx bY bz e).hasExtra = ⟨extraCells bx e.x, extraCells bY e.y, extraCells bz e.z⟩ := by
  cases bx <;> cases bY <;> cases bz <;>
    simp [BcInfo.build, BcInfo.hasExtra, BcInfo.b2i, extraCells]

/-! ## C09 -/

/-- C09. For every interior size, valid ghosts and boundary flags with a
non-negative number of extra cells: `get_window_with_ghost` succeeds, a (non
single-value) field can be built on its window, the layout is as specified in
every direction, and the interior window lies inside the allocation. -/
theorem C09_field_layout (n : IntVec) (g : GhostData) (bx bY bz : Bool)
    (e : IntVec) (hg : g.Valid) (he : IntVec.Le 0 e) :
    ∃ w f, getWindowWithGhost n g (BcInfo.build bx bY bz e) = .ok w ∧
      FieldGeo.ctor false w (BcInfo.build bx bY bz e) g = .ok f ∧
      f.window = w ∧ w.offset = 0 ∧ w.extent = w.npts ∧ w.Fits ∧ w.Nonempty ∧
      f.interior.npts = w.npts ∧ f.interior.Fits ∧ f.interior.Nonempty ∧
      f.ghosts = g ∧ f.validGhosts = g ∧ f.disableInterior = false ∧
      Layout1 n.x g.minus.x g.plus.x (extraCells bx e.x) w.npts.x f.interior.offset.x f.interior.extent.x ∧
      Layout1 n.y g.minus.y g.plus.y (extraCells bY e.y) w.npts.y f.interior.offset.y f.interior.extent.y ∧
      Layout1 n.z g.minus.z g.plus.z (extraCells bz e.z) w.npts.z f.interior.offset.z f.interior.extent.z := by
  have hx : 0 ≤ extraCells bx e.x := by unfold extraCells; split <;> iv_omega
  have hy : 0 ≤ extraCells bY e.y := by unfold extraCells; split <;> iv_omega
  have hz : 0 ≤ extraCells bz e.z := by unfold extraCells; split <;> iv_omega
  have hg' := hg
  unfold GhostData.Valid at hg
  simp only [IntVec.Le, IntVec.zero_x, IntVec.zero_y, IntVec.zero_z] at hg he
  obtain ⟨⟨gm1, gm2, gm3⟩, gp1, gp2, gp3⟩ := hg
  unfold getWindowWithGhost Window.makeFull
  rw [hasExtra_build]
  generalize extraCells bx e.x = ex at *
  generalize extraCells bY e.y = ey at *
  generalize extraCells bz e.z = ez at *
  simp only
  have key : ∀ n m p b : Int, 0 ≤ m → 0 ≤ p → 0 ≤ b → 0 < getDimWithGhost n m p b ∧
      0 ≤ interiorOfs1 (getDimWithGhost n m p b) 0 m ∧
      0 < interiorExt1 (getDimWithGhost n m p b) m p ∧
      interiorOfs1 (getDimWithGhost n m p b) 0 m + interiorExt1 (getDimWithGhost n m p b) m p ≤
        getDimWithGhost n m p b ∧
      Layout1 n m p b (getDimWithGhost n m p b) (interiorOfs1 (getDimWithGhost n m p b) 0 m)
        (interiorExt1 (getDimWithGhost n m p b) m p) := by
    intro n m p b h1 h2 h3
    have h : Layout1 n m p b (getDimWithGhost n m p b) (interiorOfs1 (getDimWithGhost n m p b) 0 m)
        (interiorExt1 (getDimWithGhost n m p b) m p) := by
      unfold getDimWithGhost interiorOfs1 interiorExt1
      constructor <;> intro hn
      · rw [if_pos hn, if_pos (by omega), if_pos (by omega)]; omega
      · rw [if_neg hn, if_neg (by omega), if_neg (by omega)]; omega
    by_cases hn : 1 < n
    · have := h.active hn
      exact ⟨by omega, by omega, by omega, by omega, h⟩
    · have := h.inactive hn
      exact ⟨by omega, by omega, by omega, by omega, h⟩
  obtain ⟨x1, x2, x3, x4, x5⟩ := key n.x g.minus.x g.plus.x ex gm1 gp1 hx
  obtain ⟨y1, y2, y3, y4, y5⟩ := key n.y g.minus.y g.plus.y ey gm2 gp2 hy
  obtain ⟨z1, z2, z3, z4, z5⟩ := key n.z g.minus.z g.plus.z ez gm3 gp3 hz
  generalize hdx : getDimWithGhost n.x g.minus.x g.plus.x ex = dx at *
  generalize hdy : getDimWithGhost n.y g.minus.y g.plus.y ey = dy at *
  generalize hdz : getDimWithGhost n.z g.minus.z g.plus.z ez = dz at *
  refine ⟨⟨⟨dx, dy, dz⟩, 0, ⟨dx, dy, dz⟩⟩, ⟨⟨⟨dx, dy, dz⟩, 0, ⟨dx, dy, dz⟩⟩,
    ⟨⟨dx, dy, dz⟩, ⟨interiorOfs1 dx 0 g.minus.x, interiorOfs1 dy 0 g.minus.y, interiorOfs1 dz 0 g.minus.z⟩,
      ⟨interiorExt1 dx g.minus.x g.plus.x, interiorExt1 dy g.minus.y g.plus.y,
       interiorExt1 dz g.minus.z g.plus.z⟩⟩, BcInfo.build bx bY bz e, g, g, false⟩,
    Window.make_ok ?_, ?_, rfl, rfl, rfl, ?_, ?_, rfl, ?_, ?_, rfl, rfl, rfl, x5, y5, z5⟩
  · unfold Window.sanityCheck; iv_omega
  · unfold FieldGeo.ctor
    rw [GhostData.copy_ok hg', Outcome.ok_bind]
    unfold singleValueCheck
    rw [Outcome.throwIf_false (by simp), Outcome.ok_bind, Outcome.throwIf_false (by simp), Outcome.ok_bind]
    rw [Window.make_ok]
    · rfl
    · unfold Window.sanityCheck
      simp only [IntVec.sub_x, IntVec.sub_y, IntVec.sub_z, IntVec.zero_x, IntVec.zero_y, IntVec.zero_z]
      omega
  · iv_omega
  · iv_omega
  · simp only [Window.Fits, IntVec.Le, IntVec.Lt, IntVec.add_x, IntVec.add_y, IntVec.add_z,
      IntVec.zero_x, IntVec.zero_y, IntVec.zero_z]
    omega
  · simp only [Window.Nonempty, IntVec.Lt, IntVec.zero_x, IntVec.zero_y, IntVec.zero_z]
    omega

/-- A 3D case with a boundary in x, an inactive z direction and asymmetric ghosts. -/
example : ∃ w f, getWindowWithGhost ⟨10, 4, 1⟩ ⟨⟨1, 2, 1⟩, ⟨3, 1, 1⟩, false⟩
      (BcInfo.build true false true ⟨1, 1, 1⟩) = .ok w ∧
    FieldGeo.ctor false w (BcInfo.build true false true ⟨1, 1, 1⟩) ⟨⟨1, 2, 1⟩, ⟨3, 1, 1⟩, false⟩ = .ok f ∧
    w.npts = ⟨15, 7, 1⟩ ∧ f.interior = ⟨⟨15, 7, 1⟩, ⟨1, 2, 0⟩, ⟨11, 4, 1⟩⟩ :=
  ⟨⟨⟨15, 7, 1⟩, 0, ⟨15, 7, 1⟩⟩,
   ⟨⟨⟨15, 7, 1⟩, 0, ⟨15, 7, 1⟩⟩, ⟨⟨15, 7, 1⟩, ⟨1, 2, 0⟩, ⟨11, 4, 1⟩⟩, BcInfo.build true false true ⟨1, 1, 1⟩,
    ⟨⟨1, 2, 1⟩, ⟨3, 1, 1⟩, false⟩, ⟨⟨1, 2, 1⟩, ⟨3, 1, 1⟩, false⟩, false⟩, by decide⟩

/-! ## C10 -/

theorem reset_ok_shape {f f' : FieldGeo} {g : GhostData} (h : f.resetValidGhosts g = .ok f') :
    f' = { f with
      window := ⟨f.window.npts, f.window.offset + (f.validGhosts.minus - g.minus),
        f.window.extent - (f.validGhosts.minus - g.minus) - f.validGhosts.plus + g.plus⟩,
      validGhosts := g } := by
  unfold resetValidGhosts at h
  simp only at h
  by_cases c : Window.sanityCheck ⟨f.window.npts, f.window.offset + (f.validGhosts.minus - g.minus),
        f.window.extent - (f.validGhosts.minus - g.minus) - f.validGhosts.plus + g.plus⟩
  · rw [Window.make_ok c, Outcome.ok_bind] at h
    unfold GhostData.copy at h
    by_cases d : IntVec.Le 0 g.minus ∧ IntVec.Le 0 g.plus
    · rw [GhostData.checkValid_ok d] at h
      injection h with h; exact h.symm
    · rw [GhostData.checkValid_abort d] at h; cases h
  · rw [Window.make_abort c] at h; cases h

theorem reset_after_reset {f f' : FieldGeo} {g : GhostData} (h : f.resetValidGhosts g = .ok f')
    (k : GhostData) : f'.resetValidGhosts k = f.resetValidGhosts k := by
  have := reset_ok_shape h
  subst this
  unfold resetValidGhosts
  simp only
  have e1 : f.window.offset + (f.validGhosts.minus - g.minus) + (g.minus - k.minus) =
      f.window.offset + (f.validGhosts.minus - k.minus) := by ext <;> simp <;> omega
  have e2 : f.window.extent - (f.validGhosts.minus - g.minus) - f.validGhosts.plus + g.plus -
      (g.minus - k.minus) - g.plus + k.plus =
      f.window.extent - (f.validGhosts.minus - k.minus) - f.validGhosts.plus + k.plus := by
    ext <;> simp <;> omega
  rw [e1, e2]

/-- C10 (path independence). Whatever resets were made before (as long as they
were accepted), a reset has the same outcome, and leaves the same field, as on
the original field. -/
theorem C10_path_independent (f f' : FieldGeo) (gs : List GhostData) (h : f.resets gs = .ok f')
    (g : GhostData) : f'.resetValidGhosts g = f.resetValidGhosts g := by
  induction gs generalizing f with
  | nil => injection h with h; subst h; rfl
  | cons a as ih =>
    simp only [resets] at h
    cases hr : f.resetValidGhosts a with
    | ok f1 =>
      rw [hr] at h
      rw [ih f1 h, reset_after_reset hr]
    | abort => rw [hr] at h; cases h
    | throws => rw [hr] at h; cases h
    | ub => rw [hr] at h; cases h

/-- C10 (grown interior). If the window was the interior grown by the valid
ghosts, it is so after any accepted history, with the latest ghosts; nothing
else changes. -/
theorem C10_window_is_grown_interior (f f' : FieldGeo) (gs : List GhostData)
    (h0 : f.GrownBy f.validGhosts) (h : f.resets gs = .ok f') :
    f'.GrownBy f'.validGhosts ∧ f'.validGhosts = gs.getLast?.getD f.validGhosts ∧
      f'.interior = f.interior ∧ f'.ghosts = f.ghosts := by
  induction gs generalizing f with
  | nil => injection h with h; subst h; exact ⟨h0, rfl, rfl, rfl⟩
  | cons a as ih =>
    simp only [resets] at h
    cases hr : f.resetValidGhosts a with
    | ok f1 =>
      rw [hr] at h
      have hs := reset_ok_shape hr
      have g1 : f1.GrownBy f1.validGhosts := by
        subst hs
        obtain ⟨h1, h2, h3⟩ := h0
        refine ⟨h1, ?_, ?_⟩
        · simp only [h2]; ext <;> simp
        · simp only [h3]; ext <;> simp <;> omega
      obtain ⟨r1, r2, r3, r4⟩ := ih f1 g1 h
      refine ⟨r1, ?_, ?_, ?_⟩
      · rw [r2, hs]
        cases as with
        | nil => simp
        | cons b bs => simp [List.getLast?_cons]
      · rw [r3, hs]
      · rw [r4, hs]
    | abort => rw [hr] at h; cases h
    | throws => rw [hr] at h; cases h
    | ub => rw [hr] at h; cases h

/-- C10 (reversibility). Undoing a reset restores the field exactly. -/
theorem C10_reversible (f f' : FieldGeo) (g : GhostData) (h0 : f.window.sanityCheck)
    (hv : f.validGhosts.Valid) (h : f.resetValidGhosts g = .ok f') :
    f'.resetValidGhosts f.validGhosts = .ok f := by
  rw [reset_after_reset h]
  have e1 : f.window.offset + (f.validGhosts.minus - f.validGhosts.minus) = f.window.offset := by
    ext <;> simp
  have e2 : f.window.extent - (f.validGhosts.minus - f.validGhosts.minus) - f.validGhosts.plus +
      f.validGhosts.plus = f.window.extent := by ext <;> simp
  unfold resetValidGhosts
  simp only
  rw [e1, e2, Window.make_ok (by exact h0), Outcome.ok_bind, GhostData.copy_ok hv]
  rfl

/-- C10 (legality). For a field whose window fits in the allocation, is the
interior grown by the valid ghosts, with a non-negative interior extent: a reset
to valid ghosts not exceeding the current ones is accepted and the window still
fits. -/
theorem C10_shrink_accepted (f : FieldGeo) (g : GhostData) (hg : g.Valid)
    (hle : GhostData.Le g f.validGhosts) (h0 : f.GrownBy f.validGhosts) (hf : f.window.Fits)
    (hi : IntVec.Le 0 f.interior.extent) :
    ∃ f', f.resetValidGhosts g = .ok f' ∧ f'.window.Fits ∧ f'.GrownBy g := by
  obtain ⟨h1, h2, h3⟩ := h0
  have e1 : f.window.offset + (f.validGhosts.minus - g.minus) = f.interior.offset - g.minus := by
    rw [h2]; ext <;> simp
  have e2 : f.window.extent - (f.validGhosts.minus - g.minus) - f.validGhosts.plus + g.plus =
      f.interior.extent + g.minus + g.plus := by
    rw [h3]; ext <;> simp <;> omega
  have hf1 := hf
  rw [Window.Fits, h2, h3] at hf1
  have hfit : Window.Fits ⟨f.window.npts, f.interior.offset - g.minus, f.interior.extent + g.minus + g.plus⟩ := by
    unfold GhostData.Le GhostData.Valid at *
    simp only [Window.Fits, IntVec.Le, IntVec.Lt, IntVec.add_x, IntVec.add_y, IntVec.add_z,
      IntVec.sub_x, IntVec.sub_y, IntVec.sub_z, IntVec.zero_x, IntVec.zero_y, IntVec.zero_z] at *
    omega
  refine ⟨{ f with window := ⟨f.window.npts, f.interior.offset - g.minus,
      f.interior.extent + g.minus + g.plus⟩, validGhosts := g }, ?_, hfit, h1, rfl, rfl⟩
  unfold resetValidGhosts
  simp only
  rw [e1, e2, Window.make_ok, Outcome.ok_bind, GhostData.copy_ok hg]
  · rfl
  · unfold Window.sanityCheck
    simp only [Window.Fits, IntVec.Le, IntVec.Lt, IntVec.add_x, IntVec.add_y, IntVec.add_z,
      IntVec.sub_x, IntVec.sub_y, IntVec.sub_z, IntVec.zero_x, IntVec.zero_y, IntVec.zero_z] at *
    omega

/-- C10 (fields as constructed). A field constructed on a window it fits, whose
ghosts fit in it and are zero in inactive directions, is grown by its valid
ghosts, so the theorems above apply to it and all its resets. -/
theorem C10_constructed_field_grown (w : Window) (bc : BcInfo) (g : GhostData) (f : FieldGeo)
    (hz : (w.extent.x ≤ 1 → g.minus.x = 0 ∧ g.plus.x = 0) ∧
      (w.extent.y ≤ 1 → g.minus.y = 0 ∧ g.plus.y = 0) ∧
      (w.extent.z ≤ 1 → g.minus.z = 0 ∧ g.plus.z = 0))
    (h : FieldGeo.ctor false w bc g = .ok f) :
    f.GrownBy f.validGhosts ∧ IntVec.Le 0 f.interior.extent := by
  unfold FieldGeo.ctor at h
  by_cases d : IntVec.Le 0 g.minus ∧ IntVec.Le 0 g.plus
  swap
  · unfold GhostData.copy at h; rw [GhostData.checkValid_abort d] at h; cases h
  rw [GhostData.copy_ok d, Outcome.ok_bind] at h
  unfold singleValueCheck at h
  rw [Outcome.throwIf_false (by simp), Outcome.ok_bind, Outcome.throwIf_false (by simp),
    Outcome.ok_bind] at h
  generalize ho : IntVec.mk (interiorOfs1 w.extent.x w.offset.x g.minus.x)
    (interiorOfs1 w.extent.y w.offset.y g.minus.y) (interiorOfs1 w.extent.z w.offset.z g.minus.z) = o at h
  generalize hE : IntVec.mk (interiorExt1 w.extent.x g.minus.x g.plus.x)
    (interiorExt1 w.extent.y g.minus.y g.plus.y) (interiorExt1 w.extent.z g.minus.z g.plus.z) = E at h
  by_cases c : Window.sanityCheck ⟨w.npts, o, E⟩
  swap
  · rw [Window.make_abort c] at h; cases h
  rw [Window.make_ok c] at h
  injection h with h
  subst h
  have hE0 : IntVec.Le 0 E := by unfold Window.sanityCheck at c; iv_omega
  obtain ⟨hx, hy, hz⟩ := hz
  refine ⟨⟨rfl, ?_, ?_⟩, hE0⟩
  · subst ho
    unfold interiorOfs1
    ext
    · simp only [IntVec.sub_x]; split <;> omega
    · simp only [IntVec.sub_y]; split <;> omega
    · simp only [IntVec.sub_z]; split <;> omega
  · subst hE
    unfold interiorExt1
    ext
    · simp only [IntVec.add_x]; split <;> omega
    · simp only [IntVec.add_y]; split <;> omega
    · simp only [IntVec.add_z]; split <;> omega

/-- C10 deviation: ghosts given in an inactive direction (which the window does
not contain, C09) make a reset to no ghosts fail an assertion. -/
theorem C10_inactive_direction_reset_aborts :
    ∃ w f, getWindowWithGhost ⟨8, 8, 1⟩ ⟨⟨1, 1, 1⟩, ⟨1, 1, 1⟩, false⟩ (BcInfo.build false false false 0) = .ok w ∧
      FieldGeo.ctor false w (BcInfo.build false false false 0) ⟨⟨1, 1, 1⟩, ⟨1, 1, 1⟩, false⟩ = .ok f ∧
      f.resetValidGhosts ⟨0, 0, false⟩ = .abort :=
  ⟨⟨⟨10, 10, 1⟩, 0, ⟨10, 10, 1⟩⟩, ⟨⟨⟨10, 10, 1⟩, 0, ⟨10, 10, 1⟩⟩, ⟨⟨10, 10, 1⟩, ⟨1, 1, 0⟩, ⟨8, 8, 1⟩⟩,
    BcInfo.build false false false 0, ⟨⟨1, 1, 1⟩, ⟨1, 1, 1⟩, false⟩, ⟨⟨1, 1, 1⟩, ⟨1, 1, 1⟩, false⟩, false⟩,
    by decide⟩

/-- C10 deviation: growing the valid ghosts beyond the field's ghosts on one side
while shrinking on the other is accepted and leaves a window outside the
allocation. -/
theorem C10_growth_not_rejected :
    ∃ w f f', getWindowWithGhost ⟨8, 1, 1⟩ ⟨⟨2, 0, 0⟩, ⟨0, 0, 0⟩, false⟩ (BcInfo.build false false false 0) = .ok w ∧
      FieldGeo.ctor false w (BcInfo.build false false false 0) ⟨⟨2, 0, 0⟩, ⟨0, 0, 0⟩, false⟩ = .ok f ∧
      f.resetValidGhosts ⟨⟨0, 0, 0⟩, ⟨1, 0, 0⟩, false⟩ = .ok f' ∧ ¬ f'.window.Fits :=
  ⟨⟨⟨10, 1, 1⟩, 0, ⟨10, 1, 1⟩⟩, ⟨⟨⟨10, 1, 1⟩, 0, ⟨10, 1, 1⟩⟩, ⟨⟨10, 1, 1⟩, ⟨2, 0, 0⟩, ⟨8, 1, 1⟩⟩,
    BcInfo.build false false false 0, ⟨⟨2, 0, 0⟩, ⟨0, 0, 0⟩, false⟩, ⟨⟨2, 0, 0⟩, ⟨0, 0, 0⟩, false⟩, false⟩,
   ⟨⟨⟨10, 1, 1⟩, ⟨2, 0, 0⟩, ⟨9, 1, 1⟩⟩, ⟨⟨10, 1, 1⟩, ⟨2, 0, 0⟩, ⟨8, 1, 1⟩⟩,
    BcInfo.build false false false 0, ⟨⟨2, 0, 0⟩, ⟨0, 0, 0⟩, false⟩, ⟨⟨0, 0, 0⟩, ⟨1, 0, 0⟩, false⟩, false⟩,
    by decide⟩

/-- A field and a history meeting the hypotheses of the C10 theorems. -/
example : ∃ w f f', getWindowWithGhost ⟨6, 5, 1⟩ ⟨⟨2, 1, 0⟩, ⟨1, 2, 0⟩, false⟩ (BcInfo.build true true true ⟨1, 0, 0⟩) = .ok w ∧
    FieldGeo.ctor false w (BcInfo.build true true true ⟨1, 0, 0⟩) ⟨⟨2, 1, 0⟩, ⟨1, 2, 0⟩, false⟩ = .ok f ∧
    f.window.Fits ∧ f.window.sanityCheck ∧
    f.resets [⟨⟨1, 1, 0⟩, ⟨1, 0, 0⟩, false⟩, ⟨⟨0, 0, 0⟩, ⟨0, 0, 0⟩, false⟩, ⟨⟨2, 0, 0⟩, ⟨1, 1, 0⟩, false⟩] = .ok f' ∧
    f'.window = ⟨⟨10, 8, 1⟩, ⟨0, 1, 0⟩, ⟨10, 6, 1⟩⟩ :=
  ⟨⟨⟨10, 8, 1⟩, 0, ⟨10, 8, 1⟩⟩, ⟨⟨⟨10, 8, 1⟩, 0, ⟨10, 8, 1⟩⟩, ⟨⟨10, 8, 1⟩, ⟨2, 1, 0⟩, ⟨7, 5, 1⟩⟩,
    BcInfo.build true true true ⟨1, 0, 0⟩, ⟨⟨2, 1, 0⟩, ⟨1, 2, 0⟩, false⟩, ⟨⟨2, 1, 0⟩, ⟨1, 2, 0⟩, false⟩, false⟩,
   ⟨⟨⟨10, 8, 1⟩, ⟨0, 1, 0⟩, ⟨10, 6, 1⟩⟩, ⟨⟨10, 8, 1⟩, ⟨2, 1, 0⟩, ⟨7, 5, 1⟩⟩,
    BcInfo.build true true true ⟨1, 0, 0⟩, ⟨⟨2, 1, 0⟩, ⟨1, 2, 0⟩, false⟩, ⟨⟨2, 0, 0⟩, ⟨1, 1, 0⟩, false⟩, false⟩,
    by decide⟩

/-! ## C51: windowed views -/

/-- C51. A windowed copy whose window is of the parent's block is accepted only
if the window lies inside that block, and any non-empty such window (with valid
parent ghosts, not single-value) is accepted. Interior iteration is disabled
exactly when the parent's was, or some interior cell is not covered. -/
theorem C51_view (w : Window) (f : FieldGeo) (hn : w.npts = f.window.npts) (hg : f.ghosts.Valid)
    (hi : f.interior.Nonempty) :
    (∀ v, windowCopy false w f = .ok v →
      w.Fits ∧ v.window = w ∧ v.interior = f.interior ∧
      (v.disableInterior = true ↔
        f.disableInterior = true ∨ ¬ ∀ c, f.interior.Covers c → w.Covers c)) ∧
    (w.Fits → w.Nonempty → ∃ v, windowCopy false w f = .ok v) := by
  have hcut : cutsInterior w f.interior ↔ ¬ ∀ c, f.interior.Covers c → w.Covers c := by
    constructor
    · intro h hc
      have h1 := hc f.interior.offset (by iv_omega)
      have h2 := hc (f.interior.offset + f.interior.extent - ⟨1, 1, 1⟩) (by iv_omega)
      unfold cutsInterior at h
      iv_omega
    · intro h
      apply Classical.byContradiction
      intro hnc
      apply h
      intro c hc
      unfold cutsInterior at hnc
      iv_omega
  unfold windowCopy
  rw [GhostData.copy_ok hg, Outcome.ok_bind]
  unfold singleValueCheck
  rw [Outcome.throwIf_false (by simp), Outcome.ok_bind, Outcome.throwIf_false (by simp), Outcome.ok_bind]
  rw [← hn]
  by_cases c1 : w.sanityCheck
  swap
  · rw [Outcome.assert_false c1]
    refine ⟨fun v h => (by cases h), fun h1 h2 => absurd ?_ c1⟩
    unfold Window.sanityCheck; iv_omega
  rw [Outcome.assert_true c1, Outcome.ok_bind]
  by_cases c2 : (w.extent.x + w.offset.x ≤ w.npts.x ∧ w.offset.x < w.npts.x)
  swap
  · rw [Outcome.assert_false c2]
    exact ⟨fun v h => (by cases h), fun h1 h2 => absurd (by iv_omega) c2⟩
  rw [Outcome.assert_true c2, Outcome.ok_bind]
  by_cases c3 : (w.extent.y + w.offset.y ≤ w.npts.y ∧ w.offset.y < w.npts.y)
  swap
  · rw [Outcome.assert_false c3]
    exact ⟨fun v h => (by cases h), fun h1 h2 => absurd (by iv_omega) c3⟩
  rw [Outcome.assert_true c3, Outcome.ok_bind]
  by_cases c4 : (w.extent.z + w.offset.z ≤ w.npts.z ∧ w.offset.z < w.npts.z)
  swap
  · rw [Outcome.assert_false c4]
    exact ⟨fun v h => (by cases h), fun h1 h2 => absurd (by iv_omega) c4⟩
  rw [Outcome.assert_true c4, Outcome.ok_bind]
  refine ⟨fun v h => ?_, fun _ _ => ⟨_, rfl⟩⟩
  injection h with h
  subst h
  refine ⟨by unfold Window.sanityCheck at c1; iv_omega, rfl, rfl, ?_⟩
  rw [← hcut]
  dsimp only
  by_cases cc : cutsInterior w f.interior
  · simp [cc]
  · simp [cc]

/-- C51 deviation: a view whose window belongs to a different (larger) block is
accepted too, so its cells are addressed with the wrong strides. -/
theorem C51_block_mismatch_accepted :
    ∃ (w : Window) (f v : FieldGeo), f.window = ⟨⟨4, 4, 1⟩, 0, ⟨4, 4, 1⟩⟩ ∧ windowCopy false w f = .ok v ∧
      v.window.npts ≠ f.window.npts ∧
      ∃ c a, InBlock v.window.extent c ∧ v.window.flatIndex c = .ok a ∧ f.window.globNpts ≤ a :=
  ⟨⟨⟨6, 4, 1⟩, 0, ⟨4, 4, 1⟩⟩, ⟨⟨⟨4, 4, 1⟩, 0, ⟨4, 4, 1⟩⟩, ⟨⟨4, 4, 1⟩, 0, ⟨4, 4, 1⟩⟩, BcInfo.build false false false 0,
      ⟨0, 0, false⟩, ⟨0, 0, false⟩, false⟩,
    ⟨⟨⟨6, 4, 1⟩, 0, ⟨4, 4, 1⟩⟩, ⟨⟨4, 4, 1⟩, 0, ⟨4, 4, 1⟩⟩, BcInfo.build false false false 0,
      ⟨0, 0, false⟩, ⟨0, 0, false⟩, false⟩, rfl, by decide, by decide, ⟨3, 3, 0⟩, 21, by decide⟩

example : ∃ (w : Window) (f : FieldGeo), w.npts = f.window.npts ∧ f.ghosts.Valid ∧ f.interior.Nonempty ∧
    ∃ v, windowCopy false w f = .ok v ∧ v.disableInterior = true :=
  ⟨⟨⟨6, 6, 1⟩, ⟨2, 1, 0⟩, ⟨3, 4, 1⟩⟩, ⟨⟨⟨6, 6, 1⟩, 0, ⟨6, 6, 1⟩⟩, ⟨⟨6, 6, 1⟩, ⟨1, 1, 0⟩, ⟨4, 4, 1⟩⟩,
      BcInfo.build false false false 0, ⟨⟨1, 1, 0⟩, ⟨1, 1, 0⟩, false⟩, ⟨⟨1, 1, 0⟩, ⟨1, 1, 0⟩, false⟩, false⟩,
    by decide, by decide, by decide, _, rfl, rfl⟩

/-! ## C52: single-value fields -/

/-- C52 is false of the code: a single-value field with two cells is accepted
(the check needs all three extents to exceed one), and likewise one ghost. -/
theorem C52_single_value_not_enforced :
    ∃ (w : Window) (g : GhostData) (f : FieldGeo),
      FieldGeo.ctor true w (BcInfo.build false false false 0) g = .ok f ∧ f.window.localNpts = 15 ∧
      g.minus ≠ 0 :=
  ⟨⟨⟨5, 3, 1⟩, 0, ⟨5, 3, 1⟩⟩, ⟨⟨1, 0, 0⟩, ⟨1, 0, 0⟩, false⟩, _, rfl, rfl, by decide⟩

/-- C52 (partial). What is enforced: a single-value field never exceeds one cell
in all three directions at once, and never has ghosts on all six faces. Missing
from the full claim: one cell and no ghosts in every direction. -/
theorem C52_single_value_partial (w : Window) (bc : BcInfo) (g : GhostData) (f : FieldGeo)
    (h : FieldGeo.ctor true w bc g = .ok f) :
    (f.window.extent.x ≤ 1 ∨ f.window.extent.y ≤ 1 ∨ f.window.extent.z ≤ 1) ∧
    ¬ (IntVec.Lt 0 g.minus ∧ IntVec.Lt 0 g.plus) := by
  unfold FieldGeo.ctor at h
  by_cases d : IntVec.Le 0 g.minus ∧ IntVec.Le 0 g.plus
  swap
  · unfold GhostData.copy at h; rw [GhostData.checkValid_abort d] at h; cases h
  rw [GhostData.copy_ok d, Outcome.ok_bind] at h
  unfold singleValueCheck at h
  by_cases c1 : (true = true ∧ 1 < w.extent.x ∧ 1 < w.extent.y ∧ 1 < w.extent.z)
  · rw [Outcome.throwIf_true c1] at h; cases h
  rw [Outcome.throwIf_false c1, Outcome.ok_bind] at h
  by_cases c2 : (true = true ∧ 0 < g.minus.x ∧ 0 < g.minus.y ∧ 0 < g.minus.z ∧
    0 < g.plus.x ∧ 0 < g.plus.y ∧ 0 < g.plus.z)
  · rw [Outcome.throwIf_true c2] at h; cases h
  rw [Outcome.throwIf_false c2, Outcome.ok_bind] at h
  have hw : f.window = w := by
    generalize ho : IntVec.mk (interiorOfs1 w.extent.x w.offset.x g.minus.x)
      (interiorOfs1 w.extent.y w.offset.y g.minus.y) (interiorOfs1 w.extent.z w.offset.z g.minus.z) = o at h
    generalize hE : IntVec.mk (interiorExt1 w.extent.x g.minus.x g.plus.x)
      (interiorExt1 w.extent.y g.minus.y g.plus.y) (interiorExt1 w.extent.z g.minus.z g.plus.z) = E at h
    by_cases c : Window.sanityCheck ⟨w.npts, o, E⟩
    · rw [Window.make_ok c] at h
      injection h with h; subst h; rfl
    · rw [Window.make_abort c] at h; cases h
  rw [hw]
  simp only [true_and] at c1 c2
  refine ⟨by omega, ?_⟩
  iv_omega

end SpatialOps
