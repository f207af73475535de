import Verif.Mask.Lemmas
import Verif.Geometry.Props

/-!
# Properties C11, C12: masks
-/

namespace SpatialOps

/-! ## C11 -/

/-- C11. If the ghosted region fits in the block and all points lie in it, the
mask is built, and it answers true exactly at the listed points, for every index
of the region; an index outside the region fails an assertion. (No undefined
access happens: those would be the outcome `ub`.) -/
theorem C11_mask_is_point_list (w : Window) (g : GhostData) (hf : GhostedFits w g)
    (points : List IntVec) (hin : ∀ p ∈ points, InGhosted w g p) :
    ∃ m, BitField.build points w g = .ok m ∧
      (∀ p, InGhosted w g p → m.query p = .ok (decide (p ∈ points))) ∧
      (∀ p, ¬ InGhosted w g p → m.query p = .abort) := by
  obtain ⟨m, e, hm, hb⟩ := BitField.build_eq hf points hin
  refine ⟨m, e, fun p hp => ?_, fun p hp => ?_⟩
  · have hc := BitField.cell_inBlock hf hp
    rw [BitField.query_eq hm hf hp, hb _ (fortranPos_bound hc).1]
    congr 1
    rw [decide_eq_decide]
    constructor
    · rintro ⟨q, hq, hpos⟩
      have := fortranPos_inj hc (BitField.cell_inBlock hf (hin q hq)) hpos
      have hpq : p = q := by
        unfold BitField.cellOf at this
        have h1 := congrArg IntVec.x this
        have h2 := congrArg IntVec.y this
        have h3 := congrArg IntVec.z this
        simp only [IntVec.add_x, IntVec.add_y, IntVec.add_z] at h1 h2 h3
        ext <;> omega
      rw [hpq]; exact hq
    · intro h; exact ⟨p, h, rfl⟩
  · unfold BitField.query
    rw [BitField.findPosition_abort (by rw [hm.win, hm.gh]; exact hp)]
    rfl

/-- C11. A point outside the region makes the construction fail an assertion. -/
theorem C11_outside_point_rejected (w : Window) (g : GhostData) (hf : GhostedFits w g)
    (points : List IntVec) (h : ∃ p ∈ points, ¬ InGhosted w g p) :
    BitField.build points w g = .abort := by
  unfold BitField.build
  rw [GhostData.copy_ok hf.2.2.2]
  exact BitField.addPoints_abort hf points (BitField.build_wf w g) h

/-- C11. The hypothesis holds for the mask of any field whose window lies in its
allocation and is its interior grown by its valid ghosts (C09, C10). -/
theorem C11_field_mask_region (f : FieldGeo) (hw : f.window.Fits) (hg : f.GrownBy f.validGhosts)
    (hv : f.validGhosts.Valid) : GhostedFits f.interior f.validGhosts := by
  obtain ⟨h1, h2, h3⟩ := hg
  rw [Window.Fits, h1, h2, h3] at hw
  unfold GhostedFits
  refine ⟨?_, ?_, ?_, hv⟩ <;> iv_omega

/-- C11 deviation: with ghosts requested in an inactive direction, an index that
passes the assertions reads outside the words. -/
theorem C11_inactive_direction_out_of_bounds :
    ∃ w f m, getWindowWithGhost ⟨8, 8, 1⟩ ⟨⟨1, 1, 1⟩, ⟨1, 1, 1⟩, false⟩ (BcInfo.build false false false 0) = .ok w ∧
      FieldGeo.ctor false w (BcInfo.build false false false 0) ⟨⟨1, 1, 1⟩, ⟨1, 1, 1⟩, false⟩ = .ok f ∧
      spatialMask f [] = .ok m ∧ InGhosted f.interior f.validGhosts ⟨0, 0, -1⟩ ∧ m.query ⟨0, 0, -1⟩ = .ub :=
  ⟨⟨⟨10, 10, 1⟩, 0, ⟨10, 10, 1⟩⟩, ⟨⟨⟨10, 10, 1⟩, 0, ⟨10, 10, 1⟩⟩, ⟨⟨10, 10, 1⟩, ⟨1, 1, 0⟩, ⟨8, 8, 1⟩⟩,
    BcInfo.build false false false 0, ⟨⟨1, 1, 1⟩, ⟨1, 1, 1⟩, false⟩, ⟨⟨1, 1, 1⟩, ⟨1, 1, 1⟩, false⟩, false⟩,
    _, by decide, by decide, rfl, by decide, rfl⟩

/-- C11 deviation: likewise two different indices share one bit, so the mask
answers true at an index that is not in the list. -/
theorem C11_inactive_direction_aliases :
    ∃ w f m, getWindowWithGhost ⟨8, 1, 8⟩ ⟨⟨1, 1, 1⟩, ⟨1, 1, 1⟩, false⟩ (BcInfo.build false false false 0) = .ok w ∧
      FieldGeo.ctor false w (BcInfo.build false false false 0) ⟨⟨1, 1, 1⟩, ⟨1, 1, 1⟩, false⟩ = .ok f ∧
      spatialMask f [⟨0, 0, 1⟩] = .ok m ∧ InGhosted f.interior f.validGhosts ⟨0, 1, 0⟩ ∧
      m.query ⟨0, 1, 0⟩ = .ok true := by
  refine ⟨⟨⟨10, 1, 10⟩, 0, ⟨10, 1, 10⟩⟩, ⟨⟨⟨10, 1, 10⟩, 0, ⟨10, 1, 10⟩⟩, ⟨⟨10, 1, 10⟩, ⟨1, 0, 1⟩, ⟨8, 1, 8⟩⟩,
    BcInfo.build false false false 0, ⟨⟨1, 1, 1⟩, ⟨1, 1, 1⟩, false⟩, ⟨⟨1, 1, 1⟩, ⟨1, 1, 1⟩, false⟩, false⟩,
    _, by decide, by decide, rfl, by decide, ?_⟩
  decide

example : ∃ (w : Window) (g : GhostData), GhostedFits w g ∧
    (∀ p ∈ [(⟨-1, -1, 0⟩ : IntVec), ⟨3, 4, 0⟩, ⟨3, 4, 0⟩], InGhosted w g p) ∧ ¬ InGhosted w g ⟨5, 0, 0⟩ :=
  ⟨⟨⟨6, 7, 1⟩, ⟨1, 1, 0⟩, ⟨4, 5, 1⟩⟩, ⟨⟨1, 1, 0⟩, ⟨1, 1, 0⟩, false⟩, by decide⟩

/-! ## C12 -/

theorem maskIt_unique {i j : MaskIt} (h : i.toIt = j.toIt) (hs : i.size = j.size) (hi : i.Norm)
    (hj : j.Norm) (h0 : 0 ≤ i.toIt.current) : i = j := by
  have hc : i.toIt.current = j.toIt.current := by rw [h]
  rcases hi with hi | hi
  · rcases hj with hj | hj
    · cases i; cases j
      simp only [MaskIt.toIt, It.mk.injEq] at *
      simp only [MaskIt.mk.injEq]
      omega
    · omega
  · omega

theorem canon_current_nonneg {w : Window} (hw : w.Fits) {x y z : Int} (hp : It.Pos w x y z) :
    0 ≤ (It.canon 0 w x y z).current := by
  obtain ⟨⟨h1, h2, h3⟩, ⟨h4, h5, h6⟩, -, -⟩ := hw
  simp only [IntVec.zero_x, IntVec.zero_y, IntVec.zero_z] at *
  obtain ⟨p1, p2, p3, p4, p5, p6⟩ := hp
  unfold It.canon fortranPos
  simp only
  positivity

/-- C12 (movement). Any in-range history of `++`, `--`, `+=`, `-=` on a mask
iterator leaves exactly the state reached by plain increments; it compares equal
to `end()` exactly when it is at the end; differences count steps. -/
theorem C12_history_independent (w : Window) (hw : w.Fits) (he : w.Nonempty) (ops : List It.Op)
    (h : It.StaysIn w.localNpts 0 ops) :
    ∃ it fin, (MaskIt.start w).run ops = .ok it ∧
      (MaskIt.start w).run (List.replicate (It.endPos 0 ops).toNat .inc) = .ok it ∧
      MaskIt.finish w = .ok fin ∧ (it.eqOp fin = true ↔ It.endPos 0 ops = w.localNpts) ∧
      fin.diff it = w.localNpts - It.endPos 0 ops := by
  have he' := he
  obtain ⟨e0, e1, e2⟩ := he
  simp only [IntVec.zero_x, IntVec.zero_y, IntVec.zero_z] at e0 e1 e2
  have hN : (0:Int) ≤ w.localNpts := by unfold Window.localNpts; positivity
  have hb := endPos_bounds ops 0 ⟨le_refl _, hN⟩ h
  obtain ⟨x, y, z, hp, hr, hc⟩ := run_from_start he' 0 ops h
  obtain ⟨x', y', z', hp', hr', hc'⟩ := run_from_start he' 0
    (List.replicate (It.endPos 0 ops).toNat It.Op.inc)
    (staysIn_replicate_inc (n := w.localNpts) _ (k := 0) (by omega) (by omega))
  rw [endPos_replicate_inc] at hc'
  obtain ⟨rfl, rfl, rfl⟩ := It.pos_unique hp hp' (by omega)
  obtain ⟨x', y', z', hpf, hrf, hcf⟩ := run_from_start he' 0 [It.Op.add w.localNpts]
    ⟨⟨by simp only [It.Op.delta]; omega, by simp only [It.Op.delta]; omega⟩, trivial⟩
  simp only [It.endPos, It.Op.delta, Int.zero_add] at hcf
  rw [← MaskIt.toIt_start] at hr hr' hrf
  obtain ⟨k, r1, t1, n1, s1⟩ := MaskIt.toIt_run _ _ (MaskIt.norm_start hw) hr
  obtain ⟨k', r2, t2, n2, s2⟩ := MaskIt.toIt_run _ _ (MaskIt.norm_start hw) hr'
  obtain ⟨k3, r3, t3, n3, s3⟩ := MaskIt.toIt_run _ _ (MaskIt.norm_start hw) hrf
  have hkk : k = k' := maskIt_unique (by rw [t1, t2]) (by rw [s1, s2]) n1 n2
    (by rw [t1]; exact canon_current_nonneg hw hp)
  subst hkk
  have hfin : MaskIt.finish w = .ok k3 := by
    unfold MaskIt.finish
    simp only [MaskIt.run, MaskIt.step] at r3
    unfold Window.localNpts at r3
    cases hA : (MaskIt.start w).addAssign (w.extent.x * w.extent.y * w.extent.z) with
    | ok j => rw [hA] at r3; simpa using r3
    | abort => rw [hA] at r3; cases r3
    | throws => rw [hA] at r3; cases r3
    | ub => rw [hA] at r3; cases r3
  have hk : k.count = It.endPos 0 ops := by
    have := congrArg It.count t1
    simp only [MaskIt.toIt, It.canon] at this
    omega
  have hk3 : k3.count = w.localNpts := by
    have := congrArg It.count t3
    simp only [MaskIt.toIt, It.canon] at this
    omega
  refine ⟨k, k3, r1, r2, hfin, ?_, ?_⟩
  · unfold MaskIt.eqOp
    rw [decide_eq_true_eq, hk, hk3]
  · unfold MaskIt.diff; rw [hk, hk3]

/-- After any in-range history the mask iterator reads the bit of the cell at that
position, and refuses to be read at the end. -/
theorem MaskIt.run_deref (words : Int → BitVec 32) {v : Window} (hv : v.Fits) (he : v.Nonempty)
    (ops : List It.Op) (h : It.StaysIn v.localNpts 0 ops) :
    ∃ it, (MaskIt.start v).run ops = .ok it ∧
      (It.endPos 0 ops < v.localNpts → ∃ loc, IsNthCell v.extent (It.endPos 0 ops) loc ∧
        it.deref words = .ok (bitAt words (fortranPos v.npts (v.offset + loc))) ∧
        0 ≤ it.block ∧ it.block < roundToInt v.globNpts) ∧
      (It.endPos 0 ops = v.localNpts → it.deref words = .throws) := by
  obtain ⟨x, y, z, hp, hr, hc⟩ := run_from_start he 0 ops h
  rw [← MaskIt.toIt_start] at hr
  obtain ⟨k, r1, t1, n1, s1⟩ := MaskIt.toIt_run _ _ (MaskIt.norm_start hv) hr
  have hcur := canon_current_nonneg hv hp
  have hlt := hp.lt_iff
  refine ⟨k, r1, fun hl => ?_, fun hl => ?_⟩
  · have hz : z < v.extent.z := hlt.1 (by unfold Window.localNpts at hl; omega)
    have hbk : InBlock v.extent ⟨x, y, z⟩ :=
      ⟨⟨hp.1, hp.2.2.1, hp.2.2.2.2.1⟩, ⟨hp.2.1, hp.2.2.2.1, hz⟩⟩
    refine ⟨⟨x, y, z⟩, ⟨hbk, by unfold fortranPos; simp only; omega⟩, ?_⟩
    · have hcell : InBlock v.npts (v.offset + ⟨x, y, z⟩) := by iv_omega
      have hpos := fortranPos_bound hcell
      have hflat : k.block * 32 + k.bit = fortranPos v.npts (v.offset + ⟨x, y, z⟩) := by
        have := congrArg It.current t1
        simp only [MaskIt.toIt, It.canon] at this
        rw [this]; unfold fortranPos
        simp only [IntVec.add_x, IntVec.add_y, IntVec.add_z]; ring
      have hbit : 0 ≤ k.bit ∧ k.bit < 32 := by
        rcases n1 with h | h
        · exact h
        · rw [t1] at h; omega
      have hblk : k.block = (fortranPos v.npts (v.offset + ⟨x, y, z⟩)).tdiv 32 ∧
          k.bit = (fortranPos v.npts (v.offset + ⟨x, y, z⟩)).tmod 32 := by
        rw [Int.tdiv_eq_ediv_of_nonneg hpos.1, Int.tmod_eq_emod_of_nonneg hpos.1]; omega
      have hrd := roundToInt_bound (n := v.globNpts) hpos.1 hpos.2
      have hsz : k.size = roundToInt v.globNpts := by rw [s1]; rfl
      have hx1 : k.xIndex = x ∧ k.yIndex = y ∧ k.zIndex = z ∧
          k.count = x + v.extent.x * (y + v.extent.y * z) ∧ k.xExtent = v.extent.x ∧
          k.yExtent = v.extent.y ∧ k.zExtent = v.extent.z ∧ k.xyExtent = v.extent.x * v.extent.y := by
        simp only [MaskIt.toIt, It.canon, It.start, It.mk.injEq] at t1
        omega
      obtain ⟨q1, q2, q3, q4, q5, q6, q7, q8⟩ := hx1
      refine ⟨?_, by omega, by omega⟩
      unfold MaskIt.deref
      obtain ⟨p1, p2, p3, p4, p5, p6⟩ := hp
      rw [Outcome.throwIf_false (by omega), Outcome.ok_bind, hsz, Outcome.throwIf_false (by omega),
        Outcome.ok_bind, q1, q2, q3, q4, q5, q6, q7, q8,
        Outcome.throwIf_false (by simp only [not_not]; ring), Outcome.ok_bind,
        Outcome.throwIf_false (by omega), Outcome.ok_bind]
      simp only [Outcome.pure_eq]
      rw [bit_test _ _ (by omega), hblk.1, hblk.2]
      rfl
  · have hz : ¬ z < v.extent.z := fun hz => by
      have := hlt.2 hz; unfold Window.localNpts at hl; omega
    have hx1 : k.zIndex = z ∧ k.zExtent = v.extent.z := by
      simp only [MaskIt.toIt, It.canon, It.start, It.mk.injEq] at t1
      omega
    unfold MaskIt.deref
    by_cases c1 : (k.bit < 0 ∨ 32 ≤ k.bit)
    · rw [Outcome.throwIf_true c1]; rfl
    by_cases c2 : (k.block < 0 ∨ k.size ≤ k.block)
    · rw [Outcome.throwIf_false c1, Outcome.ok_bind, Outcome.throwIf_true c2]; rfl
    by_cases c3 : (k.count ≠ k.xIndex + k.yIndex * k.xExtent + k.zIndex * k.xyExtent)
    · rw [Outcome.throwIf_false c1, Outcome.ok_bind, Outcome.throwIf_false c2, Outcome.ok_bind,
        Outcome.throwIf_true c3]; rfl
    rw [Outcome.throwIf_false c1, Outcome.ok_bind, Outcome.throwIf_false c2, Outcome.ok_bind,
      Outcome.throwIf_false c3, Outcome.ok_bind, Outcome.throwIf_true]
    · rfl
    · omega


/-- C12 (values). For a mask built from `points` and any window of the same
block: after any in-range history the iterator reads the mask value of the cell
at that position (the same cell the field iterator visits, C04/C05), and at the
end it refuses to be read. -/
theorem C12_iteration_values (w : Window) (g : GhostData) (hf : GhostedFits w g)
    (points : List IntVec) (hin : ∀ p ∈ points, InGhosted w g p)
    (v : Window) (hv : v.Fits) (he : v.Nonempty) (hn : v.npts = w.npts)
    (ops : List It.Op) (h : It.StaysIn v.localNpts 0 ops) :
    ∃ m it, BitField.build points w g = .ok m ∧ (MaskIt.start v).run ops = .ok it ∧
      (It.endPos 0 ops < v.localNpts → ∃ loc, IsNthCell v.extent (It.endPos 0 ops) loc ∧
        it.deref m.words = .ok (decide (∃ p ∈ points, w.offset + p = v.offset + loc))) ∧
      (It.endPos 0 ops = v.localNpts → it.deref m.words = .throws) := by
  obtain ⟨m, e, hm, hb⟩ := BitField.build_eq hf points hin
  obtain ⟨it, r, hval, hend⟩ := MaskIt.run_deref m.words hv he ops h
  refine ⟨m, it, e, r, fun hl => ?_, hend⟩
  obtain ⟨loc, hn', hd, -⟩ := hval hl
  have hcell : InBlock w.npts (v.offset + loc) := by
    have := hn'.1; rw [← hn]; iv_omega
  refine ⟨loc, hn', ?_⟩
  rw [hd, hn, hb _ (fortranPos_bound hcell).1]
  congr 1
  rw [decide_eq_decide]
  constructor
  · rintro ⟨q, hq, hh⟩
    exact ⟨q, hq, (fortranPos_inj hcell (BitField.cell_inBlock hf (hin q hq)) hh).symm⟩
  · rintro ⟨q, hq, hh⟩
    refine ⟨q, hq, ?_⟩
    unfold BitField.cellOf
    rw [hh]

/-- C12 (agreement with indexing). Where the visited cell lies in the mask's own
region, the iterator and `operator()` give the same answer. -/
theorem C12_iteration_agrees_with_query (w : Window) (g : GhostData) (hf : GhostedFits w g)
    (points : List IntVec) (hin : ∀ p ∈ points, InGhosted w g p)
    (v : Window) (hv : v.Fits) (he : v.Nonempty) (hn : v.npts = w.npts)
    (k : Nat) (hk : (k : Int) < v.localNpts) :
    ∃ m it loc, BitField.build points w g = .ok m ∧
      (MaskIt.start v).run (List.replicate k .inc) = .ok it ∧ IsNthCell v.extent k loc ∧
      (InGhosted w g (v.offset + loc - w.offset) →
        it.deref m.words = m.query (v.offset + loc - w.offset)) := by
  have hs := staysIn_replicate_inc (n := v.localNpts) k (k := 0) (by omega) (by omega)
  obtain ⟨m, it, e, r, hval, _⟩ := C12_iteration_values w g hf points hin v hv he hn _ hs
  rw [endPos_replicate_inc, Int.zero_add] at hval
  obtain ⟨loc, hl, hd⟩ := hval hk
  refine ⟨m, it, loc, e, r, hl, fun hg => ?_⟩
  obtain ⟨m', e', hq, _⟩ := C11_mask_is_point_list w g hf points hin
  rw [e] at e'
  injection e' with e'
  subst e'
  rw [hd, hq _ hg]
  congr 1
  rw [decide_eq_decide]
  have hsub : ∀ p : IntVec, w.offset + p = v.offset + loc ↔ p = v.offset + loc - w.offset := by
    intro p
    constructor
    · intro h; rw [← h]; ext <;> simp
    · intro h; rw [h]; ext <;> simp
  constructor
  · rintro ⟨p, hp, h⟩; rw [← (hsub p).1 h]; exact hp
  · intro h; exact ⟨_, h, (hsub _).2 rfl⟩

example : ∃ (w v : Window) (g : GhostData), GhostedFits w g ∧ v.Fits ∧ v.Nonempty ∧ v.npts = w.npts ∧
    (∀ p ∈ [(⟨-1, -1, 0⟩ : IntVec), ⟨3, 4, 2⟩], InGhosted w g p) ∧ v.localNpts = 120 :=
  ⟨⟨⟨6, 7, 5⟩, ⟨1, 1, 1⟩, ⟨4, 5, 3⟩⟩, ⟨⟨6, 7, 5⟩, ⟨0, 1, 0⟩, ⟨6, 4, 5⟩⟩, ⟨⟨1, 1, 1⟩, ⟨1, 1, 1⟩, false⟩,
    by decide, by decide, by decide, by decide, by decide, by decide⟩

/-- C12 (mask of a field). A mask built on a field from points counted from the
field's interior is true exactly at those points: traversing the field's window,
position `k` reads true iff its cell, counted from the interior, is in the list. -/
theorem C12_field_mask_iteration (f : FieldGeo) (hw : f.window.Fits) (hg : f.GrownBy f.validGhosts)
    (hv : f.validGhosts.Valid) (he : f.window.Nonempty) (points : List IntVec)
    (hin : ∀ p ∈ points, InGhosted f.interior f.validGhosts p) :
    ∃ m, spatialMask f points = .ok m ∧ ∀ (k : Nat) (loc : IntVec), IsNthCell f.window.extent k loc →
      ∃ it, (MaskIt.start f.window).run (List.replicate k .inc) = .ok it ∧
        it.deref m.words = .ok (decide (f.window.offset + loc - f.interior.offset ∈ points)) := by
  have hf := C11_field_mask_region f hw hg hv
  obtain ⟨m, e, -, -⟩ := BitField.build_eq hf points hin
  refine ⟨m, e, fun k loc hl => ?_⟩
  have hk : (k : Int) < f.window.localNpts := by
    rw [← hl.2]; exact (fortranPos_bound hl.1).2
  have hs := staysIn_replicate_inc (n := f.window.localNpts) k (k := 0) (by omega) (by omega)
  obtain ⟨m', it, e', r, hval, _⟩ :=
    C12_iteration_values f.interior f.validGhosts hf points hin f.window hw he hg.1 _ hs
  rw [e] at e'
  injection e' with e'
  subst e'
  rw [endPos_replicate_inc, Int.zero_add] at hval
  obtain ⟨loc', hl', hd⟩ := hval hk
  have hll : loc' = loc := fortranPos_inj hl'.1 hl.1 (hl'.2.trans hl.2.symm)
  subst hll
  refine ⟨it, r, ?_⟩
  rw [hd]
  congr 1
  rw [decide_eq_decide]
  have hsub : ∀ p : IntVec, f.interior.offset + p = f.window.offset + loc' ↔
      p = f.window.offset + loc' - f.interior.offset := by
    intro p
    constructor
    · intro h; rw [← h]; ext <;> simp
    · intro h; rw [h]; ext <;> simp
  constructor
  · rintro ⟨p, hp, h⟩; rw [← (hsub p).1 h]; exact hp
  · intro h; exact ⟨_, h, (hsub _).2 rfl⟩

example : ∃ f : FieldGeo, f.window.Fits ∧ f.GrownBy f.validGhosts ∧ f.validGhosts.Valid ∧ f.window.Nonempty ∧
    InGhosted f.interior f.validGhosts ⟨-1, 5, 0⟩ :=
  ⟨⟨⟨⟨6, 7, 1⟩, 0, ⟨6, 7, 1⟩⟩, ⟨⟨6, 7, 1⟩, ⟨1, 1, 0⟩, ⟨4, 5, 1⟩⟩, BcInfo.build false false false 0,
    ⟨⟨1, 1, 0⟩, ⟨1, 1, 0⟩, false⟩, ⟨⟨1, 1, 0⟩, ⟨1, 1, 0⟩, false⟩, false⟩,
    by decide, by unfold FieldGeo.GrownBy; decide, by decide, by decide, by decide⟩

end SpatialOps
