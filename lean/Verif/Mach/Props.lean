import Verif.Mach.Lemmas
import Verif.Iter.Props
import Verif.Mask.Props

/-!
# Property C71: index arithmetic in machine integers
-/

namespace SpatialOps
open Mach

/-- C71 (index maps). For a block with positive dimensions and at most `intMax`
cells, `ijk_to_flat` and `flat_to_ijk` end for every argument exactly as they do
with unbounded integers: same result, same rejected assertion, no overflow. -/
theorem C71_index_maps (d : IntVec) (hd : IntVec.Lt 0 d) (hc : d.CountFits) :
    (∀ c, Mach.ijkToFlat d c = SpatialOps.ijkToFlat d c) ∧
    (∀ i, Mach.flatToIjk d i = SpatialOps.flatToIjk d i) := by
  obtain ⟨d1, d2, d3⟩ := hd
  simp only [IntVec.zero_x, IntVec.zero_y, IntVec.zero_z] at d1 d2 d3
  have b : Bounds ⟨d, 0, 0⟩ := by
    refine ⟨d1, d2, d3, ?_, ?_, ?_, ?_, ?_, ?_, ?_, ?_, ?_, hc⟩ <;> simp <;> omega
  have xy : d.x * d.y ≤ intMax := b.xy_le
  have all : d.x * d.y * d.z ≤ intMax := b.all
  have pxy : 0 < d.x * d.y := by positivity
  have pall : 0 < d.x * d.y * d.z := by positivity
  constructor
  · intro c
    by_cases h : InBlock d c
    · obtain ⟨⟨a1, a2⟩, ⟨a3, a4⟩, ⟨a5, a6⟩, ⟨a7, a8⟩, _⟩ := C01_ijkToFlat_intermediates d c h
      have hb := fortranPos_bound h
      have hf : c.x + c.y * d.x + c.z * d.x * d.y = fortranPos d c := by unfold fortranPos; ring
      rw [ijkToFlat_eq_ok h]
      obtain ⟨⟨h1, h2, h3⟩, h4⟩ := h
      unfold Mach.ijkToFlat
      rw [Outcome.assert_true (p := c.x < d.x ∧ c.y < d.y ∧ c.z < d.z) h4, Outcome.ok_bind,
        Outcome.assert_true (p := 0 ≤ c.x ∧ 0 ≤ c.y ∧ 0 ≤ c.z) ⟨h1, h2, h3⟩, Outcome.ok_bind,
        mul_ok (fit_of a1 (by omega)), Outcome.ok_bind, add_ok (fit_of a7 (by omega)),
        Outcome.ok_bind, mul_ok (fit_of a3 (by omega)), Outcome.ok_bind,
        mul_ok (fit_of a5 (by omega)), Outcome.ok_bind, add_ok (fit_of (by omega) (by omega)), hf]
    · rw [ijkToFlat_eq_abort h]
      unfold Mach.ijkToFlat
      by_cases h1 : c.x < d.x ∧ c.y < d.y ∧ c.z < d.z
      · rw [Outcome.assert_true h1, Outcome.ok_bind, Outcome.assert_false, Outcome.abort_bind]
        intro h2
        exact h ⟨⟨h2.1, h2.2.1, h2.2.2⟩, h1⟩
      · rw [Outcome.assert_false h1, Outcome.abort_bind]
  · intro i
    unfold Mach.flatToIjk SpatialOps.flatToIjk
    by_cases h0 : 0 ≤ i
    · rw [Outcome.assert_true h0, Outcome.ok_bind, Outcome.ok_bind, mul_ok (fit_of pxy.le xy),
        Outcome.ok_bind, mul_ok (fit_of pall.le all), Outcome.ok_bind]
      by_cases h1 : i < d.x * d.y * d.z
      · have fi : Fit i := fit_of h0 (by omega)
        have hq : 0 ≤ i.tdiv d.x := by
          rw [Int.tdiv_eq_ediv_of_nonneg h0]; exact Int.ediv_nonneg h0 d1.le
        rw [Outcome.assert_true h1, Outcome.ok_bind, Outcome.ok_bind, mod_ok h0 d1 fi,
          Outcome.ok_bind, div_ok h0 d1 fi, Outcome.ok_bind, mod_ok hq d2 (tdiv_fit h0 d1 fi),
          Outcome.ok_bind, div_ok h0 pxy fi, Outcome.ok_bind]
      · rw [Outcome.assert_false h1, Outcome.abort_bind, Outcome.abort_bind]
    · rw [Outcome.assert_false h0, Outcome.abort_bind, Outcome.abort_bind]

/-- C71 (windows). For a window that fits in its block of at most `intMax`
cells: `glob_npts()` and `local_npts()` are the true numbers of cells, and
`flat_index` gives the true position for every cell of the window. For other
locations that are not so large that adding the dimensions overflows, it ends as with unbounded integers. -/
theorem C71_window (w : Window) (hw : w.Fits) (hc : w.npts.CountFits) :
    Mach.globNpts w = .ok (w.npts.x * w.npts.y * w.npts.z) ∧
    Mach.localNpts w = .ok (w.extent.x * w.extent.y * w.extent.z) ∧
    (∀ c, InBlock w.extent c → Mach.flatIndex w c = .ok (fortranPos w.npts (w.offset + c))) ∧
    ∀ c : IntVec, c.IsInt → (c + w.npts).IsInt → Mach.flatIndex w c = w.flatIndex c := by
  have b := bounds hw hc
  have general : ∀ c : IntVec, c.IsInt → (c + w.npts).IsInt → Mach.flatIndex w c = w.flatIndex c := by
    rintro c ⟨⟨a1, a2⟩, ⟨a3, a4⟩, ⟨a5, a6⟩⟩ ⟨⟨a7, a8⟩, ⟨a9, a10⟩, ⟨a11, a12⟩⟩
    simp only [IntVec.add_x, IntVec.add_y, IntVec.add_z] at a7 a8 a9 a10 a11 a12
    have o1 := b.ox; have o2 := b.oy; have o3 := b.oz
    have s1 := b.sx; have s2 := b.sy; have s3 := b.szz
    have e1 := b.ex; have e2 := b.ey; have e3 := b.ez
    have sh : ∀ {n l o : Int}, 0 ≤ o → o ≤ n → -2147483648 ≤ l → l + n ≤ 2147483647 →
        shift1 n l o = .ok (if 1 < n then l + o else 0) := by
      intro n l o h0 h1 h2 h3
      unfold shift1
      split
      · exact add_ok ⟨by omega, by omega⟩
      · rfl
    unfold Mach.flatIndex Window.flatIndex
    rw [sh o1 (by omega) a1 a8, sh o2 (by omega) a3 a10, sh o3 (by omega) a5 a12]
    simp only [Outcome.ok_bind, (C71_index_maps w.npts hw.1 hc).1]
  refine ⟨globNpts_eq b, localNpts_eq b, fun c hcb => ?_, general⟩
  obtain ⟨e, hin⟩ := Window.flatIndex_eq_ok hw hcb
  have hcomm : w.offset + c = c + w.offset := by ext <;> simp <;> ring
  have hl : IntVec.Lt 0 w.npts := hw.1
  have hm := (C71_index_maps w.npts hl hc).1
  have x1 := b.x_le; have x2 := b.y_le; have x3 := b.z_le
  have o1 := b.ox; have o2 := b.oy; have o3 := b.oz
  have sh : ∀ {n l o : Int}, 0 < n → 0 ≤ l → 0 ≤ o → l + o < n → n ≤ intMax →
      shift1 n l o = .ok (l + o) := by
    intro n l o h0 h1 h2 h3 h4
    unfold shift1
    split
    · exact add_ok (fit_of (by omega) (by omega))
    · congr 1; omega
  have hh := hin
  obtain ⟨⟨i1, i2, i3⟩, ⟨i4, i5, i6⟩⟩ := hin
  obtain ⟨⟨j1, j2, j3⟩, ⟨j4, j5, j6⟩⟩ := hcb
  simp only [IntVec.zero_x, IntVec.zero_y, IntVec.zero_z, IntVec.add_x, IntVec.add_y,
    IntVec.add_z] at i1 i2 i3 i4 i5 i6 j1 j2 j3 j4 j5 j6
  have s1 := b.sx; have s2 := b.sy; have s3 := b.szz
  unfold Mach.flatIndex
  rw [Outcome.assert_true (fun _ => by omega), Outcome.ok_bind,
    Outcome.assert_true (fun _ => by omega), Outcome.ok_bind,
    Outcome.assert_true (fun _ => by omega), Outcome.ok_bind,
    sh b.nx j1 o1 (by omega) x1, Outcome.ok_bind, sh b.ny j2 o2 (by omega) x2, Outcome.ok_bind,
    sh b.nz j3 o3 (by omega) x3, Outcome.ok_bind, hm]
  have : (⟨c.x + w.offset.x, c.y + w.offset.y, c.z + w.offset.z⟩ : IntVec) = w.offset + c := by
    rw [hcomm]; rfl
  rw [this]
  apply ijkToFlat_eq_ok
  simp only [InBlock, IntVec.Le, IntVec.Lt, IntVec.add_x, IntVec.add_y, IntVec.add_z,
    IntVec.zero_x, IntVec.zero_y, IntVec.zero_z]
  omega

/-- C71 (splitting). `refine` of a window that fits its block ends for all
arguments as it does with unbounded integers, whatever the size of the block
(its dimensions being `int`s). -/
theorem C71_refine (w : Window) (hw : w.Fits) (hn : w.npts.IsInt) (split loc : IntVec) :
    Mach.refine w split loc = w.refine split loc := by
  obtain ⟨⟨a1, a2, a3⟩, ⟨b1, b2, b3⟩, ⟨c1, c2, c3⟩, ⟨d1, d2, d3⟩⟩ := hw
  obtain ⟨⟨_, n1⟩, ⟨_, n2⟩, ⟨_, n3⟩⟩ := hn
  simp only [IntVec.zero_x, IntVec.zero_y, IntVec.zero_z, IntVec.add_x, IntVec.add_y,
    IntVec.add_z] at *
  have him : intMax = 2147483647 := rfl
  have ok1 : ∀ {n o e s l : Int}, 0 ≤ o → 0 ≤ e → o + e ≤ n → n ≤ 2147483647 →
      Mach.refineOk1 n o e s l = Outcome.assert (Window.refineOk1 n o e s l) := by
    intro n o e s l h1 h2 h3 h4
    unfold Mach.refineOk1
    have nok : ∀ q : ¬ (s ≤ e ∧ 0 < s ∧ e + o ≤ n ∧ l < s ∧ 0 ≤ l),
        Outcome.assert (Window.refineOk1 n o e s l) = .abort := fun q => Outcome.assert_false q
    by_cases p1 : s ≤ e
    · rw [Outcome.assert_true p1, Outcome.ok_bind]
      by_cases p2 : 0 < s
      · rw [Outcome.assert_true p2, Outcome.ok_bind, add_ok (fit_of (by omega) (by omega)),
          Outcome.ok_bind, Outcome.assert_true (by omega), Outcome.ok_bind]
        by_cases p3 : l < s
        · rw [Outcome.assert_true p3, Outcome.ok_bind]
          by_cases p4 : 0 ≤ l
          · rw [Outcome.assert_true p4, Outcome.assert_true
              (p := Window.refineOk1 n o e s l) ⟨p1, p2, by omega, p3, p4⟩]
          · rw [Outcome.assert_false p4, nok (fun h => p4 h.2.2.2.2)]
        · rw [Outcome.assert_false p3, Outcome.abort_bind,
            nok (fun h => p3 h.2.2.2.1)]
      · rw [Outcome.assert_false p2, Outcome.abort_bind, nok (fun h => p2 h.2.1)]
    · rw [Outcome.assert_false p1, Outcome.abort_bind, nok (fun h => p1 h.1)]
  have off : ∀ {n o e s l : Int}, 0 ≤ o → n ≤ 2147483647 → Window.refineOk1 n o e s l →
      Mach.refineOffset1 o e s l = .ok (Window.refineOffset1 o e s l) ∧
      Mach.refineExtent1 e s l = .ok (Window.refineExtent1 e s l) ∧
      0 ≤ Window.refineOffset1 o e s l ∧ 0 ≤ Window.refineExtent1 e s l ∧
      Window.refineExtent1 e s l ≤ n := by
    intro n o e s l ho hn hok
    obtain ⟨p1, p2, p3, p4, p5⟩ := hok
    have he : 0 ≤ e := by omega
    have fe : Fit e := fit_of he (by omega)
    have hq : 0 ≤ e.tdiv s := by
      rw [Int.tdiv_eq_ediv_of_nonneg he]; exact Int.ediv_nonneg he p2.le
    have hr : 0 ≤ e.tmod s := by
      rw [Int.tmod_eq_emod_of_nonneg he]; exact Int.emod_nonneg _ (by omega)
    have hrs : e.tmod s < s := by
      rw [Int.tmod_eq_emod_of_nonneg he]; exact Int.emod_lt_of_pos _ p2
    have hd : s * e.tdiv s + e.tmod s = e := Int.mul_tdiv_add_tmod e s
    have hm0 : 0 ≤ e.tdiv s * l := mul_nonneg hq p5
    have hm1 : e.tdiv s * l + e.tdiv s ≤ s * e.tdiv s := by nlinarith
    have hq1 : e.tdiv s ≤ s * e.tdiv s := by nlinarith
    have hextra : (if l < e.tmod s then l else e.tmod s) ≤ e.tmod s ∧
        0 ≤ (if l < e.tmod s then l else e.tmod s) := by split <;> omega
    have hone : 0 ≤ (if l < e.tmod s then (1:Int) else 0) ∧
        (if l < e.tmod s then (1:Int) else 0) ≤ e.tmod s := by split <;> omega
    refine ⟨?_, ?_, ?_, ?_, ?_⟩
    · unfold Mach.refineOffset1 Window.refineOffset1
      rw [mod_ok he p2 fe, Outcome.ok_bind, div_ok he p2 fe, Outcome.ok_bind,
        mul_ok (fit_of hm0 (by omega)), Outcome.ok_bind, add_ok (fit_of (by omega) (by omega)),
        Outcome.ok_bind, add_ok (fit_of (by omega) (by omega))]
    · unfold Mach.refineExtent1 Window.refineExtent1
      rw [mod_ok he p2 fe, Outcome.ok_bind, div_ok he p2 fe, Outcome.ok_bind,
        add_ok (fit_of (by omega) (by omega))]
    · unfold Window.refineOffset1; omega
    · unfold Window.refineExtent1; omega
    · unfold Window.refineExtent1; omega
  have mk : ∀ {n o e : IntVec}, (0 < n.x ∧ 0 < n.y ∧ 0 < n.z) → (0 ≤ o.x ∧ 0 ≤ o.y ∧ 0 ≤ o.z) →
      (0 ≤ e.x ∧ 0 ≤ e.y ∧ 0 ≤ e.z) → (e.x ≤ n.x ∧ e.y ≤ n.y ∧ e.z ≤ n.z) →
      (n.x ≤ 2147483647 ∧ n.y ≤ 2147483647 ∧ n.z ≤ 2147483647) →
      Mach.makeWindow n o e = Window.make n o e := by
    intro n o e h1 h2 h3 h4 h5
    unfold Mach.makeWindow Window.make
    rw [Outcome.assert_true h1, Outcome.ok_bind, Outcome.assert_true h2, Outcome.ok_bind,
      Outcome.assert_true h3, Outcome.ok_bind, sub_ok (fit_of (by omega) (by omega)),
      Outcome.ok_bind, sub_ok (fit_of (by omega) (by omega)), Outcome.ok_bind,
      sub_ok (fit_of (by omega) (by omega)), Outcome.ok_bind,
      Outcome.assert_true (by omega), Outcome.ok_bind,
      Outcome.assert_true ⟨h1, h2, h3, by simp only [IntVec.sub_x, IntVec.sub_y, IntVec.sub_z]; omega⟩,
      Outcome.ok_bind]
  unfold Mach.refine Window.refine
  rw [ok1 b1 c1 d1 n1, ok1 b2 c2 d2 n2, ok1 b3 c3 d3 n3]
  by_cases q1 : Window.refineOk1 w.npts.x w.offset.x w.extent.x split.x loc.x
  · rw [Outcome.assert_true q1, Outcome.ok_bind, Outcome.ok_bind]
    by_cases q2 : Window.refineOk1 w.npts.y w.offset.y w.extent.y split.y loc.y
    · rw [Outcome.assert_true q2, Outcome.ok_bind, Outcome.ok_bind]
      by_cases q3 : Window.refineOk1 w.npts.z w.offset.z w.extent.z split.z loc.z
      · rw [Outcome.assert_true q3, Outcome.ok_bind, Outcome.ok_bind]
        obtain ⟨r1, r2, r3, r4, r5⟩ := off b1 n1 q1
        obtain ⟨t1, t2, t3, t4, t5⟩ := off b2 n2 q2
        obtain ⟨u1, u2, u3, u4, u5⟩ := off b3 n3 q3
        rw [r1, t1, u1, r2, t2, u2]
        simp only [Outcome.ok_bind]
        exact mk ⟨a1, a2, a3⟩ ⟨r3, t3, u3⟩ ⟨r4, t4, u4⟩ ⟨r5, t5, u5⟩ ⟨n1, n2, n3⟩
      · rw [Outcome.assert_false q3, Outcome.abort_bind, Outcome.abort_bind]
    · rw [Outcome.assert_false q2, Outcome.abort_bind, Outcome.abort_bind]
  · rw [Outcome.assert_false q1, Outcome.abort_bind, Outcome.abort_bind]

/-- C71 (field iterators). In a non-empty window that fits its block of at most
`intMax` cells, every history of movements that stays between `begin` and `end`
runs without overflow, ends in the same iterator as with unbounded integers, and
dereferencing that iterator does the same; `end()` is the same iterator too. -/
theorem C71_field_iterator (w : Window) (hw : w.Fits) (hc : w.npts.CountFits) (he : w.Nonempty)
    (base : Int) (ops : List It.Op) (hs : It.StaysIn w.localNpts 0 ops) :
    ∃ it, Mach.run (Mach.start base w) ops = .ok it ∧ (It.start base w).run ops = .ok it ∧
      Mach.deref it = it.deref ∧
      Mach.finish base w = It.finish base w := by
  have b := bounds hw hc
  obtain ⟨x, y, z, hp, hr, _⟩ := run_from_start he base ops hs
  have e0 : w.extent.x > 0 := he.1
  have e1 : w.extent.y > 0 := he.2.1
  have e2 : w.extent.z > 0 := he.2.2
  have hp0 : It.Pos w 0 0 0 := ⟨by omega, e0, by omega, e1, by omega, Or.inl e2⟩
  have hz : (0:Int) + w.extent.x * (0 + w.extent.y * 0) = 0 := by ring
  have hN : 0 ≤ w.extent.x * w.extent.y * w.extent.z := by positivity
  refine ⟨_, ?_, hr, deref_eq b base hp, ?_⟩
  · rw [start_eq b, It.start_eq, run_eq b he base ops hp0 (by rw [hz]; exact hs), ← It.start_eq]
    exact hr
  · unfold Mach.finish It.finish
    rw [start_eq b, finishCount_eq b, It.start_eq]
    exact addAssign_eq b he base hp0 (by omega) (by omega)

/-- C71 (mask iterators). The same for mask iterators, provided the position at
which the iteration ends is an `int`. -/
theorem C71_mask_iterator (w : Window) (hw : w.Fits) (hc : w.npts.CountFits) (he : w.Nonempty)
    (hE : w.EndFits) (ops : List It.Op) (hs : It.StaysIn w.localNpts 0 ops) :
    ∃ it, (Mach.maskStart w >>= fun i => Mach.maskRun i ops) = .ok it ∧
      (MaskIt.start w).run ops = .ok it := by
  have b := bounds hw hc
  have e0 : w.extent.x > 0 := he.1
  have e1 : w.extent.y > 0 := he.2.1
  have e2 : w.extent.z > 0 := he.2.2
  have hp0 : It.Pos w 0 0 0 := ⟨by omega, e0, by omega, e1, by omega, Or.inl e2⟩
  have hz : (0:Int) + w.extent.x * (0 + w.extent.y * 0) = 0 := by ring
  have hoff : fortranPos w.npts w.offset ≤ intMax := by
    have hE' := hE
    unfold Window.EndFits at hE'
    have := b.nx; have := b.ny
    have : 0 ≤ w.npts.x * w.npts.y * w.extent.z := by positivity
    omega
  obtain ⟨x, y, z, _, hr, _⟩ := run_from_start he 0 ops hs
  have ha : At w (MaskIt.start w) 0 0 0 := at_of b hE hp0
    (by rw [MaskIt.toIt_start, It.start_eq]) (MaskIt.norm_start hw)
  obtain ⟨k, ek, _⟩ := MaskIt.toIt_run ops (MaskIt.start w) (MaskIt.norm_start hw)
    (by rw [MaskIt.toIt_start]; exact hr)
  refine ⟨k, ?_, ek⟩
  rw [maskStart_eq b hoff, Outcome.ok_bind, maskRun_eq b hE he ops hp0 ha (by rw [hz]; exact hs)]
  exact ek

/-- Non-vacuity of the theorems above: a block of 2³¹ - 2 cells (2 · 1073741823),
a window inside it, and a history that jumps to the end and back. -/
example :
    let w : Window := ⟨⟨2, 1073741823, 1⟩, ⟨1, 5, 0⟩, ⟨1, 1073741800, 1⟩⟩
    w.Fits ∧ w.npts.CountFits ∧ w.npts.IsInt ∧ w.Nonempty ∧ ¬ w.EndFits ∧
    It.StaysIn w.localNpts 0 [.add 1073741800, .sub 1073741799, .inc, .dec, .sub 1] := by
  refine ⟨by decide, by decide, by decide, by decide, by decide, ?_⟩
  simp [It.StaysIn, Window.localNpts, It.Op.delta]

/-- Non-vacuity of the mask theorem. -/
example :
    let w : Window := ⟨⟨46340, 46340, 1⟩, ⟨0, 0, 0⟩, ⟨46340, 46340, 1⟩⟩
    w.Fits ∧ w.npts.CountFits ∧ w.Nonempty ∧ w.EndFits := by decide

/-! ## The limit -/

/-- C71 (sharp limit). For any block with positive dimensions the number
of cells is computed correctly exactly when it is an `int`; otherwise
`glob_npts()` overflows, and so does `flat_to_ijk` for every position. The
constructors of fields and masks call `glob_npts()`. -/
theorem C71_limit_is_sharp (w : Window) (hw : w.Fits) :
    (w.npts.CountFits ↔ Mach.globNpts w = .ok (w.npts.x * w.npts.y * w.npts.z)) ∧
    (¬ w.npts.CountFits → Mach.globNpts w = .ub ∧
      ∀ i, 0 ≤ i → Mach.flatToIjk w.npts i = .ub) := by
  obtain ⟨a1, a2, a3⟩ := hw.1
  simp only [IntVec.zero_x, IntVec.zero_y, IntVec.zero_z] at a1 a2 a3
  have p1 : 0 < w.npts.x * w.npts.y := by positivity
  have big : ¬ w.npts.CountFits → ∀ {β : Type} (f : Int → Int → Outcome β),
      (Mach.mul w.npts.x w.npts.y >>= fun a => Mach.mul a w.npts.z >>= fun n => f a n) = .ub := by
    intro h β f
    by_cases q : Fit (w.npts.x * w.npts.y)
    · rw [mul_ok q, Outcome.ok_bind]
      have : ¬ Fit (w.npts.x * w.npts.y * w.npts.z) := by
        intro hf
        apply h
        unfold IntVec.CountFits intMax
        exact hf.2
      unfold Mach.mul
      rw [chk_ub this, Outcome.ub_bind]
    · unfold Mach.mul
      rw [chk_ub q, Outcome.ub_bind]
  have hub : ¬ w.npts.CountFits → Mach.globNpts w = .ub := fun h =>
    big h (fun _ n => (pure (sz n) : Outcome Int))
  refine ⟨⟨fun h => (C71_window w hw h).1, fun h => ?_⟩, fun h => ⟨hub h, fun i hi => ?_⟩⟩
  · by_contra hcn
    rw [hub hcn] at h
    cases h
  · unfold Mach.flatToIjk
    rw [Outcome.assert_true hi, Outcome.ok_bind]
    exact big h _

/-- C71 (witnesses). A 46341 × 46341 plane, or a cube of 1291 cells per side,
is a legal window whose number of cells cannot be computed. -/
theorem C71_large_field_overflows :
    (∃ w, Window.makeFull ⟨46341, 46341, 1⟩ = .ok w ∧ w.Fits ∧ Mach.globNpts w = .ub) ∧
    (∃ w, Window.makeFull ⟨1291, 1291, 1291⟩ = .ok w ∧ w.Fits ∧ Mach.globNpts w = .ub) := by
  refine ⟨⟨_, rfl, ?_, ?_⟩, ⟨_, rfl, ?_, ?_⟩⟩ <;> decide

/-- C71 (masks overflow earlier). The restriction in `C71_mask_iterator` is
needed: in a row of `intMax` cells, a mask iterator over all cells but the first
overflows on reaching `end()`, where a field iterator does not. -/
theorem C71_mask_end_overflows :
    let w : Window := ⟨⟨2147483647, 1, 1⟩, ⟨1, 0, 0⟩, ⟨2147483646, 1, 1⟩⟩
    w.Fits ∧ w.npts.CountFits ∧ w.Nonempty ∧
    It.StaysIn w.localNpts 0 [.add 2147483646] ∧
    (Mach.maskStart w >>= fun i => Mach.maskRun i [.add 2147483646]) = .ub ∧
    ∃ it, Mach.run (Mach.start 0 w) [.add 2147483646] = .ok it := by
  refine ⟨by decide, by decide, by decide, ?_, by decide +kernel, ?_⟩
  · simp [It.StaysIn, Window.localNpts, It.Op.delta]
  · exact ⟨_, rfl⟩

/-- C71 (where `end` points). `end()` of a non-empty window points at most one
past the last element of the block exactly when cells of the block follow the
window's last plane or the window starts at the first cell of a plane. In every
other case forming `end()` leaves the allocated array, which C++ does not
define for pointers. -/
theorem C71_end_pointer_in_block (w : Window) (hw : w.Fits) (he : w.Nonempty) (base : Int) :
    ∃ fin, It.finish base w = .ok fin ∧
      (fin.current ≤ base + w.npts.x * w.npts.y * w.npts.z ↔
        (w.offset.z + w.extent.z < w.npts.z ∨ (w.offset.x = 0 ∧ w.offset.y = 0))) := by
  obtain ⟨⟨a1, a2, a3⟩, ⟨b1, b2, b3⟩, ⟨c1, c2, c3⟩, ⟨d1, d2, d3⟩⟩ := hw
  have e0 : w.extent.x > 0 := he.1
  have e1 : w.extent.y > 0 := he.2.1
  have e2 : w.extent.z > 0 := he.2.2
  simp only [IntVec.zero_x, IntVec.zero_y, IntVec.zero_z, IntVec.add_x, IntVec.add_y,
    IntVec.add_z] at *
  have hN : 0 ≤ w.extent.x * w.extent.y * w.extent.z := by positivity
  have hp0 : It.Pos w 0 0 0 := ⟨by omega, e0, by omega, e1, by omega, Or.inl e2⟩
  have hz : (0:Int) + w.extent.x * (0 + w.extent.y * 0) = 0 := by ring
  obtain ⟨x, y, z, hp, hr, hcnt⟩ := It.add_canon (base := base) he hp0
    (w.extent.x * w.extent.y * w.extent.z) (by omega) (by omega)
  have hpe : It.Pos w 0 0 w.extent.z :=
    ⟨by omega, e0, by omega, e1, by omega, Or.inr ⟨rfl, rfl, rfl⟩⟩
  obtain ⟨rfl, rfl, rfl⟩ := It.pos_unique hp hpe (by rw [hcnt]; ring)
  refine ⟨_, by unfold It.finish; rw [It.start_eq]; exact hr, ?_⟩
  unfold It.canon fortranPos
  dsimp only
  have hxy : 0 < w.npts.x * w.npts.y := by positivity
  have hoff : w.offset.x + w.npts.x * w.offset.y < w.npts.x * w.npts.y := by
    have : w.npts.x * (w.offset.y + 1) ≤ w.npts.x * w.npts.y :=
      mul_le_mul_of_nonneg_left (by omega) (by omega)
    nlinarith
  have hlhs : base + (w.offset.x + w.npts.x * (w.offset.y + w.npts.y * w.offset.z)) + 0 +
      w.npts.x * (0 + w.npts.y * w.extent.z) =
      base + (w.offset.x + w.npts.x * w.offset.y) +
        w.npts.x * w.npts.y * (w.offset.z + w.extent.z) := by ring
  rw [hlhs]
  have hoy : 0 ≤ w.npts.x * w.offset.y := by positivity
  constructor
  · intro h
    by_contra hn
    simp only [not_or, not_lt, not_and] at hn
    have : w.offset.z + w.extent.z = w.npts.z := by omega
    rw [this] at h
    have hx0 : w.offset.x = 0 := by omega
    have hy0 : w.npts.x * w.offset.y = 0 := by omega
    exact hn.2 hx0 (by
      rcases Int.mul_eq_zero.1 hy0 with q | q
      · omega
      · exact q)
  · rintro (h | ⟨h1, h2⟩)
    · have : w.npts.x * w.npts.y * (w.offset.z + w.extent.z + 1) ≤
          w.npts.x * w.npts.y * w.npts.z := mul_le_mul_of_nonneg_left (by omega) hxy.le
      nlinarith
    · have : w.npts.x * w.npts.y * (w.offset.z + w.extent.z) ≤
          w.npts.x * w.npts.y * w.npts.z := mul_le_mul_of_nonneg_left d3 hxy.le
      rw [h1, h2]
      simp only [mul_zero, add_zero]
      omega

/-- Non-vacuity, and the case users meet: the interior of a plane with one ghost
layer. Its `interior_end()` points outside the array. -/
example :
    let w : Window := ⟨⟨6, 6, 1⟩, ⟨1, 1, 0⟩, ⟨4, 4, 1⟩⟩
    w.Fits ∧ w.Nonempty ∧ ∃ fin, It.finish 0 w = .ok fin ∧ fin.current = 43 := by
  exact ⟨by decide, by decide, _, rfl, rfl⟩

end SpatialOps
