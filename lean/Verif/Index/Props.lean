import Verif.Index.Lemmas

/-!
# Properties C01, C02, C03: index maps and windows
-/

namespace SpatialOps

/-! ## C01 -/

/-- C01 (acceptance and range). `ijk_to_flat` returns exactly for the cells of
the block, the result is the fortran position, and that position lies in
`[0, number of points)`; anything else fails the assertion. -/
theorem C01_ijkToFlat_spec (d c : IntVec) :
    (InBlock d c → ∃ i, ijkToFlat d c = .ok i ∧ 0 ≤ i ∧ i < d.x * d.y * d.z ∧
        i = c.x + c.y * d.x + c.z * d.x * d.y) ∧
    (¬ InBlock d c → ijkToFlat d c = .abort) := by
  refine ⟨fun h => ⟨fortranPos d c, ijkToFlat_eq_ok h, (fortranPos_bound h).1,
    (fortranPos_bound h).2, ?_⟩, ijkToFlat_eq_abort⟩
  unfold fortranPos; ring

/-- C01 (no overflow beyond the number of points). Every intermediate value
computed by `ijk_to_flat` on an accepted cell is between 0 and the number of
points, so no machine overflow occurs when the number of points fits in `int`. -/
theorem C01_ijkToFlat_intermediates (d c : IntVec) (h : InBlock d c) :
    let n := d.x * d.y * d.z
    (0 ≤ c.y * d.x ∧ c.y * d.x < n) ∧
    (0 ≤ c.z * d.x ∧ c.z * d.x < n) ∧
    (0 ≤ c.z * d.x * d.y ∧ c.z * d.x * d.y < n) ∧
    (0 ≤ c.x + c.y * d.x ∧ c.x + c.y * d.x < n) ∧
    (0 < d.x * d.y ∧ d.x * d.y ≤ n) := by
  obtain ⟨⟨h1, h2, h3⟩, ⟨h4, h5, h6⟩⟩ := h
  simp only [IntVec.zero_x, IntVec.zero_y, IntVec.zero_z] at *
  have p0 : 0 < d.x := by omega
  have p1 : 0 < d.y := by omega
  have p2 : 0 < d.z := by omega
  have hxy : 0 < d.x * d.y := by positivity
  have hxyz : d.x * d.y ≤ d.x * d.y * d.z := by nlinarith
  have a1 : 0 ≤ c.y * d.x := by positivity
  have a2 : c.y * d.x + d.x ≤ d.x * d.y := by nlinarith
  have a3 : 0 ≤ c.z * d.x := by positivity
  have a4 : 0 ≤ c.z * d.x * d.y := by positivity
  have a5 : c.z * d.x * d.y + d.x * d.y ≤ d.x * d.y * d.z := by nlinarith
  have a6 : c.z * d.x ≤ c.z * d.x * d.y := by nlinarith
  refine ⟨⟨a1, by omega⟩, ⟨a3, by omega⟩, ⟨a4, by omega⟩, ⟨by omega, by omega⟩, ⟨hxy, hxyz⟩⟩

/-- C01 (round trip from ijk). -/
theorem C01_ijk_flat_ijk (d c : IntVec) (h : InBlock d c) :
    (ijkToFlat d c >>= flatToIjk d) = .ok c := by
  rw [ijkToFlat_eq_ok h, Outcome.ok_bind]
  have hb := fortranPos_bound h
  obtain ⟨⟨h1, h2, h3⟩, ⟨h4, h5, h6⟩⟩ := h
  simp only [IntVec.zero_x, IntVec.zero_y, IntVec.zero_z] at *
  unfold flatToIjk
  rw [Outcome.assert_true hb.1, Outcome.ok_bind, Outcome.assert_true hb.2, Outcome.ok_bind,
    Outcome.pure_eq, Int.tmod_eq_emod_of_nonneg hb.1, Int.tdiv_eq_ediv_of_nonneg hb.1,
    Int.tdiv_eq_ediv_of_nonneg hb.1]
  have A := fortran_div (z := c.z) h1 h4 h2 h5
  unfold fortranPos
  rw [A.1, A.2.1, A.2.2.1]
  have hnn : 0 ≤ c.y + d.y * c.z := by
    have : 0 ≤ d.y * c.z := mul_nonneg (by omega) h3
    omega
  rw [Int.tmod_eq_emod_of_nonneg hnn, Int.add_mul_emod_self_left, Int.emod_eq_of_lt h2 h5]

/-- C01 (round trip from flat). For a block with positive dimensions,
`flat_to_ijk` accepts exactly the positions in `[0, number of points)`; what it
returns is a cell of the block and maps back to the same position. -/
theorem C01_flat_ijk_flat (d : IntVec) (hd : IntVec.Lt 0 d) (i : Int) :
    (0 ≤ i ∧ i < d.x * d.y * d.z →
      ∃ c, flatToIjk d i = .ok c ∧ InBlock d c ∧ ijkToFlat d c = .ok i) ∧
    (¬ (0 ≤ i ∧ i < d.x * d.y * d.z) → flatToIjk d i = .abort) := by
  obtain ⟨h0, h1, h2⟩ := hd
  simp only [IntVec.zero_x, IntVec.zero_y, IntVec.zero_z] at *
  constructor
  · rintro ⟨hi0, hi⟩
    obtain ⟨x, y, z, a1, a2, a3, a4, a5, a6, rfl⟩ := fortran_surj h0 h1 hi0 hi
    have hb : InBlock d ⟨x, y, z⟩ := ⟨⟨a1, a3, a5⟩, ⟨a2, a4, a6⟩⟩
    have e : ijkToFlat d ⟨x, y, z⟩ = .ok (x + d.x * (y + d.y * z)) := ijkToFlat_eq_ok hb
    have r := C01_ijk_flat_ijk d ⟨x, y, z⟩ hb
    rw [e, Outcome.ok_bind] at r
    exact ⟨_, r, hb, e⟩
  · intro hn
    unfold flatToIjk
    by_cases hi0 : 0 ≤ i
    · rw [Outcome.assert_true hi0, Outcome.ok_bind, Outcome.assert_false (fun h => hn ⟨hi0, h⟩),
        Outcome.abort_bind]
    · rw [Outcome.assert_false hi0, Outcome.abort_bind]

example : InBlock ⟨3, 4, 5⟩ ⟨2, 3, 1⟩ ∧ ijkToFlat ⟨3, 4, 5⟩ ⟨2, 3, 1⟩ = .ok 23 ∧
    flatToIjk ⟨3, 4, 5⟩ 23 = .ok ⟨2, 3, 1⟩ := by decide

/-! ## C02 -/

/-- C02. In a window that fits its block, `flat_index` succeeds for every
location of the window, the address is inside the block, it is the fortran
position of the block cell `offset + loc`, different locations have different
addresses, and addresses increase in fortran order of the locations. -/
theorem C02_flatIndex_injective_inbounds (w : Window) (hw : w.Fits) :
    (∀ loc, InBlock w.extent loc →
      ∃ i, w.flatIndex loc = .ok i ∧ 0 ≤ i ∧ i < w.globNpts ∧
        ijkToFlat w.npts (w.offset + loc) = .ok i) ∧
    (∀ a b i, InBlock w.extent a → InBlock w.extent b →
      w.flatIndex a = .ok i → w.flatIndex b = .ok i → a = b) ∧
    (∀ a b i j, InBlock w.extent a → InBlock w.extent b →
      w.flatIndex a = .ok i → w.flatIndex b = .ok j → (i < j ↔ FortranLt a b)) := by
  refine ⟨?_, ?_, ?_⟩
  · intro loc hl
    obtain ⟨e, hb⟩ := Window.flatIndex_eq_ok hw hl
    exact ⟨_, e, (fortranPos_bound hb).1, (fortranPos_bound hb).2, ijkToFlat_eq_ok hb⟩
  · intro a b i ha hb h1 h2
    obtain ⟨e1, b1⟩ := Window.flatIndex_eq_ok hw ha
    obtain ⟨e2, b2⟩ := Window.flatIndex_eq_ok hw hb
    rw [e1] at h1; rw [e2] at h2
    have hh : fortranPos w.npts (w.offset + a) = fortranPos w.npts (w.offset + b) := by
      injection h1 with h1; injection h2 with h2; rw [h1, h2]
    have := fortranPos_inj b1 b2 hh
    have hx := congrArg IntVec.x this
    have hy := congrArg IntVec.y this
    have hz := congrArg IntVec.z this
    simp only [IntVec.add_x, IntVec.add_y, IntVec.add_z] at hx hy hz
    ext <;> omega
  · intro a b i j ha hb h1 h2
    obtain ⟨e1, b1⟩ := Window.flatIndex_eq_ok hw ha
    obtain ⟨e2, b2⟩ := Window.flatIndex_eq_ok hw hb
    rw [e1] at h1; rw [e2] at h2
    injection h1 with h1; injection h2 with h2
    rw [← h1, ← h2, fortranPos_lt_iff b1 b2]
    unfold FortranLt
    simp only [IntVec.add_x, IntVec.add_y, IntVec.add_z]
    omega

/-- C02. The two inverse lookups. `ijk_index_from_global` of the memory cell `flat_index` gives for a cell of the window is this cell counted
from the corner of the block, that is the offset plus the cell. `ijk_index_from_global` of a number below `glob_npts()` is the cell of the
block, and `ijk_index_from_local` of a number below `local_npts()` the cell of the window, with this number in fortran order. -/
theorem C02_inverse_lookups (w : Window) (hw : w.Fits) (he : w.Nonempty) :
    (∀ loc, InBlock w.extent loc → (w.flatIndex loc >>= w.ijkIndexFromGlobal) = .ok (w.offset + loc)) ∧
    (∀ i, 0 ≤ i → i < w.globNpts → ∃ c, w.ijkIndexFromGlobal i = .ok c ∧ InBlock w.npts c ∧ fortranPos w.npts c = i) ∧
    (∀ i, 0 ≤ i → i < w.localNpts → ∃ loc, w.ijkIndexFromLocal i = .ok loc ∧ InBlock w.extent loc ∧ fortranPos w.extent loc = i) := by
  refine ⟨fun loc hl => ?_, fun i h0 h1 => ?_, fun i h0 h1 => ?_⟩
  · obtain ⟨i, e1, _, _, e2⟩ := (C02_flatIndex_injective_inbounds w hw).1 loc hl
    rw [e1, Outcome.ok_bind]
    have hb : InBlock w.npts (w.offset + loc) := by
      by_contra hn
      rw [(C01_ijkToFlat_spec _ _).2 hn] at e2
      cases e2
    have := C01_ijk_flat_ijk w.npts _ hb
    rw [e2, Outcome.ok_bind] at this
    exact this
  · obtain ⟨c, e1, e2, e3⟩ := (C01_flat_ijk_flat w.npts hw.1 i).1 ⟨h0, h1⟩
    refine ⟨c, e1, e2, ?_⟩
    rw [ijkToFlat_eq_ok e2] at e3
    injection e3
  · obtain ⟨c, e1, e2, e3⟩ := (C01_flat_ijk_flat w.extent he i).1 ⟨h0, h1⟩
    refine ⟨c, e1, e2, ?_⟩
    rw [ijkToFlat_eq_ok e2] at e3
    injection e3

/-- C02 (construction guard). The constructor accepts every fitting window. -/
theorem C02_fits_accepted (w : Window) (hw : w.Fits) :
    Window.make w.npts w.offset w.extent = .ok w := by
  obtain ⟨⟨a1, a2, a3⟩, ⟨b1, b2, b3⟩, ⟨c1, c2, c3⟩, ⟨d1, d2, d3⟩⟩ := hw
  simp only [IntVec.zero_x, IntVec.zero_y, IntVec.zero_z, IntVec.add_x, IntVec.add_y,
    IntVec.add_z] at *
  unfold Window.make
  rw [Outcome.assert_true, Outcome.ok_bind, Outcome.pure_eq]
  unfold Window.sanityCheck
  simp only [IntVec.sub_x, IntVec.sub_y, IntVec.sub_z]
  omega

/-- C02 (construction guard). Whatever window the constructor accepts, none of its cells lies
below the block in any direction and its extent is at most that of the block. -/
theorem C02_accepted_not_below (n o e : IntVec) (w : Window) (h : Window.make n o e = .ok w) :
    w = ⟨n, o, e⟩ ∧ IntVec.Lt 0 n ∧ IntVec.Le e n ∧ ∀ loc, InBlock e loc → IntVec.Le 0 (w.offset + loc) := by
  unfold Window.make at h
  by_cases hs : Window.sanityCheck ⟨n, o, e⟩
  · rw [Outcome.assert_true hs, Outcome.ok_bind, Outcome.pure_eq] at h
    injection h with h
    subst h
    unfold Window.sanityCheck at hs
    dsimp only at hs
    refine ⟨rfl, by iv_omega, by iv_omega, fun loc hl => by iv_omega⟩
  · rw [Outcome.assert_false hs] at h
    cases h

/-- C02 (deviation). The constructor's sanity check also accepts windows that
do not fit their block: offset 4 and extent 5 in a block of 5. The first cell of
that window is addressable but the last one is not. -/
theorem C02_sanity_check_accepts_overhang :
    ∃ w : Window, Window.make w.npts w.offset w.extent = .ok w ∧ w.Nonempty ∧ ¬ w.Fits ∧
      (∃ loc, InBlock w.extent loc ∧ w.flatIndex loc = .abort) :=
  ⟨⟨⟨5, 1, 1⟩, ⟨4, 0, 0⟩, ⟨5, 1, 1⟩⟩, by decide, by decide, by decide, ⟨3, 0, 0⟩, by decide, by decide⟩

/-- Non-vacuity of C02: a window strictly inside a 3D block. -/
example : (⟨⟨6, 5, 4⟩, ⟨1, 2, 1⟩, ⟨4, 2, 3⟩⟩ : Window).Fits ∧
    InBlock ⟨4, 2, 3⟩ ⟨3, 1, 2⟩ ∧
    (⟨⟨6, 5, 4⟩, ⟨1, 2, 1⟩, ⟨4, 2, 3⟩⟩ : Window).flatIndex ⟨3, 1, 2⟩ = .ok 112 := by decide

/-- `==` and `!=` on windows decide equality of all nine numbers. -/
theorem C02_eq_ops (a b : Window) : (a.eqOp b = true ↔ a = b) ∧ (a.neOp b = true ↔ a ≠ b) := by
  obtain ⟨n1, o1, e1⟩ := a
  obtain ⟨n2, o2, e2⟩ := b
  simp only [Window.eqOp, Window.neOp, Bool.and_eq_true, Bool.or_eq_true, decide_eq_true_eq,
    Window.mk.injEq, ne_eq]
  constructor
  · constructor
    · rintro ⟨⟨p, q⟩, r⟩; exact ⟨p, r, q⟩
    · rintro ⟨p, q, r⟩; exact ⟨⟨p, r⟩, q⟩
  · constructor
    · rintro h ⟨p, q, r⟩
      rcases h with (h | h) | h
      · exact h p
      · exact h r
      · exact h q
    · intro h
      by_cases p : n1 = n2
      · by_cases q : e1 = e2
        · exact Or.inr (fun r => h ⟨p, r, q⟩)
        · exact Or.inl (Or.inr q)
      · exact Or.inl (Or.inl p)

/-! ## C03 -/

/-- The split patterns `refine` is meant for: positive and not finer than the window. -/
def SplitOk (w : Window) (split : IntVec) : Prop := IntVec.Lt 0 split ∧ IntVec.Le split w.extent

theorem refine_eq_ok {w : Window} (hw : w.Fits) {split l : IntVec} (hs : SplitOk w split)
    (hl : InBlock split l) :
    w.refine split l = .ok ⟨w.npts,
      ⟨Window.refineOffset1 w.offset.x w.extent.x split.x l.x,
       Window.refineOffset1 w.offset.y w.extent.y split.y l.y,
       Window.refineOffset1 w.offset.z w.extent.z split.z l.z⟩,
      ⟨Window.refineExtent1 w.extent.x split.x l.x,
       Window.refineExtent1 w.extent.y split.y l.y,
       Window.refineExtent1 w.extent.z split.z l.z⟩⟩ := by
  obtain ⟨⟨a1, a2, a3⟩, ⟨b1, b2, b3⟩, ⟨c1, c2, c3⟩, ⟨d1, d2, d3⟩⟩ := hw
  obtain ⟨⟨s1, s2, s3⟩, ⟨t1, t2, t3⟩⟩ := hs
  obtain ⟨⟨l1, l2, l3⟩, ⟨m1, m2, m3⟩⟩ := hl
  simp only [IntVec.zero_x, IntVec.zero_y, IntVec.zero_z, IntVec.add_x, IntVec.add_y,
    IntVec.add_z] at *
  have X := Window.refine1_pos (offset := w.offset.x) s1 t1 l1 m1
  have Y := Window.refine1_pos (offset := w.offset.y) s2 t2 l2 m2
  have Z := Window.refine1_pos (offset := w.offset.z) s3 t3 l3 m3
  unfold Window.refine
  rw [Outcome.assert_true (by unfold Window.refineOk1; omega), Outcome.ok_bind,
    Outcome.assert_true (by unfold Window.refineOk1; omega), Outcome.ok_bind,
    Outcome.assert_true (by unfold Window.refineOk1; omega), Outcome.ok_bind]
  unfold Window.make
  rw [Outcome.assert_true, Outcome.ok_bind, Outcome.pure_eq]
  unfold Window.sanityCheck
  simp only [IntVec.sub_x, IntVec.sub_y, IntVec.sub_z]
  omega

/-- C03 (tiling). Splitting a fitting window: every location of the split gives
a window on the same block that is legal, non-empty and inside the original, and
every cell of the original lies in the sub-window of exactly one location;
cells outside the original lie in none. -/
theorem C03_refine_tiles (w : Window) (hw : w.Fits) (split : IntVec) (hs : SplitOk w split) :
    (∀ l, InBlock split l → ∃ v, w.refine split l = .ok v ∧ v.npts = w.npts ∧ v.Fits ∧
        v.Nonempty ∧ ∀ c, v.Covers c → w.Covers c) ∧
    (∀ c, w.Covers c →
      ∃ l, (InBlock split l ∧ ∃ v, w.refine split l = .ok v ∧ v.Covers c) ∧
        ∀ m, (InBlock split m ∧ ∃ v, w.refine split m = .ok v ∧ v.Covers c) → m = l) := by
  have hw' := hw
  have hs' := hs
  obtain ⟨⟨a1, a2, a3⟩, ⟨b1, b2, b3⟩, ⟨c1, c2, c3⟩, ⟨d1, d2, d3⟩⟩ := hw
  obtain ⟨⟨s1, s2, s3⟩, ⟨t1, t2, t3⟩⟩ := hs
  simp only [IntVec.zero_x, IntVec.zero_y, IntVec.zero_z, IntVec.add_x, IntVec.add_y,
    IntVec.add_z] at *
  constructor
  · intro l hl
    refine ⟨_, refine_eq_ok hw' hs' hl, rfl, ?_, ?_, ?_⟩
    all_goals
      obtain ⟨⟨l1, l2, l3⟩, ⟨m1, m2, m3⟩⟩ := hl
      simp only [IntVec.zero_x, IntVec.zero_y, IntVec.zero_z] at *
      have X := Window.refine1_pos (offset := w.offset.x) s1 t1 l1 m1
      have Y := Window.refine1_pos (offset := w.offset.y) s2 t2 l2 m2
      have Z := Window.refine1_pos (offset := w.offset.z) s3 t3 l3 m3
    · refine ⟨⟨a1, a2, a3⟩, ⟨?_, ?_, ?_⟩, ⟨?_, ?_, ?_⟩, ⟨?_, ?_, ?_⟩⟩ <;>
        simp only [IntVec.zero_x, IntVec.zero_y, IntVec.zero_z, IntVec.add_x, IntVec.add_y,
          IntVec.add_z] <;> omega
    · refine ⟨?_, ?_, ?_⟩ <;>
        simp only [IntVec.zero_x, IntVec.zero_y, IntVec.zero_z] <;> omega
    · rintro c ⟨⟨p1, p2, p3⟩, ⟨q1, q2, q3⟩⟩
      simp only [IntVec.add_x, IntVec.add_y, IntVec.add_z] at *
      refine ⟨⟨?_, ?_, ?_⟩, ⟨?_, ?_, ?_⟩⟩ <;>
        (try simp only [IntVec.add_x, IntVec.add_y, IntVec.add_z]) <;> omega
  · rintro c ⟨⟨p1, p2, p3⟩, ⟨q1, q2, q3⟩⟩
    simp only [IntVec.add_x, IntVec.add_y, IntVec.add_z] at *
    obtain ⟨lx, x1, x2, x3⟩ := (Window.refine1_tiles s1 t1 c.x).1 ⟨p1, q1⟩
    obtain ⟨ly, y1, y2, y3⟩ := (Window.refine1_tiles s2 t2 c.y).1 ⟨p2, q2⟩
    obtain ⟨lz, z1, z2, z3⟩ := (Window.refine1_tiles s3 t3 c.z).1 ⟨p3, q3⟩
    have hl : InBlock split ⟨lx, ly, lz⟩ := ⟨⟨x1, y1, z1⟩, ⟨x2, y2, z2⟩⟩
    refine ⟨⟨lx, ly, lz⟩, ⟨hl, _, refine_eq_ok hw' hs' hl, ⟨x3.1, y3.1, z3.1⟩, ⟨x3.2, y3.2, z3.2⟩⟩, ?_⟩
    rintro m ⟨hm, v, hv, hc⟩
    rw [refine_eq_ok hw' hs' hm] at hv
    injection hv with hv
    subst hv
    obtain ⟨⟨u1, u2, u3⟩, ⟨v1, v2, v3⟩⟩ := hc
    obtain ⟨⟨m1, m2, m3⟩, ⟨n1, n2, n3⟩⟩ := hm
    ext
    · exact Window.refine1_disjoint s1 t1 ⟨m1, n1⟩ ⟨x1, x2⟩ ⟨u1, v1⟩ x3
    · exact Window.refine1_disjoint s2 t2 ⟨m2, n2⟩ ⟨y1, y2⟩ ⟨u2, v2⟩ y3
    · exact Window.refine1_disjoint s3 t3 ⟨m3, n3⟩ ⟨z1, z2⟩ ⟨u3, v3⟩ z3

/-- C03 (balance). In each direction the extents of any two sub-windows of the
same split differ by at most one. -/
theorem C03_refine_balanced (w : Window) (hw : w.Fits) (split : IntVec) (hs : SplitOk w split)
    (l m : IntVec) (hl : InBlock split l) (hm : InBlock split m) (u v : Window)
    (hu : w.refine split l = .ok u) (hv : w.refine split m = .ok v) :
    u.extent.x ≤ v.extent.x + 1 ∧ u.extent.y ≤ v.extent.y + 1 ∧ u.extent.z ≤ v.extent.z + 1 := by
  rw [refine_eq_ok hw hs hl] at hu
  rw [refine_eq_ok hw hs hm] at hv
  injection hu with hu; injection hv with hv
  subst hu; subst hv
  obtain ⟨⟨s1, s2, s3⟩, ⟨t1, t2, t3⟩⟩ := hs
  obtain ⟨⟨l1, l2, l3⟩, ⟨l4, l5, l6⟩⟩ := hl
  obtain ⟨⟨m1, m2, m3⟩, ⟨m4, m5, m6⟩⟩ := hm
  have X := Window.refine1_pos (offset := w.offset.x) s1 t1 l1 l4
  have Y := Window.refine1_pos (offset := w.offset.y) s2 t2 l2 l5
  have Z := Window.refine1_pos (offset := w.offset.z) s3 t3 l3 l6
  have X' := Window.refine1_pos (offset := w.offset.x) s1 t1 m1 m4
  have Y' := Window.refine1_pos (offset := w.offset.y) s2 t2 m2 m5
  have Z' := Window.refine1_pos (offset := w.offset.z) s3 t3 m3 m6
  refine ⟨?_, ?_, ?_⟩ <;> dsimp only <;> omega

/-- C03 (rejection). `refine` refuses (assertion) a split that is non-positive
or finer than the window, and a location outside the split. -/
theorem C03_refine_rejects (w : Window) (split l : IntVec)
    (h : ¬ (SplitOk w split ∧ InBlock split l)) : w.refine split l = .abort := by
  unfold Window.refine
  by_cases h1 : Window.refineOk1 w.npts.x w.offset.x w.extent.x split.x l.x
  · rw [Outcome.assert_true h1, Outcome.ok_bind]
    by_cases h2 : Window.refineOk1 w.npts.y w.offset.y w.extent.y split.y l.y
    · rw [Outcome.assert_true h2, Outcome.ok_bind]
      by_cases h3 : Window.refineOk1 w.npts.z w.offset.z w.extent.z split.z l.z
      · exfalso
        apply h
        unfold Window.refineOk1 at *
        exact ⟨⟨⟨h1.2.1, h2.2.1, h3.2.1⟩, ⟨h1.1, h2.1, h3.1⟩⟩,
          ⟨⟨h1.2.2.2.2, h2.2.2.2.2, h3.2.2.2.2⟩, ⟨h1.2.2.2.1, h2.2.2.2.1, h3.2.2.2.1⟩⟩⟩
      · rw [Outcome.assert_false h3, Outcome.abort_bind]
    · rw [Outcome.assert_false h2, Outcome.abort_bind]
  · rw [Outcome.assert_false h1, Outcome.abort_bind]

/-- Non-vacuity of C03: 7x3x5 window split 3x1x2; the middle x-part has 2 of the 7 columns. -/
example : (⟨⟨9, 3, 6⟩, ⟨1, 0, 1⟩, ⟨7, 3, 5⟩⟩ : Window).Fits ∧
    IntVec.Lt 0 ⟨3, 1, 2⟩ ∧ IntVec.Le ⟨3, 1, 2⟩ ⟨7, 3, 5⟩ ∧ InBlock ⟨3, 1, 2⟩ ⟨1, 0, 1⟩ ∧
    (⟨⟨9, 3, 6⟩, ⟨1, 0, 1⟩, ⟨7, 3, 5⟩⟩ : Window).refine ⟨3, 1, 2⟩ ⟨1, 0, 1⟩ =
      .ok ⟨⟨9, 3, 6⟩, ⟨4, 0, 4⟩, ⟨2, 3, 2⟩⟩ := by decide

end SpatialOps
