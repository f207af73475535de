import Verif.Loops.Ref
import Mathlib.Tactic.Ring
import Mathlib.Tactic.NormNum

/-!
# Property C76: loops written with field iterators

What such loops do, that they do the same as the assignment of Nebo, and that the reference stencils, which are written
with them, agree with the operators of `build_stencils`.
-/

namespace SpatialOps
open Nebo Stencil Loops

/-! ## Example fields -/

namespace LoopsEx

/-- One ghost cell everywhere. -/
def g : GhostData := ⟨⟨1, 1, 1⟩, ⟨1, 1, 1⟩, false⟩

/-- A field on `4x3x2` cells, with a boundary in `x` where there is an extra cell if `bx`. -/
def geo (bx : Bool) : FieldGeo :=
  let e : Int := if bx then 1 else 0
  ⟨⟨⟨6 + e, 5, 4⟩, 0, ⟨6 + e, 5, 4⟩⟩, ⟨⟨6 + e, 5, 4⟩, ⟨1, 1, 1⟩, ⟨4 + e, 3, 2⟩⟩,
    BcInfo.build true false false ⟨e, 0, 0⟩, g, g, false⟩

def fld (bx : Bool) (b : Nat) : FieldObj := ⟨geo bx, some b, none, true, .localRam, 0, false, [], [], false, (geo bx).window.globNpts⟩

theorem onMesh (bx : Bool) : OnMesh ⟨4, 3, 2⟩ (geo bx) := by
  cases bx <;> exact ⟨by decide, by decide, by decide, by decide, by decide, by decide, by decide⟩

theorem target (bx : Bool) (b : Nat) : Target ⟨4, 3, 2⟩ (fld bx b) b :=
  ⟨onMesh bx, rfl, rfl, rfl, by cases bx <;> exact ⟨by dsimp only [fld]; decide, by dsimp only [fld]; decide⟩⟩

/-- A field of `npts` cells without ghost cells. -/
def plain (npts : IntVec) (b : Nat) : FieldObj :=
  ⟨⟨⟨npts, 0, npts⟩, ⟨npts, 0, npts⟩, BcInfo.build false false false 0, ⟨0, 0, false⟩, ⟨0, 0, false⟩, false⟩, some b, none, true,
    .localRam, 0, false, [], [], false, npts.x * npts.y * npts.z⟩

end LoopsEx

variable {V : Type}

/-! ## What a loop does -/

/-- C76. A loop over the iterators of a destination and of sources that have at least as many cells pairs the cells by their
numbers in Fortran order, each in its own window: the `k`-th cell of the destination gets `f` of the `k`-th cells of the
sources, whatever the shapes. Nothing else changes. `cell` gives the `k`-th cell of a window. -/
theorem C76_paired_by_position (f : List V → V) (d : FieldObj) (b : Nat) (hd : Dest d b) (hw : Proper d.geo.window)
    (srcs : List FieldObj) (hs : ∀ s ∈ srcs, s.values ≠ none ∧ Proper s.geo.window)
    (ha : Apart b d.geo.window (srcs.map whole)) (hl : ∀ s ∈ srcs, d.geo.window.localNpts ≤ s.geo.window.localNpts)
    (cell : Window → Nat → IntVec) (hc : ∀ w (k : Nat), Proper w → (k : Int) < w.localNpts → IsNthCell w.extent k (cell w k)) (m : Mem V) :
    ∃ m', zip f d srcs m = .ok m' ∧
      (∀ k : Nat, (k : Int) < d.geo.window.localNpts →
        m' b (element d.geo.window (cell d.geo.window k)) =
          f (srcs.map fun s => m (s.values.getD 0) (element s.geo.window (cell s.geo.window k)))) ∧
      (∀ blk a, (blk ≠ b ∨ ∀ loc, InBlock d.geo.window.extent loc → element d.geo.window loc ≠ a) → m' blk a = m blk a) := by
  have hs' : ∀ s ∈ srcs.map whole, Proper s.2 := by
    intro s h
    obtain ⟨t, ht, rfl⟩ := List.mem_map.1 h
    exact (hs t ht).2
  have hl' : ∀ s ∈ srcs.map whole, d.geo.window.localNpts ≤ s.2.localNpts := by
    intro s h
    obtain ⟨t, ht, rfl⟩ := List.mem_map.1 h
    exact hl t ht
  have same : ∀ w (k : Nat), Proper w → (k : Int) < w.localNpts → cell w k = nthLoc w k := fun w k h1 h2 =>
    nthCell_unique (hc w k h1 h2) (nthLoc_spec h1.1 h1.2 h2)
  obtain ⟨m', cs, h1, h2, h3⟩ := forIt_ok (f := f) hw hs' ha hl' m
  refine ⟨m', ?_, fun k hk => ?_, h3⟩
  · unfold zip
    rw [begins_ok fun s h => (hs s h).1, Outcome.ok_bind, loop_eq hd hw.2, h1]
    rfl
  · rw [same _ _ hw hk, element_eq, h2 k hk, List.map_map]
    congr 1
    refine List.map_congr_left fun s h => ?_
    rw [same _ _ (hs s h).2 (lt_of_lt_of_le hk (hl s h))]
    rfl

/-- C76. If all windows have the extents of the destination's, cells are paired by their places in the windows, for loops over
whole fields; and likewise for loops over interiors, if all interiors have the extents of the destination's. -/
theorem C76_same_extents (f : List V → V) (d : FieldObj) (b : Nat) (hd : Dest d b) (srcs : List FieldObj)
    (hs : ∀ s ∈ srcs, s.values ≠ none) (m : Mem V) :
    (Proper d.geo.window → (∀ s ∈ srcs, Proper s.geo.window ∧ s.geo.window.extent = d.geo.window.extent) →
      Apart b d.geo.window (srcs.map whole) →
      ∃ m', zip f d srcs m = .ok m' ∧ Written b d.geo.window (fun loc => f (inputs m (srcs.map whole) loc)) m m') ∧
    (Proper d.geo.interior → d.geo.disableInterior = false → d.geo.interior.npts = d.geo.window.npts →
      (∀ s ∈ srcs, Proper s.geo.interior ∧ s.geo.interior.extent = d.geo.interior.extent ∧ s.geo.disableInterior = false ∧
        s.geo.interior.npts = s.geo.window.npts) →
      Apart b d.geo.interior (srcs.map inside) →
      ∃ m', zipInterior f d srcs m = .ok m' ∧ Written b d.geo.interior (fun loc => f (inputs m (srcs.map inside) loc)) m m') := by
  constructor
  · intro hw he ha
    obtain ⟨m', cs, h1, h2⟩ := same_extent (f := f) hw
      (by intro s h; obtain ⟨t, ht, rfl⟩ := List.mem_map.1 h; exact (he t ht).1) ha
      (by intro s h; obtain ⟨t, ht, rfl⟩ := List.mem_map.1 h; exact (he t ht).2) m
    refine ⟨m', ?_, h2⟩
    unfold zip
    rw [begins_ok hs, Outcome.ok_bind, loop_eq hd hw.2, h1]
    rfl
  · intro hw hi hn he ha
    obtain ⟨m', cs, h1, h2⟩ := same_extent (f := f) hw
      (by intro s h; obtain ⟨t, ht, rfl⟩ := List.mem_map.1 h; exact (he t ht).1) ha
      (by intro s h; obtain ⟨t, ht, rfl⟩ := List.mem_map.1 h; exact (he t ht).2.1) m
    refine ⟨m', ?_, h2⟩
    unfold zipInterior
    rw [interiorBegins_ok fun s h => ⟨hs s h, (he s h).2.2.1, (he s h).2.2.2⟩, Outcome.ok_bind, interiorLoop_eq hd hi hn hw.2, h1]
    rfl

/-- C76. If some source has fewer cells than the destination, the loop comes to the end of the source, where dereferencing its
iterator throws (in a debug build). -/
theorem C76_short_source_throws (f : List V → V) (d : FieldObj) (b : Nat) (hd : Dest d b) (hw : Proper d.geo.window)
    (srcs : List FieldObj) (hs : ∀ s ∈ srcs, s.values ≠ none ∧ Proper s.geo.window)
    (ha : Apart b d.geo.window (srcs.map whole)) (hl : ∃ s ∈ srcs, s.geo.window.localNpts < d.geo.window.localNpts) (m : Mem V) :
    zip f d srcs m = .throws := by
  obtain ⟨s, h, hlt⟩ := hl
  unfold zip
  rw [begins_ok fun s h => (hs s h).1, Outcome.ok_bind, loop_eq hd hw.2,
    forIt_short hw (by intro s h; obtain ⟨t, ht, rfl⟩ := List.mem_map.1 h; exact (hs t ht).2) ha
      ⟨whole s, List.mem_map.2 ⟨s, h, rfl⟩, hlt⟩]
  rfl

/-- A sum of two fields by a loop; a shorter source. -/
example : ∃ m', zip (fun vs : List Int => vs.sum) (LoopsEx.fld false 0) [LoopsEx.fld false 1, LoopsEx.fld false 2] (fun b a => b * a) = .ok m' ∧
    m' 0 31 = 93 ∧
    zip (fun vs : List Int => vs.sum) (LoopsEx.plain ⟨2, 2, 1⟩ 0) [LoopsEx.plain ⟨3, 1, 1⟩ 1] (fun b a => b * a) = .throws := by
  have pr : Proper (LoopsEx.geo false).window := by unfold Proper; decide
  obtain ⟨m', h1, h2, -⟩ := (C76_same_extents (fun vs : List Int => vs.sum) (LoopsEx.fld false 0) 0 ⟨rfl, rfl, rfl⟩
    [LoopsEx.fld false 1, LoopsEx.fld false 2] (by simp [LoopsEx.fld]) (fun b a => b * a)).1 pr
      (by intro s h; rcases List.mem_pair.1 h with rfl | rfl <;> exact ⟨pr, rfl⟩)
      (by intro s h; simp [whole, LoopsEx.fld] at h; rcases h with rfl | rfl <;> exact .inl (by decide))
  refine ⟨m', h1, ?_, ?_⟩
  · have := h2 ⟨1, 0, 1⟩ (by decide)
    exact this
  · refine C76_short_source_throws _ _ 0 ⟨rfl, rfl, rfl⟩ (by unfold Proper; decide) _ (by
      intro s h; rw [List.mem_singleton.1 h]; exact ⟨by simp [LoopsEx.plain], by unfold Proper; decide⟩) (by
      intro s h; simp [whole, LoopsEx.plain] at h; subst h; exact .inl (by decide)) ⟨_, List.mem_singleton.2 rfl, by decide⟩ _

/-- C76. Shapes are not compared: from a row of four cells to two rows of two, the loop copies without complaint, and the
second row of the destination gets cells that are in the first row of the source. -/
theorem C76_shapes_not_compared :
    ∃ (d s : FieldObj) (m : Mem Int), Dest d 0 ∧ Proper d.geo.window ∧ Proper s.geo.window ∧ s.values = some 1 ∧
      d.geo.window.extent = ⟨2, 2, 1⟩ ∧ s.geo.window.extent = ⟨4, 1, 1⟩ ∧
      ∃ m', zip (fun vs => vs.headD 0) d [s] m = .ok m' ∧
        m' 0 (element d.geo.window ⟨0, 1, 0⟩) = m 1 (element s.geo.window ⟨2, 0, 0⟩) := by
  refine ⟨LoopsEx.plain ⟨2, 2, 1⟩ 0, LoopsEx.plain ⟨4, 1, 1⟩ 1, fun _ a => 10 * a, ⟨rfl, rfl, rfl⟩, by unfold Proper; decide, by unfold Proper; decide,
    rfl, rfl, rfl, ?_⟩
  obtain ⟨m', h1, h2, -⟩ := C76_paired_by_position (fun vs : List Int => vs.headD 0) (LoopsEx.plain ⟨2, 2, 1⟩ 0) 0 ⟨rfl, rfl, rfl⟩
    (by unfold Proper; decide) [LoopsEx.plain ⟨4, 1, 1⟩ 1]
    (by intro s h; rw [List.mem_singleton.1 h]; exact ⟨by simp [LoopsEx.plain], by unfold Proper; decide⟩)
    (by intro s h; simp [whole, LoopsEx.plain] at h; subst h; exact .inl (by decide))
    (by intro s h; rw [List.mem_singleton.1 h]; decide)
    nthLoc (fun w k h1 h2 => nthLoc_spec h1.1 h1.2 h2) (fun _ a => 10 * a)
  exact ⟨m', h1, h2 2 (by decide)⟩

/-! ## Loops and assignments -/

section
variable [Add V] [Mul V]

/-- C76. A loop over interiors leaves exactly the memory `interior_assign` leaves, for an expression whose value at each interior
cell of the destination is `f` of the values of the sources at that cell. -/
theorem C76_interior_loop_is_interior_assign (n : IntVec) (hn : IntVec.Lt 0 n) (l : FieldObj) (b : Nat) (ht : Target n l b)
    (hi : HasInterior n l.geo.bc.hasExtra l.geo) (srcs : List FieldObj)
    (hs : ∀ s ∈ srcs, OnMesh n s.geo ∧ s.values ≠ none ∧ s.values ≠ l.values ∧ HasInterior n l.geo.bc.hasExtra s.geo ∧ s.geo.interior.Fits)
    (e : Expr V .num) (he : e.Wf n) (hd : ∀ c, Interior n l c → e.DefinedAt n c) (hind : e.Independent l 0) (f : List V → V) (m : Mem V)
    (hv : ∀ c, Interior n l c → e.value m c = f (srcs.map fun s => valueAt m s c)) :
    ∃ m', zipInterior f l srcs m = .ok m' ∧ interiorAssign l e m = .ok m' := by
  have hx := ht.mesh.extra
  have hf := ht.mesh.fits
  have hsz := ht.mesh.size
  have hva := ht.mesh.valid
  obtain ⟨i1, i2, i3, i4⟩ := hi
  have hne : l.geo.interior.Nonempty := by
    unfold Window.Nonempty
    rw [i4]
    generalize l.geo.bc.hasExtra = ex at *
    iv_omega
  have hfit : l.geo.interior.Fits := by
    unfold Window.Fits at hf ⊢
    unfold GhostData.Valid at hva
    rw [i2, i3, i4]
    unfold origin
    rw [hsz] at hf
    generalize l.geo.bc.hasExtra = ex at *
    iv_omega
  obtain ⟨m1, a1, a2, a3⟩ := (C76_same_extents f l b ⟨ht.cpu, ht.writable, ht.mem⟩ srcs (fun s h => (hs s h).2.1) m).2 ⟨hfit, hne⟩ i1 i2
    (fun s h => by
      obtain ⟨-, -, -, q, r⟩ := hs s h
      refine ⟨⟨r, ?_⟩, by rw [q.extent, i4], q.enabled, q.npts⟩
      unfold Window.Nonempty at hne ⊢
      rw [q.extent, ← i4]
      exact hne)
    (by
      intro s h
      obtain ⟨t, h', rfl⟩ := List.mem_map.1 h
      left
      have := (hs t h').2.2.1
      unfold inside
      intro h2
      obtain ⟨v, hv⟩ := Option.ne_none_iff_exists'.1 (hs t h').2.1
      rw [hv, ht.mem] at this
      rw [hv] at h2
      exact this (congrArg some h2))
  obtain ⟨m2, b1, b2, b3⟩ := C22_interior_assign_pointwise n hn l b ht e he hd hind m
  refine ⟨m1, a1, ?_⟩
  rw [b1]
  have mapc : ∀ c, Interior n l c ↔ InBlock l.geo.interior.extent c := by
    intro c
    rw [i4]
    unfold Interior
    constructor <;> intro h <;> generalize l.geo.bc.hasExtra = ex at * <;> iv_omega
  have addr : ∀ c, element l.geo.interior c = cellAddr l.geo c := by
    intro c
    unfold element cellAddr
    rw [i2, i3]
  congr 1
  funext blk a
  by_cases hin : blk = b ∧ ∃ c, Interior n l c ∧ cellAddr l.geo c = a
  · obtain ⟨rfl, c, hc, rfl⟩ := hin
    rw [b2 c hc, hv c hc, ← addr c, a2 c ((mapc c).1 hc)]
    unfold inputs
    beta_reduce
    rw [List.map_map]
    congr 1
    refine List.map_congr_left fun s h => ?_
    obtain ⟨-, -, -, q, -⟩ := hs s h
    unfold valueAt cellAddr
    dsimp only [Function.comp, inside]
    unfold element
    rw [q.npts, q.offset]
  · rw [b3 blk a, a3 blk a]
    · by_cases hb : blk = b
      · right
        intro c hc h
        exact hin ⟨hb, c, (mapc c).2 hc, by rw [← addr c]; exact h⟩
      · exact .inl hb
    · by_cases hb : blk = b
      · right
        intro c hc h
        exact hin ⟨hb, c, hc, h⟩
      · exact .inl hb

/-- C76. A loop over whole fields leaves exactly the memory `<<=` leaves, if the cells to which `<<=` assigns are the valid ones
of the destination and the sources have the same valid ghost and boundary cells. -/
theorem C76_loop_is_assign (n : IntVec) (hn : IntVec.Lt 0 n) (l : FieldObj) (b : Nat) (ht : Target n l b) (srcs : List FieldObj)
    (hs : ∀ s ∈ srcs, Alike n l s) (e : Expr V .num) (he : e.Wf n) (hd : ∀ c, (Stored n l c ∧ e.DefinedAt n c) ↔ HasCell l.geo c)
    (hind : e.Independent l 0) (f : List V → V) (m : Mem V)
    (hv : ∀ c, HasCell l.geo c → e.value m c = f (srcs.map fun s => valueAt m s c)) :
    ∃ m', zip f l srcs m = .ok m' ∧ assign l e m = .ok m' := by
  have hx := ht.mesh.extra
  have hf := ht.mesh.fits
  have hsz := ht.mesh.size
  have hva := ht.mesh.valid
  have hne : l.geo.window.Nonempty := by
    unfold Window.Nonempty
    unfold GhostData.Valid at hva
    rw [hsz]
    generalize l.geo.bc.hasExtra = ex at *
    iv_omega
  have ext : ∀ s ∈ srcs, s.geo.window.extent = l.geo.window.extent := by
    intro s h
    rw [(hs s h).mesh.size, hsz, (hs s h).minus, (hs s h).plus, (hs s h).extra]
  obtain ⟨m1, a1, a2, a3⟩ := (C76_same_extents f l b ⟨ht.cpu, ht.writable, ht.mem⟩ srcs (fun s h => (hs s h).mem) m).1 ⟨hf, hne⟩
    (fun s h => by
      refine ⟨⟨(hs s h).mesh.fits, ?_⟩, ext s h⟩
      unfold Window.Nonempty at hne ⊢
      rw [ext s h]
      exact hne)
    (by
      intro s h
      obtain ⟨t, h', rfl⟩ := List.mem_map.1 h
      left
      have := (hs t h').apart
      unfold whole
      intro h2
      obtain ⟨v, hv⟩ := Option.ne_none_iff_exists'.1 (hs t h').mem
      rw [hv, ht.mem] at this
      rw [hv] at h2
      exact this (congrArg some h2))
  obtain ⟨m2, b1, b2, b3⟩ := C22_assign_pointwise n hn l b ht e he (fun c hc => ((hd c).2 (by
    unfold Interior at hc
    unfold HasCell Window.Covers origin
    unfold GhostData.Valid at hva
    rw [hsz]
    generalize l.geo.bc.hasExtra = ex at *
    iv_omega)).2) hind m
  refine ⟨m1, a1, ?_⟩
  rw [b1]
  have mapc : ∀ c, HasCell l.geo c ↔ InBlock l.geo.window.extent (c + l.geo.validGhosts.minus) := by
    intro c
    unfold HasCell Window.Covers origin
    constructor <;> intro h <;> iv_omega
  have addr : ∀ s : FieldObj, s.geo.validGhosts.minus = l.geo.validGhosts.minus → ∀ c,
      element s.geo.window (c + l.geo.validGhosts.minus) = cellAddr s.geo c := by
    intro s h c
    unfold element cellAddr origin
    rw [h]
    congr 1
    ext <;> simp only [IntVec.add_x, IntVec.add_y, IntVec.add_z] <;> omega
  congr 1
  funext blk a
  by_cases hin : blk = b ∧ ∃ c, HasCell l.geo c ∧ cellAddr l.geo c = a
  · obtain ⟨rfl, c, hc, rfl⟩ := hin
    rw [b2 c ((hd c).2 hc), hv c hc, ← addr l rfl c, a2 _ ((mapc c).1 hc)]
    unfold inputs
    beta_reduce
    rw [List.map_map]
    congr 1
    refine List.map_congr_left fun s h => ?_
    unfold valueAt
    dsimp only [Function.comp, whole]
    rw [addr s (hs s h).minus]
  · rw [b3 blk a, a3 blk a]
    · by_cases hb : blk = b
      · right
        intro c hc h
        refine hin ⟨hb, c - l.geo.validGhosts.minus, (mapc _).2 ?_, ?_⟩
        · iv_omega
        · rw [← addr l rfl, ← h]
          congr 1
          ext <;> simp only [IntVec.add_x, IntVec.add_y, IntVec.add_z, IntVec.sub_x, IntVec.sub_y, IntVec.sub_z] <;> omega
      · exact .inl hb
    · by_cases hb : blk = b
      · right
        intro c hc h
        exact hin ⟨hb, c, (hd c).1 hc, h⟩
      · exact .inl hb

end

/-- The sum of two fields: by a loop and by `<<=`, and both over the interior. -/
example (m : Mem Int) : ∃ m1 m2,
    zip (fun vs : List Int => vs.sum) (LoopsEx.fld true 0) [LoopsEx.fld true 1, LoopsEx.fld true 2] m = .ok m1 ∧
    assign (LoopsEx.fld true 0) (.bin (s := .num) (t := .num) (fun a b : Int => a + b) (.field (LoopsEx.fld true 1)) (.field (LoopsEx.fld true 2))) m = .ok m1 ∧
    zipInterior (fun vs : List Int => vs.sum) (LoopsEx.fld true 0) [LoopsEx.fld true 1, LoopsEx.fld true 2] m = .ok m2 ∧
    interiorAssign (LoopsEx.fld true 0) (.bin (s := .num) (t := .num) (fun a b : Int => a + b) (.field (LoopsEx.fld true 1)) (.field (LoopsEx.fld true 2))) m = .ok m2 := by
  have hw : ∀ b, OnMesh ⟨4, 3, 2⟩ (LoopsEx.fld true b).geo ∧ (LoopsEx.fld true b).values ≠ none := fun b =>
    ⟨LoopsEx.onMesh true, by simp [LoopsEx.fld]⟩
  have val : ∀ c, (Expr.bin (s := .num) (t := .num) (fun a b : Int => a + b) (.field (LoopsEx.fld true 1)) (.field (LoopsEx.fld true 2))).value m c =
      ([LoopsEx.fld true 1, LoopsEx.fld true 2].map fun s => valueAt m s c).sum := by
    intro c
    simp [Expr.value, valueAt]
  have alike : ∀ b, b ≠ 0 → Alike ⟨4, 3, 2⟩ (LoopsEx.fld true 0) (LoopsEx.fld true b) := fun b hb =>
    ⟨LoopsEx.onMesh true, (hw b).2, by simp [LoopsEx.fld, hb], rfl, rfl, rfl⟩
  have hin : HasInterior ⟨4, 3, 2⟩ (LoopsEx.geo true).bc.hasExtra (LoopsEx.geo true) := ⟨rfl, rfl, by decide, by decide⟩
  obtain ⟨m1, a1, a2⟩ := C76_loop_is_assign ⟨4, 3, 2⟩ (by decide) (LoopsEx.fld true 0) 0 (LoopsEx.target true 0)
    [LoopsEx.fld true 1, LoopsEx.fld true 2]
    (by intro s h; rcases List.mem_pair.1 h with rfl | rfl <;> exact alike _ (by decide))
    (.bin (s := .num) (t := .num) (fun a b : Int => a + b) (.field (LoopsEx.fld true 1)) (.field (LoopsEx.fld true 2)))
    ⟨hw 1, hw 2⟩ (by
      intro c
      have e1 : (LoopsEx.fld true 0).geo.ghosts = LoopsEx.g := rfl
      have e2 : (LoopsEx.fld true 0).geo.bc.hasExtra = ⟨1, 0, 0⟩ := by decide
      unfold Stored Expr.DefinedAt Expr.DefinedAt HasCell Window.Covers origin
      rw [e1, e2]
      simp only [LoopsEx.fld, LoopsEx.geo, LoopsEx.g, if_true]
      constructor
      · intro h; exact h.2.1
      · intro h; refine ⟨?_, h, h⟩; iv_omega) ⟨.inl (by simp [LoopsEx.fld]), .inl (by simp [LoopsEx.fld])⟩
    (fun vs => vs.sum) m (fun c _ => val c)
  obtain ⟨m2, b1, b2⟩ := C76_interior_loop_is_interior_assign ⟨4, 3, 2⟩ (by decide) (LoopsEx.fld true 0) 0 (LoopsEx.target true 0) hin
    [LoopsEx.fld true 1, LoopsEx.fld true 2]
    (by intro s h; rcases List.mem_pair.1 h with rfl | rfl <;>
          exact ⟨LoopsEx.onMesh true, (hw _).2, by simp [LoopsEx.fld], hin, by decide⟩)
    (.bin (s := .num) (t := .num) (fun a b : Int => a + b) (.field (LoopsEx.fld true 1)) (.field (LoopsEx.fld true 2)))
    ⟨hw 1, hw 2⟩ (by
      intro c hc
      have e2 : (LoopsEx.fld true 0).geo.bc.hasExtra = ⟨1, 0, 0⟩ := by decide
      unfold Interior at hc
      rw [e2] at hc
      unfold Expr.DefinedAt Expr.DefinedAt HasCell Window.Covers origin
      simp only [LoopsEx.fld, LoopsEx.geo, LoopsEx.g, if_true]
      constructor <;> iv_omega) ⟨.inl (by simp [LoopsEx.fld]), .inl (by simp [LoopsEx.fld])⟩
    (fun vs => vs.sum) m (fun c _ => val c)
  exact ⟨m1, m2, a1, a2, b1, b2⟩

/-! ## Reference stencils and operators -/

section
variable {K : Type} [Field K]

/-- C76. For every registered operator between types that differ in their positions in one direction only, applied to fields
built alike, the two-point reference stencil with the coefficients of the operator computes what the operator computes:
the value half a cell before times the first coefficient plus the value half a cell after times the second. -/
theorem C76_reference_two_point (h : Dir → K) (r : Reg) (hr : r ∈ registrations) (d : Dir) (hd : OnlyDirection r.src r.dest d)
    (lo hi : K) (hc : if r.op = .interpolant then lo = 1 / 2 ∧ hi = 1 / 2 else lo = -1 / h d ∧ hi = 1 / h d)
    (n : IntVec) (hn : IntVec.Lt 0 n) (src dest : FieldObj) (b : Nat) (ht : Twins n r.src r.dest src dest b) (m : Mem K) :
    ∃ m1 m2, ref2 r.src r.dest lo hi src dest m = .ok m1 ∧ r.applyToField h src dest m = .ok m2 ∧
      Agrees n src dest b (fun c q => q = lowSide r.dest d c ∨ q = highSide r.dest d c)
        (fun c => valueAt m src (lowSide r.dest d c) * lo + valueAt m src (highSide r.dest d c) * hi) m m1 m2 := by
  obtain ⟨t1, t2, t3⟩ := two_of hr hd
  obtain ⟨x, hx, hok⟩ := table2 hr t1
  obtain ⟨m1, h1, hl⟩ := refApply_ok hn ht hok true (by simp) [lo, hi] m
  have hcoef : r.coef.build h = some (coef2 lo hi) := by
    rw [t3]
    split at hc <;> rename_i ho
    · rw [if_pos ho, hc.1, hc.2]; rfl
    · rw [if_neg ho, hc.1, hc.2]; rfl
  have hap : r.apply h (.field src) =
      some (.stencil (.more (.one (lowPt r.dest d, lo)) (lowPt r.dest d + unit d, hi)) (.field src)) := by
    unfold Reg.apply
    unfold Reg.type at t1
    rw [t1, t2, hcoef]
    rfl
  obtain ⟨m2, h2, hv⟩ := apply_at h hr hn (readable hr ht) hap m
  have hlow : ∀ c, lowSide r.dest d c = c + lowPt r.dest d := lowSide_eq _ _
  have hhigh : ∀ c, highSide r.dest d c = c + (lowPt r.dest d + unit d) := by
    intro c; unfold highSide; rw [lowSide_eq]; apply IntVec.ext <;> simp <;> omega
  rw [t2] at hl
  refine ⟨m1, m2, ?_, h2, agrees ht.dest ht.target.mesh.fits hl ?_ ?_ ?_⟩
  · unfold ref2; rw [hx]; exact h1
  · intro c q hq
    rw [hlow, hhigh] at hq
    simpa [Pts.toList] using hq
  · intro c
    rw [hlow, hhigh]
    rfl
  · intro c hc
    rw [hv c hc, hlow, hhigh]
    rfl

/-- C76. Likewise for every registered operator between types that differ in their positions in two directions: the four-point
reference stencil, all coefficients a quarter, and the operator compute the mean of the four values around. (The
reference stencil takes iterators of the source that may write; the source must allow this.) -/
theorem C76_reference_four_point (h : Dir → K) (r : Reg) (hr : r ∈ registrations) (d1 d2 : Dir) (hd : TwoDirections r.src r.dest d1 d2)
    (n : IntVec) (hn : IntVec.Lt 0 n) (src dest : FieldObj) (b : Nat) (ht : Twins n r.src r.dest src dest b)
    (hs : src.memType = .localRam ∧ src.readOnly = false) (m : Mem K) :
    ∃ m1 m2, ref4 r.src r.dest (1 / 4) (1 / 4) (1 / 4) (1 / 4) src dest m = .ok m1 ∧ r.applyToField h src dest m = .ok m2 ∧
      Agrees n src dest b
        (fun c q => ∃ q1, (q1 = lowSide r.dest d1 c ∨ q1 = highSide r.dest d1 c) ∧ (q = lowSide r.dest d2 q1 ∨ q = highSide r.dest d2 q1))
        (fun c => (valueAt m src (lowSide r.dest d2 (lowSide r.dest d1 c)) + valueAt m src (highSide r.dest d2 (lowSide r.dest d1 c)) +
          valueAt m src (lowSide r.dest d2 (highSide r.dest d1 c)) + valueAt m src (highSide r.dest d2 (highSide r.dest d1 c))) * (1 / 4))
        m m1 m2 := by
  have hf := four_of hr hd
  unfold isFour at hf
  simp only [Bool.and_eq_true, Bool.or_eq_true, beq_iff_eq] at hf
  obtain ⟨⟨t1, t2⟩, t3⟩ := hf
  obtain ⟨x, hx, hok⟩ := table4 hr t1
  obtain ⟨m1, h1, hl⟩ := refApply_ok hn ht hok false (fun _ => hs) [1 / 4, 1 / 4, 1 / 4, (1 / 4 : K)] m
  have hcoef : r.coef.build h = some (coef4 (1 / 4) (1 / 4) (1 / 4) (1 / 4)) := by rw [t3]; rfl
  obtain ⟨l, hle⟩ : ∃ l, l = lowPt r.dest d1 + lowPt r.dest d2 := ⟨_, rfl⟩
  rw [← hle] at t2
  have e1 : ∀ c, lowSide r.dest d2 (lowSide r.dest d1 c) = c + l := by
    intro c; rw [hle, lowSide_eq, lowSide_eq]; apply IntVec.ext <;> simp <;> omega
  have e2 : ∀ c, highSide r.dest d2 (lowSide r.dest d1 c) = c + (l + unit d2) := by
    intro c; unfold highSide; rw [e1]; apply IntVec.ext <;> simp <;> omega
  have e3 : ∀ c, lowSide r.dest d2 (highSide r.dest d1 c) = c + (l + unit d1) := by
    intro c; unfold highSide; rw [hle, lowSide_eq, lowSide_eq]; apply IntVec.ext <;> simp <;> omega
  have e4 : ∀ c, highSide r.dest d2 (highSide r.dest d1 c) = c + (l + unit d1 + unit d2) := by
    intro c; rw [highSide, e3]; apply IntVec.ext <;> simp <;> omega
  have e5 : l + unit d2 + unit d1 = l + unit d1 + unit d2 := by apply IntVec.ext <;> simp <;> omega
  rw [e5] at t2
  have hap : ∃ e, r.apply h (.field src) = some e ∧ ∀ c, e.value m c =
      (valueAt m src (c + l) + valueAt m src (c + (l + unit d2)) + valueAt m src (c + (l + unit d1)) +
        valueAt m src (c + (l + unit d1 + unit d2))) * (1 / 4) := by
    unfold Reg.apply
    unfold Reg.type at t1
    rw [t1, hcoef]
    rcases t2 with t2 | t2 <;> rw [t2] <;> refine ⟨_, rfl, fun c => ?_⟩ <;> simp only [Expr.value, Pts.sum, valueAt] <;> ring
  obtain ⟨e, hap, hev⟩ := hap
  obtain ⟨m2, h2, hv⟩ := apply_at h hr hn (readable hr ht) hap m
  refine ⟨m1, m2, ?_, h2, agrees ht.dest ht.target.mesh.fits hl ?_ ?_ ?_⟩
  · unfold ref4; rw [hx]; exact h1
  · rintro c q ⟨q1, hq1, hq⟩
    rcases hq1 with rfl | rfl
    · rw [e1, e2] at hq
      rcases t2 with t2 | t2 <;> rw [t2] <;> simp only [Pts.toList, List.cons_append, List.nil_append, List.map_cons, List.map_nil, List.mem_cons,
        List.not_mem_nil, or_false] <;> tauto
    · rw [e3, e4] at hq
      rcases t2 with t2 | t2 <;> rw [t2] <;> simp only [Pts.toList, List.cons_append, List.nil_append, List.map_cons, List.map_nil, List.mem_cons,
        List.not_mem_nil, or_false] <;> tauto
  · intro c
    rw [e1, e2, e3, e4]
    rcases t2 with t2 | t2 <;> rw [t2] <;> simp only [Pts.toList, List.cons_append, List.nil_append, List.map_cons, List.map_nil, combine,
      List.zip_cons_cons, List.zip_nil_right, List.foldl_cons, List.foldl_nil] <;> ring
  · intro c hc
    rw [hv c hc, hev, e1, e2, e3, e4]

/-- C76. Likewise for the directional interpolants and gradients between fields of one type, if source and destination have
the same window (the reference stencil makes the destination's part from the window of the source). -/
theorem C76_reference_finite_difference (h : Dir → K) (r : Reg) (hr : r ∈ registrations) (d : Dir)
    (hd : r.op = .interpolantD d ∨ r.op = .gradientD d) (lo hi : K)
    (hc : if r.op = .interpolantD d then lo = 1 / 2 ∧ hi = 1 / 2 else lo = -(1 / 2) / h d ∧ hi = 1 / 2 / h d)
    (n : IntVec) (hn : IntVec.Lt 0 n) (src dest : FieldObj) (b : Nat) (ht : Twins n r.src r.dest src dest b)
    (hw : src.geo.window = dest.geo.window) (m : Mem K) :
    ∃ m1 m2, refFd d lo hi src dest m = .ok m1 ∧ r.applyToField h src dest m = .ok m2 ∧
      Agrees n src dest b (fun c q => q = c - unit d ∨ q = c + unit d)
        (fun c => valueAt m src (c - unit d) * lo + valueAt m src (c + unit d) * hi) m m1 m2 := by
  obtain ⟨t1, t2, t3⟩ := fd_of hr hd
  have ht' := ht
  rw [t2] at ht'
  obtain ⟨m1, h1, hl⟩ := fd_ok hn ht' hw d lo hi m
  have hcoef : r.coef.build h = some (coef2 lo hi) := by
    rw [t3]
    split at hc <;> rename_i ho
    · rw [if_pos ho, hc.1, hc.2]; rfl
    · rw [if_neg ho, hc.1, hc.2]; rfl
  have hap : r.apply h (.field src) =
      some (.stencil (.more (.one (negate (unitTriplet d), lo)) (unitTriplet d, hi)) (.field src)) := by
    unfold Reg.apply
    unfold Reg.type at t1
    rw [t1, hcoef]
    rfl
  have hu : unitTriplet d = unit d := by cases d <;> rfl
  have hp : (fdStencil d).toList = [negate (unitTriplet d), unitTriplet d] := rfl
  obtain ⟨m2, h2, hv⟩ := apply_at h hr hn (readable hr ht) hap m
  have hlow : ∀ c, c - unit d = c + negate (unitTriplet d) := by
    intro c; rw [hu]; cases d <;> simp [negate, unit] <;> ext <;> simp [IntVec.sub_x, IntVec.sub_y, IntVec.sub_z] <;> omega
  have hhigh : ∀ c, c + unit d = c + unitTriplet d := by intro c; rw [hu]
  rw [hp] at hl
  refine ⟨m1, m2, h1, h2, agrees ht.dest ht.target.mesh.fits hl ?_ ?_ ?_⟩
  · intro c q hq
    rw [hlow, hhigh] at hq
    simpa using hq
  · intro c
    rw [hlow, hhigh]
    rfl
  · intro c hc
    rw [hv c hc, hlow, hhigh]
    rfl

/-- C76. Likewise for interpolants between types with the same positions: the null reference stencil, which requires equal
windows, and the operator copy. -/
theorem C76_reference_null (h : Dir → K) (r : Reg) (hr : r ∈ registrations) (ho : r.op = .interpolant)
    (hd : ∀ d, staggered r.src d = staggered r.dest d) (n : IntVec) (hn : IntVec.Lt 0 n) (src dest : FieldObj) (b : Nat)
    (ht : Twins n r.src r.dest src dest b) (hw : src.geo.window = dest.geo.window) (m : Mem K) :
    ∃ m1 m2, refNull src dest m = .ok m1 ∧ r.applyToField h src dest m = .ok m2 ∧
      Agrees n src dest b (fun c q => q = c) (fun c => valueAt m src c) m m1 m2 := by
  obtain ⟨t1, t2⟩ := null_of hr ho hd
  obtain ⟨m1, h1, hl⟩ := null_ok hn ht hw m
  have hap : r.apply h (.field src) = some (.sumStencil nullStencil (.field src)) := by
    unfold Reg.apply
    unfold Reg.type at t1
    rw [t1, t2]
    rfl
  have hp : nullStencil.toList = [0] := rfl
  have h0 : ∀ c : IntVec, c + 0 = c := by intro c; ext <;> simp
  obtain ⟨m2, h2, hv⟩ := apply_at h hr hn (readable hr ht) hap m
  rw [hp] at hl
  refine ⟨m1, m2, h1, h2, agrees ht.dest ht.target.mesh.fits hl ?_ ?_ ?_⟩
  · intro c q hq
    simp [hq, h0]
  · intro c
    simp [h0]
  · intro c hc
    rw [hv c hc]
    show valueAt m src (c + 0) = _
    rw [h0]

/-- C76. Likewise for the filters: the reference box filter and the operator compute the mean over the 27 cells around. -/
theorem C76_reference_box_filter (h : Dir → K) (r : Reg) (hr : r ∈ registrations) (ho : r.op = .filter)
    (n : IntVec) (hn : IntVec.Lt 0 n) (src dest : FieldObj) (b : Nat) (ht : Twins n r.src r.dest src dest b) (m : Mem K) :
    ∃ m1 m2, refBox src dest m = .ok m1 ∧ r.applyToField h src dest m = .ok m2 ∧
      Agrees n src dest b (fun c q => InExtent (c - ⟨1, 1, 1⟩) ⟨3, 3, 3⟩ q)
        (fun c => blockSum (c - ⟨1, 1, 1⟩) ⟨3, 3, 3⟩ (valueAt m src) * (1 / 27)) m m1 m2 := by
  obtain ⟨t1, t2, t3⟩ := box_of hr ho
  have ht' := ht
  rw [t3] at ht'
  obtain ⟨m1, h1, hl⟩ := box_ok hn ht' m
  have hap : ∃ e, r.apply h (.field src) = some e ∧
      ∀ c, e.value m c = box3D.sum (fun p => valueAt m src (c + p)) * (1 / ((27 : Nat) : K)) := by
    unfold Reg.apply
    unfold Reg.type at t1
    rw [t1, t2]
    exact ⟨_, rfl, fun c => rfl⟩
  obtain ⟨e, hap, hev⟩ := hap
  obtain ⟨m2, h2, hv⟩ := apply_at h hr hn (readable hr ht) hap m
  have hsum : ∀ c, box3D.sum (fun p => valueAt m src (c + p)) = blockSum (c - ⟨1, 1, 1⟩) ⟨3, 3, 3⟩ (valueAt m src) := by
    intro c
    generalize valueAt m src = v
    have p0 : ∀ a : Int, a - 1 + 0 = a + -1 := by intro a; omega
    have p1 : ∀ a : Int, a - 1 + 1 = a + 0 := by intro a; omega
    have p2 : ∀ a : Int, a - 1 + 2 = a + 1 := by intro a; omega
    unfold blockSum
    have h3 : (3 : Int).toNat = 3 := rfl
    dsimp only [IntVec.sub_x, IntVec.sub_y, IntVec.sub_z]
    simp only [h3, Finset.sum_range_succ, Finset.sum_range_zero, zero_add, Nat.cast_zero, Nat.cast_one,
      Nat.cast_ofNat, p0, p1, p2]
    show _ = _
    simp only [box3D, mkPts, List.foldl_cons, List.foldl_nil, Pts.sum]
    have hv : ∀ x y z : Int, v (c + ⟨x, y, z⟩) = v ⟨c.x + x, c.y + y, c.z + z⟩ := fun _ _ _ => rfl
    simp only [hv]
    ring
  have near : ∀ c q, InExtent (c - ⟨1, 1, 1⟩) ⟨3, 3, 3⟩ q → q ∈ box3D.toList.map (c + ·) := by
    intro c q hq
    have hd : IntVec.Le ⟨-1, -1, -1⟩ (q - c) ∧ IntVec.Le (q - c) ⟨1, 1, 1⟩ := by unfold InExtent at hq; iv_omega
    have hall : ∀ x ∈ [(-1 : Int), 0, 1], ∀ y ∈ [(-1 : Int), 0, 1], ∀ z ∈ [(-1 : Int), 0, 1], (⟨x, y, z⟩ : IntVec) ∈ box3D.toList := by decide
    refine List.mem_map.2 ⟨q - c, ?_, by ext <;> simp [IntVec.sub_x, IntVec.sub_y, IntVec.sub_z]⟩
    have hm : ∀ x : Int, -1 ≤ x → x ≤ 1 → x ∈ [(-1 : Int), 0, 1] := by
      intro x h1 h2
      have : x = -1 ∨ x = 0 ∨ x = 1 := by omega
      simpa using this
    exact hall _ (hm _ hd.1.1 hd.2.1) _ (hm _ hd.1.2.1 hd.2.2.1) _ (hm _ hd.1.2.2 hd.2.2.2)
  refine ⟨m1, m2, h1, h2, agrees ht.dest ht.target.mesh.fits hl near ?_ ?_⟩
  · intro c
    rw [foldl_sum, zero_add, hsum]
    norm_num
  · intro c hc
    rw [hv c hc, hev, hsum]
    norm_num

end

/-- C76. Fields built in the usual way on one mesh with at least two cells in each direction, with the same finite ghosts, at
least one on each side, and the same boundaries, are fields to which the theorems above apply; if their types have the same extra boundary
cells, they have the same window. -/
theorem C76_new_fields_are_twins (n : IntVec) (hn : IntVec.Lt ⟨1, 1, 1⟩ n) (g : GhostData) (hg : g.Valid) (hf : g.isInf = false)
    (h1 : IntVec.Le ⟨1, 1, 1⟩ g.minus ∧ IntVec.Le ⟨1, 1, 1⟩ g.plus) (x y z : Bool) (st dt : FieldType) (src dest : FieldObj) (bs bd : Nat)
    (hs : Built n g x y z st src bs) (hd : Built n g x y z dt dest bd) (hne : bs ≠ bd) :
    Twins n st dt src dest bd ∧ (st.bcExtra = dt.bcExtra → src.geo.window = dest.geo.window) := by
  have hpos : ∀ t : FieldType, IntVec.Le 0 t.bcExtra := by intro t; cases t <;> decide
  have key : ∀ (t : FieldType) (f : FieldObj) (b : Nat), Built n g x y z t f b →
      OnMesh n f.geo ∧ f.geo.window.offset = 0 ∧ f.geo.window.extent = f.geo.window.npts ∧ f.geo.ghosts = g ∧ f.geo.validGhosts = g ∧
      f.geo.bc = BcInfo.build x y z t.bcExtra := by
    intro t f b hb
    obtain ⟨w, w1, w2⟩ := hb.geo
    obtain ⟨w', f', c1, c2, c3, c4, c5, c6, c7, c8, c9, c10, c11, c12, c13, lx, ly, lz⟩ := C09_field_layout n g x y z t.bcExtra hg (hpos t)
    rw [w1] at c1
    obtain rfl := Outcome.ok.inj c1
    rw [w2] at c2
    have e := Outcome.ok.inj c2
    rw [← e] at c3 c11 c12
    have hbc : f.geo.bc = BcInfo.build x y z t.bcExtra := by
      unfold FieldGeo.ctor at w2
      obtain ⟨g1, -, w2⟩ := Outcome.bind_eq_ok.1 w2
      obtain ⟨-, -, w2⟩ := Outcome.bind_eq_ok.1 w2
      obtain ⟨i, -, w2⟩ := Outcome.bind_eq_ok.1 w2
      injection w2 with w2
      rw [← w2]
    have hex : f.geo.bc.hasExtra = ⟨extraCells x t.bcExtra.x, extraCells y t.bcExtra.y, extraCells z t.bcExtra.z⟩ := by
      rw [hbc, SpatialOps.hasExtra_build]
    have a1 := (lx.active hn.1).2.2
    have a2 := (ly.active hn.2.1).2.2
    have a3 := (lz.active hn.2.2).2.2
    refine ⟨⟨?_, ?_, ?_, ?_, ?_, ?_, ?_⟩, ?_, ?_, c11, c12, hbc⟩
    · rw [c3]; exact c6
    · rw [c3, c5, hex, c12]
      ext <;> simp only [IntVec.add_x, IntVec.add_y, IntVec.add_z] <;> omega
    · rw [hex]
      have := hpos t
      unfold extraCells
      unfold IntVec.Le at this ⊢
      cases x <;> cases y <;> cases z <;> simp at this ⊢ <;> omega
    · rw [c12]; exact hg
    · rw [c12]; exact hf
    · rw [c11]; exact hg
    · rw [c11]; exact hf
    · rw [c3]; exact c4
    · rw [c3]; exact c5
  obtain ⟨s1, s2, s3, s4, s5, s6⟩ := key st src bs hs
  obtain ⟨d1, d2, d3, d4, d5, d6⟩ := key dt dest bd hd
  refine ⟨⟨⟨d1, hd.cpu, hd.writable, hd.mem, ?_⟩, s1, by rw [hs.mem]; simp, by rw [hs.mem, hd.mem]; simpa using hne, by rw [s5, d5], by rw [s5, d5],
    by rw [d5]; exact h1, x, y, z, s6, d6⟩, fun he => ?_⟩
  · have hsz := d1.size
    have q1 := congrArg IntVec.x hsz
    have q2 := congrArg IntVec.y hsz
    have q3 := congrArg IntVec.z hsz
    simp only [IntVec.add_x, IntVec.add_y, IntVec.add_z] at q1 q2 q3
    unfold origin
    rw [d2, d4, d5, ← d3]
    rw [d5] at q1 q2 q3
    generalize dest.geo.bc.hasExtra = ex at *
    iv_omega
  · have hb : src.geo.bc = dest.geo.bc := by rw [s6, d6, he]
    have he2 : src.geo.window.extent = dest.geo.window.extent := by rw [s1.size, d1.size, hb, s5, d5]
    have hnp : src.geo.window.npts = dest.geo.window.npts := by rw [← s3, ← d3, he2]
    generalize src.geo.window = w1 at *
    generalize dest.geo.window = w2 at *
    obtain ⟨a, b, c⟩ := w1
    obtain ⟨a', b', c'⟩ := w2
    simp only at he2 hnp s2 d2
    rw [he2, hnp, s2, d2]

namespace LoopsEx

theorem built (bx : Bool) (b : Nat) : Built ⟨4, 3, 2⟩ g true false false (if bx then .sSurfX else .sVol) (fld bx b) b := by
  refine ⟨⟨(geo bx).window, ?_, ?_⟩, rfl, rfl, rfl⟩ <;> cases bx <;> rfl

theorem twins (b1 b2 : Bool) (s d : Nat) (h : s ≠ d) :
    Twins ⟨4, 3, 2⟩ (if b1 then .sSurfX else .sVol) (if b2 then .sSurfX else .sVol) (fld b1 s) (fld b2 d) d :=
  (C76_new_fields_are_twins ⟨4, 3, 2⟩ (by decide) g (by decide) rfl (by decide) true false false _ _ _ _ s d (built b1 s) (built b2 d) h).1

end LoopsEx

/-- The gradient and the divergence in `x`, the interpolant to the same type, the filter and the gradient between cells of one
field; the four-point interpolant to faces of staggered cells is registered. -/
example : ∃ m1 m2 m3 m4 m5 : Mem ℚ,
    ref2 .sVol .sSurfX (-2) 2 (LoopsEx.fld false 0) (LoopsEx.fld true 1) (fun _ a => (a : ℚ)) = .ok m1 ∧
    ref2 .sSurfX .sVol (-2) 2 (LoopsEx.fld true 1) (LoopsEx.fld false 0) (fun _ a => (a : ℚ)) = .ok m2 ∧
    refNull (LoopsEx.fld false 1) (LoopsEx.fld false 0) (fun _ a => (a : ℚ)) = .ok m3 ∧
    refBox (LoopsEx.fld false 1) (LoopsEx.fld false 0) (fun _ a => (a : ℚ)) = .ok m4 ∧
    refFd .y (-1) 1 (LoopsEx.fld false 1) (LoopsEx.fld false 0) (fun _ a => (a : ℚ)) = .ok m5 ∧
    TwoDirections .sVol .xSurfY .x .y ∧ (Reg.mk .interpolant .sVol .xSurfY .quarter) ∈ registrations := by
  have hn : IntVec.Lt 0 (⟨4, 3, 2⟩ : IntVec) := by decide
  obtain ⟨m1, -, h1, -⟩ := C76_reference_two_point (fun _ => (1 / 2 : ℚ)) ⟨.gradient, .sVol, .sSurfX, .per .x⟩ (by decide +kernel) .x
    (onlyDir_iff (by decide)) (-2) 2 (by norm_num; decide) _ hn _ _ 1 (LoopsEx.twins false true 0 1 (by decide)) (fun _ a => (a : ℚ))
  obtain ⟨m2, -, h2, -⟩ := C76_reference_two_point (fun _ => (1 / 2 : ℚ)) ⟨.divergence, .sSurfX, .sVol, .per .x⟩ (by decide +kernel) .x
    (onlyDir_iff (by decide)) (-2) 2 (by norm_num; decide) _ hn _ _ 0 (LoopsEx.twins true false 1 0 (by decide)) (fun _ a => (a : ℚ))
  obtain ⟨m3, -, h3, -⟩ := C76_reference_null (fun _ => (1 / 2 : ℚ)) ⟨.interpolant, .sVol, .sVol, .absent⟩ (by decide +kernel) rfl
    (fun _ => rfl) _ hn _ _ 0 (LoopsEx.twins false false 1 0 (by decide)) rfl (fun _ a => (a : ℚ))
  obtain ⟨m4, -, h4, -⟩ := C76_reference_box_filter (fun _ => (1 / 2 : ℚ)) ⟨.filter, .sVol, .sVol, .absent⟩ (by decide +kernel) rfl
    _ hn _ _ 0 (LoopsEx.twins false false 1 0 (by decide)) (fun _ a => (a : ℚ))
  obtain ⟨m5, -, h5, -⟩ := C76_reference_finite_difference (fun _ => (1 / 2 : ℚ)) ⟨.gradientD .y, .sVol, .sVol, .halfPer .y⟩ (by decide +kernel) .y
    (.inr rfl) (-1) 1 (by norm_num; decide) _ hn _ _ 0 (LoopsEx.twins false false 1 0 (by decide)) rfl (fun _ a => (a : ℚ))
  refine ⟨m1, m2, m3, m4, m5, h1, h2, h3, h4, h5, ⟨by decide, fun d => by cases d <;> decide⟩, by decide +kernel⟩

/-- The number of directions in which the locations of two field types differ. -/
def LoopsEx.differences (a b : FieldType) : Nat :=
  (if a.offset.x = b.offset.x then 0 else 1) + (if a.offset.y = b.offset.y then 0 else 1) + if a.offset.z = b.offset.z then 0 else 1

/-- C76. The loops exist for exactly the pairs of different types they are meant for: the one with two points if the types are displaced in
one direction, the one with four points if in two. For other types they do not compile. -/
theorem C76_reference_types (st dt : FieldType) :
    (extents2 st dt ≠ none ↔ st ≠ dt ∧ LoopsEx.differences st dt = 1) ∧
    (extents4 st dt ≠ none ↔ st ≠ dt ∧ LoopsEx.differences st dt = 2) := by
  have key : ∀ st dt : FieldType, ((extents2 st dt).isSome = decide (st ≠ dt ∧ LoopsEx.differences st dt = 1)) ∧
      (extents4 st dt).isSome = decide (st ≠ dt ∧ LoopsEx.differences st dt = 2) := by
    intro st dt
    cases st <;> cases dt <;> exact ⟨by decide +kernel, by decide +kernel⟩
  obtain ⟨h1, h2⟩ := key st dt
  constructor
  · rw [Option.ne_none_iff_isSome, h1, decide_eq_true_iff]
  · rw [Option.ne_none_iff_isSome, h2, decide_eq_true_iff]

example : extents2 .sVol .sSurfX ≠ none ∧ extents4 .sVol .sSurfX = none ∧ extents4 .sVol .xSurfY ≠ none := by
  refine ⟨(C76_reference_types _ _).1.2 (by decide), ?_, (C76_reference_types _ _).2.2 (by decide)⟩
  by_contra h
  exact absurd ((C76_reference_types _ _).2.1 h) (by decide)

end SpatialOps
