import Verif.Nebo.Safe

/-!
# Properties C21 and C22: sequential Nebo assignment
-/

namespace SpatialOps
open Nebo

/-! ## Example fields -/

namespace NeboEx

/-- Layout of an example field: `4x3x1` interior cells, one ghost cell on both
sides in `x` and `y`, an extra boundary cell in `x` if `bx`. -/
def geo (bx : Bool) : FieldGeo :=
  let e : Int := if bx then 1 else 0
  ⟨⟨⟨6 + e, 5, 1⟩, 0, ⟨6 + e, 5, 1⟩⟩, ⟨⟨6 + e, 5, 1⟩, ⟨1, 1, 0⟩, ⟨4 + e, 3, 1⟩⟩,
    BcInfo.build bx false false ⟨1, 0, 0⟩, ⟨⟨1, 1, 0⟩, ⟨1, 1, 0⟩, false⟩, ⟨⟨1, 1, 0⟩, ⟨1, 1, 0⟩, false⟩, false⟩

/-- An example field with memory block `b`. -/
def fld (bx : Bool) (b : Nat) : FieldObj := ⟨geo bx, some b, none, true, .localRam, 0, false, [], [], false, (geo bx).window.globNpts⟩

theorem onMesh (bx : Bool) : OnMesh ⟨4, 3, 1⟩ (geo bx) := by
  cases bx <;> exact ⟨by decide, by decide, by decide, by decide, by decide, by decide, by decide⟩

theorem room (bx : Bool) : IntVec.Le 0 (origin (geo bx) - (geo bx).ghosts.minus) ∧
    IntVec.Le (origin (geo bx) + ⟨4, 3, 1⟩ + (geo bx).bc.hasExtra + (geo bx).ghosts.plus)
      (geo bx).window.npts := by
  cases bx <;> decide

theorem target (bx : Bool) (b : Nat) : Target ⟨4, 3, 1⟩ (fld bx b) b :=
  ⟨onMesh bx, rfl, rfl, rfl, room bx⟩

/-- A mask on the example mesh with all bits clear. -/
def msk : MaskObj := ⟨geo false, ⟨(geo false).interior, (geo false).validGhosts, 1, fun _ => 0⟩⟩

/-- `cond(mask, 2*a)(two-point stencil of b)`. -/
def expr : Expr Int .num :=
  .cond (.mask msk) (.bin (s := .num) (t := .num) (· * ·) (.scalar (t := .num) 2) (.field (fld false 1)))
    (.stencil (.more (.one (⟨-1, 0, 0⟩, 1)) (⟨0, 0, 0⟩, -1)) (.field (fld true 2)))

theorem wf : expr.Wf ⟨4, 3, 1⟩ :=
  ⟨⟨onMesh false, by decide⟩, ⟨trivial, onMesh false, by decide⟩, onMesh true, by decide⟩

theorem sane : expr.Sane :=
  ⟨⟨⟨_, by decide, onMesh false⟩, by decide⟩, ⟨trivial, ⟨_, by decide, onMesh false⟩, by decide⟩,
    ⟨_, by decide, onMesh true⟩, by decide⟩

theorem independent : expr.Independent (fld true 0) 0 :=
  ⟨trivial, ⟨trivial, .inl (by decide)⟩, by
    intro q _; exact .inl (by decide)⟩

theorem definedOn {l : FieldObj} (hl : l = fld true 0) (c : IntVec) (hc : Interior ⟨4, 3, 1⟩ l c) :
    expr.DefinedAt ⟨4, 3, 1⟩ c := by
  subst hl
  have hh := hasCell_iff (onMesh false)
  have ht := hasCell_iff (onMesh true)
  have e1 : (geo false).validGhosts.minus = ⟨1, 1, 0⟩ := rfl
  have e2 : (geo false).validGhosts.plus + (geo false).bc.hasExtra = ⟨1, 1, 0⟩ := by decide
  have e3 : (geo true).validGhosts.minus = ⟨1, 1, 0⟩ := rfl
  have e4 : (geo true).validGhosts.plus + (geo true).bc.hasExtra = ⟨2, 1, 0⟩ := by decide
  have e5 : (fld true 0).geo.bc.hasExtra = ⟨1, 0, 0⟩ := by decide
  unfold Interior at hc
  rw [e5] at hc
  rw [e1, e2] at hh
  rw [e3, e4] at ht
  unfold InBox at hh ht
  refine ⟨(hh c).2 (by iv_omega), ⟨?_, (hh c).2 (by iv_omega)⟩, ?_⟩
  · simp only [Expr.DefinedAt, ghostMax]
    iv_omega
  · intro q hq
    refine ⟨(ht c).2 (by iv_omega), (ht _).2 ?_⟩
    simp only [Pts.toList, List.cons_append, List.nil_append, List.mem_cons, List.not_mem_nil, or_false] at hq
    rcases hq with rfl | rfl <;> iv_omega

end NeboEx

/-! ## C21 -/

/-- C21. Whatever the sizes, ghosts and boundary cells of the fields (they need not
agree with each other), `<<=` and `interior_assign` never read or write outside an
allocation, and, if they are accepted, change only the destination's own interior
and ghost cells. -/
theorem C21_never_outside_memory {V : Type} [Add V] [Mul V] (n : IntVec) (hn : IntVec.Lt 0 n)
    (l : FieldObj) (b : Nat) (hl : OnMesh n l.geo) (hv : l.values = some b)
    (hroom : IntVec.Le 0 (origin l.geo - l.geo.ghosts.minus) ∧
      IntVec.Le (origin l.geo + n + l.geo.bc.hasExtra + l.geo.ghosts.plus) l.geo.window.npts)
    (e : Expr V .num) (he : e.Sane) (m : Mem V) (o : Outcome (Mem V))
    (ho : o = assign l e m ∨ o = interiorAssign l e m) :
    o ≠ .ub ∧ ∀ m', o = .ok m' → ∀ blk a,
      (blk ≠ b ∨ ∀ c, Stored n l c → cellAddr l.geo c ≠ a) → m' blk a = m blk a := by
  rcases ho with rfl | rfl
  · exact sequentialAssign_safe hn hl hv hroom he true m
  · exact sequentialAssign_safe hn hl hv hroom he false m

example : ∃ (n : IntVec) (l : FieldObj) (b : Nat), IntVec.Lt 0 n ∧ OnMesh n l.geo ∧ l.values = some b ∧
    IntVec.Le 0 (origin l.geo - l.geo.ghosts.minus) ∧
    IntVec.Le (origin l.geo + n + l.geo.bc.hasExtra + l.geo.ghosts.plus) l.geo.window.npts ∧
    NeboEx.expr.Sane :=
  ⟨⟨4, 3, 1⟩, NeboEx.fld true 0, 0, by decide, NeboEx.onMesh true, rfl, (NeboEx.target true 0).room.1,
    (NeboEx.target true 0).room.2, NeboEx.sane⟩

/-! ## C22 -/

/-- C22. `lhs <<= e`, for an expression that has a value at every interior cell of
the destination, is accepted and stores at every interior and ghost cell where the
expression has a value exactly that value; no other element of memory changes. -/
theorem C22_assign_pointwise {V : Type} [Add V] [Mul V] (n : IntVec) (hn : IntVec.Lt 0 n) (l : FieldObj)
    (b : Nat) (ht : Target n l b) (e : Expr V .num) (he : e.Wf n)
    (hd : ∀ c, Interior n l c → e.DefinedAt n c) (hi : e.Independent l 0) (m : Mem V) :
    ∃ m', assign l e m = .ok m' ∧
      Assigned l b e (fun c => Stored n l c ∧ e.DefinedAt n c) m m' := by
  have hx := ht.mesh.extra
  have hg := ht.mesh.ghosts
  obtain ⟨pg, hpg⟩ := possibleGhosts_ok hn e he fun c h0 h1 => hd c ⟨h0, by iv_omega⟩
  obtain ⟨pv, pex⟩ := possibleGhosts_exact e he pg hpg
  have hint : IntVec.Le l.geo.bc.hasExtra pg.plus := by
    have := (pex (n + l.geo.bc.hasExtra - ⟨1, 1, 1⟩)).1 (hd _ (by unfold Interior; iv_omega))
    unfold InBox at this; iv_omega
  have := sequentialAssign_core ht he hi hpg hint true
    ⟨0, by
      rw [if_pos rfl]
      unfold GhostData.Valid at hg
      exact ⟨by unfold Stored; iv_omega, hd 0 (by unfold Interior; iv_omega)⟩⟩ m
  simp only [if_true] at this
  exact this

/-- C22. `interior_assign(lhs, e)` does the same on the interior cells (boundary
cells included) only. -/
theorem C22_interior_assign_pointwise {V : Type} [Add V] [Mul V] (n : IntVec) (hn : IntVec.Lt 0 n)
    (l : FieldObj) (b : Nat) (ht : Target n l b) (e : Expr V .num) (he : e.Wf n)
    (hd : ∀ c, Interior n l c → e.DefinedAt n c) (hi : e.Independent l 0) (m : Mem V) :
    ∃ m', interiorAssign l e m = .ok m' ∧ Assigned l b e (Interior n l) m m' := by
  have hx := ht.mesh.extra
  obtain ⟨pg, hpg⟩ := possibleGhosts_ok hn e he fun c h0 h1 => hd c ⟨h0, by iv_omega⟩
  obtain ⟨pv, pex⟩ := possibleGhosts_exact e he pg hpg
  have hint : IntVec.Le l.geo.bc.hasExtra pg.plus := by
    have := (pex (n + l.geo.bc.hasExtra - ⟨1, 1, 1⟩)).1 (hd _ (by unfold Interior; iv_omega))
    unfold InBox at this; iv_omega
  have := sequentialAssign_core ht he hi hpg hint false
    ⟨0, by
      rw [if_neg (by simp)]
      unfold Interior; iv_omega⟩ m
  simp only [Bool.false_eq_true, if_false] at this
  exact this

example : ∃ (n : IntVec) (l : FieldObj) (b : Nat), IntVec.Lt 0 n ∧ Target n l b ∧ NeboEx.expr.Wf n ∧
    (∀ c, Interior n l c → NeboEx.expr.DefinedAt n c) ∧ NeboEx.expr.Independent l 0 :=
  ⟨⟨4, 3, 1⟩, NeboEx.fld true 0, 0, by decide, NeboEx.target true 0, NeboEx.wf, NeboEx.definedOn rfl,
    NeboEx.independent⟩

/-- C22. If the expression lacks a value at some interior cell of the destination,
both assignments are refused (an exception or a failed assertion) before anything is
stored. -/
theorem C22_undefined_interior_refused {V : Type} [Add V] [Mul V] (n : IntVec) (l : FieldObj) (e : Expr V .num) (he : e.Wf n)
    (c : IntVec) (hc : Interior n l c) (hd : ¬ e.DefinedAt n c) (m : Mem V) (o : Outcome (Mem V))
    (ho : o = assign l e m ∨ o = interiorAssign l e m) : o = .throws ∨ o = .abort := by
  have main : ∀ g, sequentialAssign g l e m = .throws ∨ sequentialAssign g l e m = .abort := by
    intro g
    unfold sequentialAssign
    cases hpg : e.possibleGhosts with
    | ub => exact absurd hpg (possibleGhosts_ne_ub e)
    | abort => exact .inr rfl
    | throws => exact .inl rfl
    | ok pg =>
      rw [Outcome.ok_bind]
      obtain ⟨pv, pex⟩ := possibleGhosts_exact e he pg hpg
      have hx : ¬ IntVec.Le l.geo.bc.hasExtra pg.plus := by
        intro hx
        apply hd
        rw [pex]
        unfold Interior at hc
        unfold InBox
        unfold GhostData.Valid at pv
        iv_omega
      rw [calc_refused hx pv]
      exact .inl rfl
  rcases ho with rfl | rfl
  · exact main true
  · exact main false

example : ∃ (n : IntVec) (l : FieldObj), (Expr.field (V := Int) (NeboEx.fld false 1)).Wf n ∧
    ∃ c, Interior n l c ∧ ¬ (Expr.stencil (V := Int) (.one (⟨2, 0, 0⟩, 1)) (.field (NeboEx.fld false 1))).DefinedAt n c := by
  refine ⟨⟨4, 3, 1⟩, NeboEx.fld true 0, ⟨NeboEx.onMesh false, by decide⟩,
    ⟨3, 0, 0⟩, by unfold Interior; decide, ?_⟩
  intro h
  have h2 := (h (⟨2, 0, 0⟩, 1) (by simp [Pts.toList])).2
  rw [show (Expr.field (V := Int) (NeboEx.fld false 1)).DefinedAt ⟨4, 3, 1⟩ (⟨3, 0, 0⟩ + ⟨2, 0, 0⟩) =
    HasCell (NeboEx.geo false) (⟨3, 0, 0⟩ + ⟨2, 0, 0⟩) from rfl, hasCell_iff (NeboEx.onMesh false)] at h2
  revert h2
  unfold InBox
  decide

/-- C22, directions of extent one. A field with `n_d = 1` has no ghost layers in that
direction, so it lies on a "mesh" with `1 - ghosts` cells there and the previous
theorems do not apply; as long as the ghost computation itself does not fail and
some cell is to be assigned, `<<=` has the same pointwise meaning. -/
theorem C22_assign_any_mesh {V : Type} [Add V] [Mul V] (n : IntVec) (l : FieldObj)
    (b : Nat) (ht : Target n l b) (e : Expr V .num) (he : e.Wf n) (hi : e.Independent l 0)
    (pg : GhostData) (hpg : e.possibleGhosts = .ok pg) (hx : IntVec.Le l.geo.bc.hasExtra pg.plus)
    (c : IntVec) (hc : Stored n l c ∧ e.DefinedAt n c) (m : Mem V) :
    ∃ m', assign l e m = .ok m' ∧
      Assigned l b e (fun c => Stored n l c ∧ e.DefinedAt n c) m m' := by
  have := sequentialAssign_core ht he hi hpg hx true ⟨c, by rw [if_pos rfl]; exact hc⟩ m
  simp only [if_true] at this
  exact this

/-- A `4x3` field on a mesh with one cell in `z` and a nominal ghost cell there. -/
private def flat (b : Nat) : FieldObj :=
  ⟨⟨⟨⟨6, 5, 1⟩, 0, ⟨6, 5, 1⟩⟩, ⟨⟨6, 5, 1⟩, ⟨1, 1, 0⟩, ⟨4, 3, 1⟩⟩, BcInfo.build false false false 0,
    ⟨⟨1, 1, 1⟩, ⟨1, 1, 1⟩, false⟩, ⟨⟨1, 1, 1⟩, ⟨1, 1, 1⟩, false⟩, false⟩, some b, none, true, .localRam, 0,
    false, [], [], false, 30⟩

example : ∃ n l b pg c, Target n l b ∧ (Expr.field (V := Int) (flat 1)).Wf n ∧ (Expr.field (V := Int) (flat 1)).Independent l 0 ∧
    (Expr.field (V := Int) (flat 1)).possibleGhosts = .ok pg ∧ IntVec.Le l.geo.bc.hasExtra pg.plus ∧
    Stored n l c ∧ (Expr.field (V := Int) (flat 1)).DefinedAt n c :=
  ⟨⟨4, 3, -1⟩, flat 0, 0, ⟨⟨1, 1, 1⟩, ⟨1, 1, 1⟩, false⟩, ⟨0, 0, -1⟩,
    ⟨⟨by decide, by decide, by decide, by decide, by decide, by decide, by decide⟩, rfl, rfl, rfl, by decide⟩,
    ⟨⟨by decide, by decide, by decide, by decide, by decide, by decide, by decide⟩, by decide⟩, .inl (by decide), by decide,
    by decide, by unfold Stored; decide, by unfold Expr.DefinedAt HasCell Window.Covers; decide⟩

/-- The element an accepted assignment leaves at a position. -/
private def peek (o : Outcome (Mem Int)) (b : Nat) (a : Int) : Option Int :=
  match o with
  | .ok m => some (m b a)
  | _ => none

/-- C22. `interior_assign` in a direction of extent one with nominal ghosts: the
interior is computed as one minus the ghosts, negative here, and the call is
refused although the field has interior cells. -/
theorem C22_interior_assign_flat_refused :
    ∃ (l : FieldObj) (e : Expr Int .num), l.memType = .localRam ∧ l.readOnly = false ∧
      l.geo.interior.Fits ∧ l.geo.interior.Nonempty ∧ ∀ m, interiorAssign l e m = .abort :=
  ⟨flat 0, .field (flat 1), rfl, rfl, by decide, by decide, fun _ => rfl⟩

/-- C22. The hypothesis that the expression does not read the destination at other
cells is needed: `f <<= shift(f)` reads cells already overwritten. Here the value of
the left neighbour is asked for; cell 1 receives the neighbour's new value. -/
theorem C22_inplace_shift_reads_new_values :
    ∃ (n : IntVec) (l : FieldObj) (b : Nat) (e : Expr Int .num) (m : Mem Int) (c : IntVec),
      IntVec.Lt 0 n ∧ Target n l b ∧ e.Wf n ∧ Stored n l c ∧
      ∃ v, peek (assign l e m) b (cellAddr l.geo c) = some v ∧ v ≠ e.value m c := by
  refine ⟨⟨4, 3, 1⟩, NeboEx.fld false 0, 0, .sumStencil (.one ⟨-1, 0, 0⟩) (.field (NeboEx.fld false 0)),
    fun _ a => a, ⟨1, 0, 0⟩, by decide, NeboEx.target false 0,
    by unfold Expr.Wf Expr.Wf; exact ⟨NeboEx.onMesh false, by decide⟩, by unfold Stored; decide, 6, by decide +kernel, by decide +kernel⟩

/-- C22. What `lhs <<= e` does when `e` may read `lhs` itself, displaced or not: the cells
are visited in Fortran order and each receives the value of `e` in the memory as it is at
that moment. -/
theorem C22_assign_in_place {V : Type} [Add V] [Mul V] (n : IntVec) (hn : IntVec.Lt 0 n) (l : FieldObj)
    (b : Nat) (ht : Target n l b) (e : Expr V .num) (he : e.Wf n)
    (hd : ∀ c, Interior n l c → e.DefinedAt n c) (m : Mem V) :
    ∃ m', assign l e m = .ok m' ∧
      AssignedInTurn l b e (fun c => Stored n l c ∧ e.DefinedAt n c) m m' := by
  have hx := ht.mesh.extra
  have hg := ht.mesh.ghosts
  obtain ⟨pg, hpg⟩ := possibleGhosts_ok hn e he fun c h0 h1 => hd c ⟨h0, by iv_omega⟩
  obtain ⟨pv, pex⟩ := possibleGhosts_exact e he pg hpg
  have hint : IntVec.Le l.geo.bc.hasExtra pg.plus := by
    have := (pex (n + l.geo.bc.hasExtra - ⟨1, 1, 1⟩)).1 (hd _ (by unfold Interior; iv_omega))
    unfold InBox at this; iv_omega
  have := sequentialAssign_exact ht he hpg hint true
    ⟨0, by
      rw [if_pos rfl]
      unfold GhostData.Valid at hg
      exact ⟨by unfold Stored; iv_omega, hd 0 (by unfold Interior; iv_omega)⟩⟩ m
  simp only [if_true] at this
  exact this

example : ∃ (n : IntVec) (l : FieldObj) (b : Nat) (e : Expr Int .num), IntVec.Lt 0 n ∧ Target n l b ∧ e.Wf n ∧
    (∀ c, Interior n l c → e.DefinedAt n c) ∧ ¬ e.Independent l 0 := by
  refine ⟨⟨4, 3, 1⟩, NeboEx.fld false 0, 0, .sumStencil (.one ⟨-1, 0, 0⟩) (.field (NeboEx.fld false 0)),
    by decide, NeboEx.target false 0,
    by unfold Expr.Wf Expr.Wf; exact ⟨NeboEx.onMesh false, by decide⟩, ?_, ?_⟩
  · intro c hc q hq
    simp only [Pts.toList, List.mem_singleton] at hq
    subst hq
    unfold Interior at hc
    rw [show (NeboEx.fld false 0).geo.bc.hasExtra = 0 by decide] at hc
    have hb : ∀ c, (Expr.field (V := Int) (NeboEx.fld false 0)).DefinedAt ⟨4, 3, 1⟩ c ↔
        HasCell (NeboEx.geo false) c := fun _ => Iff.rfl
    rw [hb, hb, hasCell_iff (NeboEx.onMesh false), hasCell_iff (NeboEx.onMesh false)]
    have e1 : (NeboEx.geo false).validGhosts.minus = ⟨1, 1, 0⟩ := by decide
    have e2 : (NeboEx.geo false).validGhosts.plus = ⟨1, 1, 0⟩ := by decide
    have e3 : (NeboEx.geo false).bc.hasExtra = 0 := by decide
    unfold InBox
    rw [e1, e2, e3]
    iv_omega
  · intro h
    have := h ⟨-1, 0, 0⟩ (by simp [Pts.toList])
    rcases this with h | h
    · exact h rfl
    · exact absurd h.1 (by decide)

/-! ## C21, reads -/

/-- C21. Nothing but the interior and valid ghost cells of the fields named in the
expression influences the result: two memories that agree there give the same
assigned values (and both runs are accepted). -/
theorem C21_reads_only_valid_cells {V : Type} [Add V] [Mul V] (n : IntVec) (hn : IntVec.Lt 0 n)
    (l : FieldObj) (b : Nat) (ht : Target n l b) (e : Expr V .num) (he : e.Wf n)
    (hd : ∀ c, Interior n l c → e.DefinedAt n c) (hi : e.Independent l 0) (m1 m2 : Mem V)
    (ha : e.SameInputs m1 m2) :
    ∃ m1' m2', assign l e m1 = .ok m1' ∧ assign l e m2 = .ok m2' ∧
      ∀ c, Stored n l c → e.DefinedAt n c → m1' b (cellAddr l.geo c) = m2' b (cellAddr l.geo c) := by
  obtain ⟨m1', h1, a1, -⟩ := C22_assign_pointwise n hn l b ht e he hd hi m1
  obtain ⟨m2', h2, a2, -⟩ := C22_assign_pointwise n hn l b ht e he hd hi m2
  refine ⟨m1', m2', h1, h2, fun c hs hc => ?_⟩
  rw [a1 c ⟨hs, hc⟩, a2 c ⟨hs, hc⟩]
  exact value_congr e ha c hc

example : ∃ m1 m2 : Mem Int, m1 ≠ m2 ∧ NeboEx.expr.SameInputs m1 m2 := by
  refine ⟨fun _ _ => 0, fun b _ => if b = 7 then 1 else 0, ?_, ?_⟩
  · intro h; have := congrFun (congrFun h 7) 0; simp at this
  · exact ⟨trivial, ⟨trivial, fun c _ => rfl⟩, fun c _ => rfl⟩

end SpatialOps
