import Verif.Release.Lemmas
import Verif.Nebo.Props
import Verif.Particle.Props

/-!
# Property C97: a build without the debug checks
-/

namespace SpatialOps
namespace Rel
open Nebo

/-- The element an accepted assignment leaves at a position. -/
def peek (o : Option (Outcome (Mem Int))) (b : Nat) (a : Int) : Option Int :=
  match o with
  | some (.ok m) => some (m b a)
  | _ => none

/-- Whether a call throws. -/
def isThrows {α : Type} : Outcome α → Bool
  | .throws => true
  | _ => false

theorem eq_throws {α : Type} {o : Outcome α} (h : isThrows o = true) : o = .throws := by
  cases o <;> first | rfl | cases h

/-! ## Example fields -/

/-- Layout of a field of `4x3x1` cells with `g` ghost cells on both sides in `y`. -/
def exGeo (g : Int) : FieldGeo :=
  ⟨⟨⟨4, 3 + 2 * g, 1⟩, 0, ⟨4, 3 + 2 * g, 1⟩⟩, ⟨⟨4, 3 + 2 * g, 1⟩, ⟨0, g, 0⟩, ⟨4, 3, 1⟩⟩,
    BcInfo.build false false false 0, ⟨⟨0, g, 0⟩, ⟨0, g, 0⟩, false⟩, ⟨⟨0, g, 0⟩, ⟨0, g, 0⟩, false⟩, false⟩

/-- A CPU field with that layout and memory block `b`. -/
def exField (g : Int) (b : Nat) : FieldObj :=
  ⟨exGeo g, some b, none, true, .localRam, 0, false, [], [], false, (exGeo g).window.globNpts⟩

/-- A field of `2x3x1` cells without ghost cells. -/
def exSmall (b : Nat) : FieldObj :=
  ⟨⟨⟨⟨2, 3, 1⟩, 0, ⟨2, 3, 1⟩⟩, ⟨⟨2, 3, 1⟩, 0, ⟨2, 3, 1⟩⟩, BcInfo.build false false false 0, ⟨0, 0, false⟩,
    ⟨0, 0, false⟩, false⟩, some b, none, true, .localRam, 0, false, [], [], false, 6⟩

theorem exMesh (g : Int) (hg : g = 0 ∨ g = 1) : OnMesh ⟨4, 3, 1⟩ (exGeo g) := by
  rcases hg with rfl | rfl <;> exact ⟨by decide, by decide, by decide, by decide, by decide, by decide, by decide⟩

theorem exRoom (g : Int) (hg : g = 0 ∨ g = 1) : IntVec.Le 0 (origin (exGeo g) - (exGeo g).ghosts.minus) ∧
    IntVec.Le (origin (exGeo g) + ⟨4, 3, 1⟩ + (exGeo g).bc.hasExtra + (exGeo g).ghosts.plus) (exGeo g).window.npts := by
  rcases hg with rfl | rfl <;> decide

theorem exTarget (g : Int) (hg : g = 0 ∨ g = 1) (b : Nat) : Target ⟨4, 3, 1⟩ (exField g b) b := by
  refine ⟨exMesh g hg, rfl, rfl, rfl, ?_⟩
  exact exRoom g hg

/-- The value of the cell to the left of field 1. -/
def leftOf (g : Int) : Expr Int .num := .sumStencil (.one ⟨-1, 0, 0⟩) (.field (exField g 1))

/-! ## The same results -/

/-- C97. Assignments: whenever the debug build accepts `lhs <<= e` or `interior_assign(lhs, e)`, the
release build ends with the very same memory. Nothing is assumed about the fields. -/
theorem _root_.SpatialOps.C97_assign_same {V : Type} [Add V] [Mul V] (l : FieldObj) (e : Expr V .num) (m : Mem V) :
    SameLoop (Nebo.assign l e m) (assign l e m) ∧ SameLoop (Nebo.interiorAssign l e m) (interiorAssign l e m) :=
  ⟨sequentialAssign_same true l e m, sequentialAssign_same false l e m⟩

example (m : Mem Int) : ∃ m', Nebo.assign (NeboEx.fld true 0) NeboEx.expr m = .ok m' :=
  (C22_assign_pointwise ⟨4, 3, 1⟩ (by decide) _ 0 (NeboEx.target true 0) NeboEx.expr NeboEx.wf (NeboEx.definedOn rfl)
    NeboEx.independent m).imp fun _ h => h.1

/-- C97. Reductions: whatever a fold or a reduction (hence `nebo_sum`, `nebo_max`, `nebo_min`,
`nebo_norm`) returns in the debug build, it returns in the release build, in as many trips. -/
theorem _root_.SpatialOps.C97_reductions_same {V R : Type} [Add V] [Mul V] (e : Expr V .num) (m : Mem V) (trips : Nat) :
    (∀ (proc : R → V → R) (initial r : R), Nebo.neboFold proc initial e m trips = some (.ok r) →
      neboFold proc initial e m trips = some (.ok r)) ∧
    (∀ (proc : R → V → R) (initial r : R), Nebo.neboFoldInterior proc initial e m trips = some (.ok r) →
      neboFoldInterior proc initial e m trips = some (.ok r)) ∧
    (∀ (proc : V → V → V) (r : V), Nebo.neboReduce proc e m trips = some (.ok r) →
      neboReduce proc e m trips = some (.ok r)) ∧
    (∀ (proc : V → V → V) (r : V), Nebo.neboReduceInterior proc e m trips = some (.ok r) →
      neboReduceInterior proc e m trips = some (.ok r)) := by
  refine ⟨fun proc i r h => ?_, fun proc i r h => ?_, fun proc r h => ?_, fun proc r h => ?_⟩
  · exact andThen_same (same_possibleGhosts e)
      (fun g b h => andThen_same (same_init true m _ _ e 0) (fun w b h => foldLoop_same proc m trips w i b h) b h) r h
  · unfold Nebo.neboFoldInterior at h
    rw [show GhostData.makeUniform 0 = .ok ⟨0, 0, false⟩ by decide] at h
    exact andThen_same (same_init true m _ _ e 0) (fun w b h => foldLoop_same proc m trips w i b h) r h
  · exact andThen_same (same_possibleGhosts e)
      (fun g b h => andThen_same (same_init true m _ _ e 0) (fun w b h => reduceLoop_same proc m w trips b h) b h) r h
  · unfold Nebo.neboReduceInterior at h
    rw [show GhostData.makeUniform 0 = .ok ⟨0, 0, false⟩ by decide] at h
    exact andThen_same (same_init true m _ _ e 0) (fun w b h => reduceLoop_same proc m w trips b h) r h

example : Nebo.neboReduce (fun a b => a + b) (.field (exField 0 1) : Expr Int .num) (fun _ a => a) 11 = some (.ok 66) := by
  decide +kernel

/-- C97. Element access, index maps and window splitting. -/
theorem _root_.SpatialOps.C97_access_same (f : FieldObj) (w : Window) (ijk split loc : IntVec) (i : Int) :
    Same (f.callC ijk) (callC f ijk) ∧ Same (f.callM ijk) (callM f ijk) ∧
    Same (w.flatIndex ijk) (.ok (flatIndex w ijk)) ∧ Same (SpatialOps.flatToIjk ijk i) (flatToIjk ijk i) ∧
    Same (w.refine split loc) (refine w split loc) :=
  ⟨same_callC f ijk, same_callM f ijk, same_flatIndex w ijk, same_flatToIjk ijk i, same_refine w split loc⟩

example : ∃ a, (exField 0 1).callC ⟨3, 2, 0⟩ = .ok a := ⟨(1, 11), by decide⟩

/-- C97. Construction of fields, of views of fields, of scratch fields, and change of valid ghosts. -/
theorem _root_.SpatialOps.C97_fields_same (single : Bool) (w : Window) (bc : BcInfo) (g : GhostData) (f : FieldGeo) :
    Same (FieldGeo.ctor single w bc g) (.ok (ctor w bc g)) ∧ Same (f.windowCopy single w) (.ok (windowCopy w f)) ∧
    Same (f.resetValidGhosts g) (.ok (resetValidGhosts f g)) ∧
    Same (SpatialOps.storeFromWindow single w bc g) (.ok (storeFromWindow w bc g)) :=
  ⟨same_ctor single w bc g, same_windowCopy single w f, same_reset f g, same_store single w bc g⟩

example : ∃ a, FieldGeo.ctor false ⟨⟨4, 5, 1⟩, 0, ⟨4, 5, 1⟩⟩ (BcInfo.build false false false 0) ⟨⟨0, 1, 0⟩, ⟨0, 1, 0⟩, false⟩ = .ok a :=
  ⟨exGeo 1, by decide⟩

/-- C97. Masks: building one from points and asking for a point. -/
theorem _root_.SpatialOps.C97_masks_same (f : FieldGeo) (points : List IntVec) (m : BitField) (p : IntVec) :
    Same (SpatialOps.spatialMask f points) (spatialMask f points) ∧ Same (m.query p) (query m p) :=
  ⟨same_spatialMask f points, same_query m p⟩

example : (SpatialOps.spatialMask (exGeo 1) [⟨0, 0, 0⟩, ⟨3, 2, 0⟩] >>= fun m => m.query ⟨3, 2, 0⟩) = .ok true := by
  decide +kernel

/-- C97. Particles. -/
theorem _root_.SpatialOps.C97_particles_same {K : Type} [Field K] [LinearOrder K] [FloorRing K] (o : Particle.Op K)
    (ps : List (Particle.Drop K × K)) (qs : List (Particle.Drop K)) (f : Particle.Line K) :
    Same (o.particleToCell ps f) (particleToCell o ps f) ∧ Same (o.cellToParticle f qs) (cellToParticle o f qs) :=
  ⟨same_toCells o ps _, same_cellToParticle o f qs⟩

example : ∃ d : Particle.Line ℚ, Particle.Ex.op.particleToCell [(⟨2, 3 / 2⟩, 6)] ⟨5, fun _ => 1⟩ = .ok d :=
  (C43_deposit_weights_partial Particle.Ex.op 5 Particle.Ex.standard [(⟨2, 3 / 2⟩, 6)]
    (by intro p hp; rw [List.mem_singleton.1 hp]; exact Particle.Ex.inside) ⟨5, fun _ => 1⟩ rfl).imp fun _ h => h.1

/-! ## Programs with scratch fields -/

/-- One statement in both builds. -/
theorem step_same {V : Type} [Add V] [Mul V] {n : IntVec} (hn : IntVec.Lt 0 n) (u : Bool) {l : FieldObj} {b : Nat}
    (ht : Target n l b) {e : Expr V .num} (he : e.Wf n) (hd : ∀ c, Interior n l c → e.DefinedAt n c)
    (hi : e.Independent l 0) {region : IntVec → Prop}
    (hr : region = if u then fun c => Stored n l c ∧ e.DefinedAt n c else Interior n l)
    {known : Nat → Int → Prop} (hk : ∀ c, region c → ∀ blk a, Reads e c blk a → known blk a)
    {md mr : Mem V} (ha : AgreeOn known md mr) :
    ∃ md' mr', Nebo.sequentialAssign u l e md = .ok md' ∧
      (∃ k, ∀ trips, k ≤ trips → sequentialAssign u l e mr trips = some (.ok mr')) ∧
      AgreeOn (fun blk a => known blk a ∨ (l.values = some blk ∧ ∃ c, region c ∧ a = cellAddr l.geo c)) md' mr' := by
  have main : ∀ m : Mem V, ∃ m', Nebo.sequentialAssign u l e m = .ok m' ∧ Assigned l b e region m m' := by
    intro m
    cases u with
    | true => rw [hr]; exact C22_assign_pointwise n hn l b ht e he hd hi m
    | false => rw [hr]; exact C22_interior_assign_pointwise n hn l b ht e he hd hi m
  obtain ⟨md', d1, d2, d3⟩ := main md
  obtain ⟨mr', r1, r2, r3⟩ := main mr
  refine ⟨md', mr', d1, sequentialAssign_same u l e mr mr' r1, ?_⟩
  intro blk a h
  by_cases hc : blk = b ∧ ∃ c, region c ∧ cellAddr l.geo c = a
  · obtain ⟨rfl, c, hc, rfl⟩ := hc
    rw [d2 c hc, r2 c hc]
    exact value_reads e he c fun blk a hr => ha _ _ (hk c hc blk a hr)
  · have hno : blk ≠ b ∨ ∀ c, region c → cellAddr l.geo c ≠ a := by
      by_cases hb : blk = b
      · exact .inr fun c h1 h2 => hc ⟨hb, c, h1, h2⟩
      · exact .inl hb
    rw [d3 blk a hno, r3 blk a hno]
    rcases h with h | ⟨h1, c, h2, h3⟩
    · exact ha _ _ h
    · rw [ht.mem] at h1
      injection h1 with h1
      exact absurd ⟨h1.symm, c, h2, h3.symm⟩ hc

/-- C97. A program of assignments and scratch fields that never reads an element of a scratch field before
assigning it is accepted by both builds, and afterwards both have the same contents wherever the program
determines them: at all elements it had determined before or has assigned. The release build may start
with any contents elsewhere. -/
theorem _root_.SpatialOps.C97_programs_same {V : Type} [Add V] [Mul V] [Zero V] (n : IntVec) (hn : IntVec.Lt 0 n)
    (p : List (Stmt V)) (known : Nat → Int → Prop) (hp : Initialised n known p) (md mr : Mem V)
    (ha : AgreeOn known md mr) :
    ∃ md' mr', runDebug p md = .ok md' ∧ (∃ k, ∀ trips, k ≤ trips → runRelease trips p mr = some (.ok mr')) ∧
      AgreeOn (knownAfter n known p) md' mr' := by
  induction p generalizing known md mr with
  | nil => exact ⟨md, mr, rfl, ⟨0, fun _ _ => rfl⟩, ha⟩
  | cons s p ih =>
    obtain ⟨hg, hp⟩ := hp
    cases s with
    | scratch blk npts =>
      refine ih _ hp (zeroed blk npts md) mr ?_
      intro b a ⟨h1, h2⟩
      unfold zeroed
      rw [if_neg h2]
      exact ha b a h1
    | assign l e =>
      obtain ⟨⟨b, ht⟩, he, hd, hi, hk⟩ := hg
      obtain ⟨md1, mr1, h1, ⟨k1, h2⟩, h3⟩ := step_same hn true ht he hd hi rfl hk ha
      obtain ⟨md', mr', q1, ⟨k2, q2⟩, q3⟩ := ih _ hp md1 mr1 h3
      refine ⟨md', mr', ?_, ⟨max k1 k2, fun t htr => ?_⟩, q3⟩
      · show (Nebo.sequentialAssign true l e md >>= runDebug p) = _
        rw [h1]; exact q1
      · show (sequentialAssign true l e mr t).bind _ = _
        rw [h2 t (by omega)]
        exact q2 t (by omega)
    | interior l e =>
      obtain ⟨⟨b, ht⟩, he, hd, hi, hk⟩ := hg
      obtain ⟨md1, mr1, h1, ⟨k1, h2⟩, h3⟩ := step_same hn false ht he hd hi rfl hk ha
      obtain ⟨md', mr', q1, ⟨k2, q2⟩, q3⟩ := ih _ hp md1 mr1 h3
      refine ⟨md', mr', ?_, ⟨max k1 k2, fun t htr => ?_⟩, q3⟩
      · show (Nebo.sequentialAssign false l e md >>= runDebug p) = _
        rw [h1]; exact q1
      · show (sequentialAssign false l e mr t).bind _ = _
        rw [h2 t (by omega)]
        exact q2 t (by omega)

/-- A scratch field is filled from field 1 and read afterwards. -/
def exProgram : List (Stmt Int) :=
  [.scratch 5 12, .assign (exField 0 5) (.field (exField 0 1)), .assign (exField 0 0) (.field (exField 0 5))]

theorem exRead {b b' : Nat} (hne : b ≠ b') :
    (∃ k, Target ⟨4, 3, 1⟩ (exField 0 b) k) ∧ (Expr.field (exField 0 b') : Expr Int .num).Wf ⟨4, 3, 1⟩ ∧
      (∀ c, Interior ⟨4, 3, 1⟩ (exField 0 b) c → (Expr.field (exField 0 b') : Expr Int .num).DefinedAt ⟨4, 3, 1⟩ c) ∧
      (Expr.field (exField 0 b') : Expr Int .num).Independent (exField 0 b) 0 := by
  refine ⟨⟨b, exTarget 0 (.inl rfl) b⟩, ⟨exMesh 0 (.inl rfl), by simp [exField]⟩, ?_, .inl ?_⟩
  · intro c hc
    have h2 : HasCell (exGeo 0) c := by
      rw [hasCell_iff (exMesh 0 (.inl rfl))]
      have e1 : (exGeo 0).validGhosts.minus = 0 := by decide
      have e2 : (exGeo 0).validGhosts.plus + (exGeo 0).bc.hasExtra = 0 := by decide
      have e3 : (exField 0 b).geo.bc.hasExtra = 0 := by rw [show (exField 0 b).geo = exGeo 0 from rfl]; decide
      rw [e1, e2]
      unfold Interior at hc
      rw [e3] at hc
      unfold InBox
      iv_omega
    exact h2
  · simp only [exField, ne_eq, Option.some.injEq]
    omega

theorem exInitialised : Initialised ⟨4, 3, 1⟩ (fun blk _ => blk = 1) exProgram := by
  obtain ⟨a1, a2, a3, a4⟩ := exRead (b := 5) (b' := 1) (by omega)
  obtain ⟨b1, b2, b3, b4⟩ := exRead (b := 0) (b' := 5) (by omega)
  refine ⟨trivial, ⟨a1, a2, a3, a4, ?_⟩, ⟨b1, b2, b3, b4, ?_⟩, trivial⟩
  · rintro c _ blk a ⟨h1, -⟩
    have : blk = 1 := by injection h1 with h1; exact h1.symm
    subst this
    exact ⟨rfl, by omega⟩
  · rintro c ⟨-, hc⟩ blk a ⟨h1, h2⟩
    refine .inr ⟨h1, c, ⟨?_, hc⟩, h2⟩
    have hc' : HasCell (exGeo 0) c := hc
    rw [hasCell_iff (exMesh 0 (.inl rfl)), show (exGeo 0).validGhosts.minus = 0 by decide,
      show (exGeo 0).validGhosts.plus + (exGeo 0).bc.hasExtra = 0 by decide] at hc'
    unfold Stored
    rw [show (exField 0 5).geo.bc.hasExtra = 0 by decide, show (exField 0 5).geo.ghosts.minus = 0 by decide,
      show (exField 0 5).geo.ghosts.plus = 0 by decide]
    unfold InBox at hc'
    iv_omega

example : Initialised ⟨4, 3, 1⟩ (fun blk _ => blk = 1) exProgram := exInitialised

/-- C97. Without that care the builds differ: a scratch field that is read first is zero in the debug build
and has the contents of whatever used its memory before in the release build. -/
theorem _root_.SpatialOps.C97_scratch_differs : ∃ (p : List (Stmt Int)) (m : Mem Int) (md : Mem Int),
    runDebug p m = .ok md ∧ md 0 0 = 0 ∧ ∃ mr, runRelease 12 p m = some (.ok mr) ∧ mr 0 0 = 7 := by
  have h1 : ∀ (o : Outcome (Mem Int)) (v : Int), peek (some o) 0 0 = some v → ∃ m, o = .ok m ∧ m 0 0 = v := by
    intro o v h
    cases o with
    | ok m => simp only [peek, Option.some.injEq] at h; exact ⟨m, rfl, h⟩
    | abort => cases h
    | throws => cases h
    | ub => cases h
  have h2 : ∀ (o : Option (Outcome (Mem Int))) (v : Int), peek o 0 0 = some v → ∃ m, o = some (.ok m) ∧ m 0 0 = v := by
    intro o v h
    cases o with
    | none => cases h
    | some o => obtain ⟨m, h3, h4⟩ := h1 o v h; exact ⟨m, by rw [h3], h4⟩
  obtain ⟨md, hd, hd0⟩ := h1 (runDebug [.scratch 5 12, .assign (exField 0 0) (.field (exField 0 5))] fun _ _ => (7 : Int)) 0
    (by decide +kernel)
  obtain ⟨mr, hr, hr0⟩ := h2 (runRelease 12 [.scratch 5 12, .assign (exField 0 0) (.field (exField 0 5))] fun _ _ => (7 : Int)) 7
    (by decide +kernel)
  exact ⟨_, _, md, hd, hd0, mr, hr, hr0⟩

/-! ## Where the debug build refuses -/

/-- C97. `lhs <<= e` in the release build, for an expression that need not have a value at all interior cells
(the debug build refuses it then): it stores at exactly the interior and ghost cells where the expression has
a value and leaves the others alone. The destination has no boundary cells. -/
theorem _root_.SpatialOps.C97_assign_where_defined {V : Type} [Add V] [Mul V] (n : IntVec) (l : FieldObj) (b : Nat)
    (ht : Target n l b) (hbc : l.geo.bc.isbc = 0) (e : Expr V .num) (he : e.Wf n) (hi : e.Independent l 0)
    (hne : ∃ c, Stored n l c ∧ e.DefinedAt n c) (m : Mem V) :
    ∃ m', (∃ k, ∀ trips, k ≤ trips → assign l e m trips = some (.ok m')) ∧
      Assigned l b e (fun c => Stored n l c ∧ e.DefinedAt n c) m m' :=
  assign_where_defined ht hbc he hi hne m

theorem exDefined (c : IntVec) : (leftOf 0).DefinedAt ⟨4, 3, 1⟩ c ↔ IntVec.Le ⟨1, 0, 0⟩ c ∧ IntVec.Lt c ⟨4, 3, 1⟩ := by
  have h : ∀ c, HasCell (exGeo 0) c ↔ InBox ⟨4, 3, 1⟩ 0 0 c := by
    intro c
    rw [hasCell_iff (exMesh 0 (.inl rfl)), show (exGeo 0).validGhosts.minus = 0 by decide,
      show (exGeo 0).validGhosts.plus + (exGeo 0).bc.hasExtra = 0 by decide]
  have e1 : (leftOf 0).DefinedAt ⟨4, 3, 1⟩ c ↔ (HasCell (exGeo 0) c ∧ HasCell (exGeo 0) (c + ⟨-1, 0, 0⟩)) := by
    unfold leftOf
    exact Pts.all_one (P := fun q => (Expr.field (exField 0 1) : Expr Int .num).DefinedAt ⟨4, 3, 1⟩ c ∧
      (Expr.field (exField 0 1) : Expr Int .num).DefinedAt ⟨4, 3, 1⟩ (c + q))
  rw [e1, h, h]
  unfold InBox
  constructor <;> intro h <;> iv_omega

example : Target ⟨4, 3, 1⟩ (exField 0 0) 0 ∧ (exField 0 0).geo.bc.isbc = 0 ∧ (leftOf 0).Wf ⟨4, 3, 1⟩ ∧
    (leftOf 0).Independent (exField 0 0) 0 ∧ (∃ c, Stored ⟨4, 3, 1⟩ (exField 0 0) c ∧ (leftOf 0).DefinedAt ⟨4, 3, 1⟩ c) ∧
    ∃ c, Interior ⟨4, 3, 1⟩ (exField 0 0) c ∧ ¬ (leftOf 0).DefinedAt ⟨4, 3, 1⟩ c := by
  refine ⟨exTarget 0 (.inl rfl) 0, by decide, ⟨exMesh 0 (.inl rfl), by simp [exField]⟩, ?_,
    ⟨⟨1, 0, 0⟩, by unfold Stored; decide, (exDefined _).2 (by decide)⟩, ⟨0, by unfold Interior; decide, ?_⟩⟩
  · intro q _; exact .inl (by simp [exField])
  · rw [exDefined]; decide

/-- C97. So an interior cell may silently keep its old value: the field of left neighbours, without ghost
cells, is refused by the debug build; the release build stores at all cells but those of the first column. -/
theorem _root_.SpatialOps.C97_interior_left_unassigned : ∃ (l : FieldObj) (e : Expr Int .num) (m : Mem Int),
    Interior ⟨4, 3, 1⟩ l 0 ∧ Target ⟨4, 3, 1⟩ l 0 ∧ Nebo.assign l e m = .abort ∧
    peek (assign l e m 12) 0 (cellAddr l.geo 0) = some (m 0 (cellAddr l.geo 0)) ∧
    peek (assign l e m 12) 0 (cellAddr l.geo ⟨1, 0, 0⟩) = some (m 1 (cellAddr l.geo 0)) ∧
    m 0 (cellAddr l.geo ⟨1, 0, 0⟩) ≠ m 1 (cellAddr l.geo 0) :=
  ⟨exField 0 0, leftOf 0, fun b a => 100 * b + a, by unfold Interior; decide, exTarget 0 (.inl rfl) 0, rfl,
    by decide +kernel, by decide +kernel, by decide +kernel⟩

/-- C97. `interior_assign` does not leave out such cells: the release build stores there the value of a cell of
another row, without any sign of an error. -/
theorem _root_.SpatialOps.C97_interior_assign_wrong_cell : ∃ (l f : FieldObj) (e : Expr Int .num) (m : Mem Int),
    e = .sumStencil (.one ⟨-1, 0, 0⟩) (.field f) ∧ Target ⟨4, 3, 1⟩ l 0 ∧ Target ⟨4, 3, 1⟩ f 1 ∧
    Nebo.interiorAssign l e m = .abort ∧
    peek (interiorAssign l e m 12) 0 (cellAddr l.geo 0) = some (m 1 (cellAddr f.geo ⟨3, -1, 0⟩)) :=
  ⟨exField 1 0, exField 1 1, leftOf 1, fun b a => 100 * b + a, rfl, exTarget 1 (.inr rfl) 0, exTarget 1 (.inr rfl) 1,
    rfl, by decide +kernel⟩

/-- C97. An operand on a smaller mesh: the debug build throws when its iterator leaves the window, the release
build reads outside the memory of the field. Both fields are consistent in themselves. -/
theorem _root_.SpatialOps.C97_outside_memory : ∃ (l f : FieldObj) (m : Mem Int),
    Target ⟨4, 3, 1⟩ l 0 ∧ OnMesh ⟨2, 3, 1⟩ f.geo ∧ f.values = some 1 ∧
    Nebo.assign l (.field f) m = .throws ∧ ∀ trips, 12 ≤ trips → assign l (.field f) m trips = some .ub := by
  refine ⟨exField 0 0, exSmall 1, fun _ a => a, exTarget 0 (.inl rfl) 0,
    ⟨by decide, by decide, by decide, by decide, by decide, by decide, by decide⟩, rfl, eq_throws (by decide +kernel), ?_⟩
  intro t ht
  obtain ⟨k, rfl⟩ : ∃ k, t = k + 12 := ⟨t - 12, by omega⟩
  rfl

/-- C97. An element outside the window: refused by the debug build; in the release build it is an element of
another row, or no element at all. -/
theorem _root_.SpatialOps.C97_element_outside : ∃ f : FieldObj, Target ⟨4, 3, 1⟩ f 0 ∧
    f.callM ⟨4, 0, 0⟩ = .abort ∧ callM f ⟨4, 0, 0⟩ = callM f ⟨0, 1, 0⟩ ∧
    f.callM ⟨0, 3, 0⟩ = .abort ∧ callM f ⟨0, 3, 0⟩ = .ok (0, f.geo.window.globNpts) :=
  ⟨exField 0 0, exTarget 0 (.inl rfl) 0, by decide, by decide, by decide, by decide⟩

/-- C97. A mask with a point outside: refused by the debug build; in the release build it contains another
point instead. -/
theorem _root_.SpatialOps.C97_mask_wrong_point : ∃ (f : FieldGeo), OnMesh ⟨4, 3, 1⟩ f ∧
    SpatialOps.spatialMask f [⟨4, 0, 0⟩] = .abort ∧
    (spatialMask f [⟨4, 0, 0⟩] >>= fun m => m.query ⟨0, 1, 0⟩) = .ok true :=
  ⟨exGeo 0, exMesh 0 (.inl rfl), rfl, by decide +kernel⟩

/-- C97. A particle outside the mesh: an exception in the debug build, an access outside the memory in the
release build. -/
theorem _root_.SpatialOps.C97_particle_outside : ∃ (o : Particle.Op ℚ) (f : Particle.Line ℚ),
    o.particleToCell [(⟨9, 1⟩, 1)] f = .throws ∧ particleToCell o [(⟨9, 1⟩, 1)] f = .ub := by
  refine ⟨⟨⟨4, fun i => i⟩, 1, 0⟩, ⟨4, fun _ => 0⟩, ?_, ?_⟩
  · unfold Particle.Op.particleToCell Particle.Op.toCells Particle.Op.start
    rw [Outcome.ubUnless_true (by norm_num), Outcome.ok_bind]
    have : Particle.trunc (((9 : ℚ) - 1 / 2) / 1) = 8 := by
      unfold Particle.trunc
      rw [if_pos (by norm_num), Int.floor_eq_iff]
      norm_num
    simp only [Particle.ToInt.toInt, this]
    rfl
  · unfold particleToCell toCells opStart
    rw [Outcome.ubUnless_true (by norm_num), Outcome.ok_bind]
    have : Particle.trunc (((9 : ℚ) - 1 / 2) / 1) = 8 := by
      unfold Particle.trunc
      rw [if_pos (by norm_num), Int.floor_eq_iff]
      norm_num
    simp only [this, Outcome.pure_eq, Outcome.ok_bind]
    unfold Particle.Op.spread
    rw [if_pos (by norm_num)]
    rfl

end Rel
end SpatialOps
