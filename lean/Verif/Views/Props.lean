import Verif.Views.Calc
import Verif.Flat.Props
import Verif.NeboPar.Core

/-!
# C93: expressions of views
-/

namespace SpatialOps
namespace Views

open Nebo Stencil Study

/-- C93. An expression of views that all have `size` cells, of fields with the same ghost counts and boundary cells, may be assigned
to such a view whatever its size and wherever the views lie in their fields, provided no other view in the expression shares the
destination's memory: each cell of the view receives the value
of the expression at the cells with the same number in the other views, and nothing else changes - no cell of the field outside the
view, although the library takes the outer cells of a view for ghost cells. -/
theorem _root_.SpatialOps.C93_assignment {V : Type} [Add V] [Mul V] (g : GhostData) (hg : g.Valid) (hf : g.isInf = false) (extra size : IntVec)
    (hx : IntVec.Le 0 extra) (hm : IntVec.Le g.minus ⟨ghostMax, ghostMax, ghostMax⟩)
    (hp : IntVec.Le (g.plus + extra) ⟨ghostMax, ghostMax, ghostMax⟩) (hs : IntVec.Lt 0 size) (l : FieldObj) (b : Nat)
    (hl : ViewOf g extra size l.geo) (hw : Writable l b) (e : Expr V .num) (he : OfViews g extra size e) (ha : Apart l e) (m : Mem V) :
    ∃ m', assign l e m = .ok m' ∧ (∀ c, InBlock size c → m' b (element l.geo c) = shown m e c) ∧
      ∀ blk a, (blk ≠ b ∨ ∀ c, InBlock size c → element l.geo c ≠ a) → m' blk a = m blk a :=
  assign_view hg hf hx hm hp hs hl hw e he ha m

/-- C93. Every box of cells inside a field can be made a view, and it shows the field's cells of that box. -/
theorem _root_.SpatialOps.C93_every_box (f : FieldObj) (hg : f.geo.ghosts.Valid) (first size : IntVec) (h0 : IntVec.Le 0 first)
    (hs : IntVec.Lt 0 size) (hfit : IntVec.Le (first + size) f.geo.window.npts) :
    ∃ v, Loops.part f f.geo.window.npts first size = .ok v ∧ ViewOf f.geo.ghosts f.geo.bc.hasExtra size v.geo ∧
      v.values = f.values ∧ (∀ b, Writable f b → Writable v b) ∧
      ∀ c, element v.geo c = fortranPos f.geo.window.npts (first + c) := by
  obtain ⟨v, h1, h2, h3, h4, h5, h6⟩ := part_ok hg first size h0 hs hfit
  exact ⟨v, h1, h2, h4, fun b hb => ⟨by rw [h5, hb.cpu], by rw [h6, hb.writable], by rw [h4, hb.mem]⟩, fun c => by unfold element; rw [h3]⟩

/-- A view of the middle four of six cells of a field with ghost counts `g` and memory `b`. -/
private def row (g : GhostData) (b : Nat) : FieldObj :=
  ⟨⟨⟨⟨6, 1, 1⟩, ⟨1, 0, 0⟩, ⟨4, 1, 1⟩⟩, ⟨⟨6, 1, 1⟩, g.minus, ⟨6, 1, 1⟩ - g.minus - g.plus⟩, BcInfo.build false false false 0, g, g, true⟩,
    some b, none, false, .localRam, 0, false, [], [], false, 6⟩

/-- The element an accepted assignment leaves at a position. -/
private def peek (o : Outcome (Mem Int)) (b : Nat) (a : Int) : Option Int :=
  match o with
  | .ok m => some (m b a)
  | _ => none

private theorem peek_some {o : Outcome (Mem Int)} {b : Nat} {a a' v v' : Int} (h : peek o b a = some v) (h' : peek o b a' = some v') :
    ∃ m', o = .ok m' ∧ m' b a = v ∧ m' b a' = v' := by
  cases o with
  | ok m => exact ⟨m, rfl, Option.some.inj h, Option.some.inj h'⟩
  | abort => cases h
  | throws => cases h
  | ub => cases h

/-- C93. The ghost counts are those of the fields the views are made of, and they must agree. Two views of four cells each, one of a
field with ghost cells and one of a field without: the assignment is accepted, skips the outer cells of the destination and gives the
others the values of the wrong cells. -/
theorem _root_.SpatialOps.C93_unequal_ghosts_displaced :
    ∃ (l s : FieldObj) (m m' : Mem Int), l.geo.window.Fits ∧ s.geo.window.Fits ∧ l.geo.window.extent = s.geo.window.extent ∧
      l.values = some 0 ∧ s.values = some 1 ∧ l.memType = .localRam ∧ l.readOnly = false ∧
      assign l (.field s) m = .ok m' ∧
      m' 0 (element l.geo ⟨0, 0, 0⟩) ≠ m 1 (element s.geo ⟨0, 0, 0⟩) ∧
      m' 0 (element l.geo ⟨1, 0, 0⟩) = m 1 (element s.geo ⟨0, 0, 0⟩) ∧ m' 0 (element l.geo ⟨1, 0, 0⟩) ≠ m 1 (element s.geo ⟨1, 0, 0⟩) := by
  have h0 : peek (assign (row ⟨⟨1, 0, 0⟩, ⟨1, 0, 0⟩, false⟩ 0) (.field (row ⟨0, 0, false⟩ 1)) (fun b a => if b = 1 then a + 10 else 0 : Mem Int)) 0 1 =
      some 0 := by decide +kernel
  have h1 : peek (assign (row ⟨⟨1, 0, 0⟩, ⟨1, 0, 0⟩, false⟩ 0) (.field (row ⟨0, 0, false⟩ 1)) (fun b a => if b = 1 then a + 10 else 0 : Mem Int)) 0 2 =
      some 11 := by decide +kernel
  obtain ⟨m', hr, h0, h1⟩ := peek_some h0 h1
  refine ⟨row ⟨⟨1, 0, 0⟩, ⟨1, 0, 0⟩, false⟩ 0, row ⟨0, 0, false⟩ 1, _, m', by decide, by decide, rfl, rfl, rfl, rfl, rfl, hr, ?_, ?_, ?_⟩
  · exact fun h => absurd (h0.symm.trans h) (by decide)
  · exact h1.trans (by decide)
  · exact fun h => absurd (h1.symm.trans h) (by decide)

/-- A field of 6×5×4 cells with one layer of ghost cells and memory `b`. -/
private def whole (b : Nat) : FieldObj :=
  ⟨⟨⟨⟨6, 5, 4⟩, 0, ⟨6, 5, 4⟩⟩, ⟨⟨6, 5, 4⟩, ⟨1, 1, 1⟩, ⟨4, 3, 2⟩⟩, BcInfo.build false false false 0, ⟨⟨1, 1, 1⟩, ⟨1, 1, 1⟩, false⟩,
    ⟨⟨1, 1, 1⟩, ⟨1, 1, 1⟩, false⟩, true⟩, some b, none, false, .localRam, 0, false, [], [], false, 120⟩

/-- The hypotheses are met: two corners of one field and an inner box of another, of the same size; their difference is assigned. -/
example : ∃ u v w : FieldObj, Loops.part (whole 0) ⟨6, 5, 4⟩ ⟨0, 0, 0⟩ ⟨2, 2, 2⟩ = .ok u ∧
    Loops.part (whole 0) ⟨6, 5, 4⟩ ⟨4, 3, 2⟩ ⟨2, 2, 2⟩ = .ok v ∧ Loops.part (whole 1) ⟨6, 5, 4⟩ ⟨1, 1, 1⟩ ⟨2, 2, 2⟩ = .ok w ∧
    ∀ m : Mem Int, ∃ m', assign w (.bin (· - ·) (.field v) (.field u)) m = .ok m' ∧
      ∀ c, InBlock ⟨2, 2, 2⟩ c → m' 1 (element w.geo c) = m 0 (element v.geo c) - m 0 (element u.geo c) := by
  have hv : (whole 0).geo.ghosts.Valid := by decide
  obtain ⟨u, u1, u2, u3, -⟩ := C93_every_box (whole 0) hv ⟨0, 0, 0⟩ ⟨2, 2, 2⟩ (by decide) (by decide) (by decide)
  obtain ⟨v, v1, v2, v3, -⟩ := C93_every_box (whole 0) hv ⟨4, 3, 2⟩ ⟨2, 2, 2⟩ (by decide) (by decide) (by decide)
  obtain ⟨w, w1, w2, w3, w4, -⟩ := C93_every_box (whole 1) hv ⟨1, 1, 1⟩ ⟨2, 2, 2⟩ (by decide) (by decide) (by decide)
  refine ⟨u, v, w, u1, v1, w1, fun m => ?_⟩
  have hu0 : u.values = some 0 := u3
  have hv0 : v.values = some 0 := v3
  have hw0 : w.values = some 1 := w3
  have hview : ∀ f : FieldObj, ViewOf (whole 0).geo.ghosts (whole 0).geo.bc.hasExtra ⟨2, 2, 2⟩ f.geo → ViewOf ⟨⟨1, 1, 1⟩, ⟨1, 1, 1⟩, false⟩ 0 ⟨2, 2, 2⟩ f.geo :=
    fun f h => ⟨h.fits, h.size, h.ghosts, h.valid, h.extra⟩
  obtain ⟨m', h1, h2, -⟩ := C93_assignment ⟨⟨1, 1, 1⟩, ⟨1, 1, 1⟩, false⟩ hv rfl 0 ⟨2, 2, 2⟩ (by decide) (by decide) (by decide) (by decide) w 1
    (hview w w2) (w4 1 ⟨rfl, rfl, rfl⟩)
    (.bin (· - ·) (.field v) (.field u))
    (by
      simp only [OfViews]
      exact ⟨⟨hview v v2, by rw [hv0]; exact Option.some_ne_none _⟩, ⟨hview u u2, by rw [hu0]; exact Option.some_ne_none _⟩⟩)
    (by
      simp only [Apart]
      exact ⟨.inl (by rw [hv0, hw0]; decide), .inl (by rw [hu0, hw0]; decide)⟩) m
  refine ⟨m', h1, fun c hc => ?_⟩
  rw [h2 c hc]
  simp only [shown]
  rw [hv0, hu0]
  rfl

section
variable {K : Type} [Field K]

/-- C93. A kernel written by hand as one expression of shifted views computes what the operators compute step by step through
intermediate fields: at every cell of the mesh both give minus the divergence of the diffusive flux. The hand-written form changes
nothing but these cells of its result; the operands are unchanged. This holds for every mesh, contents of the operands, previous contents of
results and intermediate fields, and number of repetitions. -/
theorem _root_.SpatialOps.C93_by_hand (L : Dir → K) (n : IntVec) (hn : IntVec.Lt ⟨1, 1, 1⟩ n) (blk : Nat → Nat) (tmp : Dir → Nat → Nat)
    (hs : Separate blk tmp) (fill : Mem K → Mem K) (runs : Nat) (hr : 0 < runs) (m : Mem K) :
    ∃ R m', main L n blk tmp fill runs m = .ok (R, m') ∧
      (∀ c, Heat.InMesh n c →
        valueAt m' R.sr c = diffusion (Heat.meshSpacing n L) (valueAt (fill m) R.a) (valueAt (fill m) R.b) c ∧
        valueAt m' R.cr c = diffusion (Heat.meshSpacing n L) (valueAt (fill m) R.a) (valueAt (fill m) R.b) c) ∧
      (∀ c, HasCell R.cr.geo c → ¬ Heat.InMesh n c → valueAt m' R.cr c = valueAt (fill m) R.cr c) ∧
      (∀ c, HasCell R.a.geo c → valueAt m' R.a c = valueAt (fill m) R.a c ∧ valueAt m' R.b c = valueAt (fill m) R.b c) := by
  have hsp : spacing (fun d => (extract n d).toNat) L = Heat.meshSpacing n L := by
    funext d
    unfold spacing Heat.meshSpacing
    have : ∀ k : Int, 1 < k → ((k.toNat : Nat) : K) = ((k : Int) : K) := by
      intro k hk
      rw [← Int.cast_natCast, Int.toNat_of_nonneg (by omega)]
    cases d
    · exact congrArg _ (this _ hn.1)
    · exact congrArg _ (this _ hn.2.1)
    · exact congrArg _ (this _ hn.2.2)
  have dif : ∀ {i j : Nat}, i < 4 → j < 4 → i ≠ j → blk i ≠ blk j := fun hi hj hne e => hne (hs.fields _ hi _ hj e)
  obtain ⟨a, a1, ga⟩ := newField_ok hn (blk 0)
  obtain ⟨b, b1, gb⟩ := newField_ok hn (blk 1)
  obtain ⟨cr, c1, gc⟩ := newField_ok hn (blk 2)
  obtain ⟨sr, s1, gs⟩ := newField_ok hn (blk 3)
  obtain ⟨X, x1, gX⟩ := temps_ok ga hn (tmp .x)
  obtain ⟨Y, y1, gY⟩ := temps_ok ga hn (tmp .y)
  obtain ⟨Z, z1, gZ⟩ := temps_ok ga hn (tmp .z)
  obtain ⟨T, hT⟩ : ∃ T : Dir → Temps, T = Temps.pick X Y Z := ⟨_, rfl⟩
  have gT : ∀ d, Tmp n (T d) (tmp d) := by intro d; rw [hT]; cases d <;> assumption
  obtain ⟨m1, r1, ⟨p1, q1⟩, e1⟩ := repeated_ok (P := fun m1 : Mem K => (∀ d, m1 (blk 0) d = fill m (blk 0) d ∧ m1 (blk 1) d = fill m (blk 1) d) ∧
      ∀ d, m1 (blk 2) d = fill m (blk 2) d)
    (Q := fun _ m2 => ∀ c, IntVec.Le 0 c → IntVec.Lt c n → valueAt m2 sr c =
      kernel (Heat.meshSpacing n L) (valueAt (fill m) a) (valueAt (fill m) b) c) (fill m) ⟨fun _ => ⟨rfl, rfl⟩, fun _ => rfl⟩
    (body := serialRun (Heat.meshSpacing n L) sr a b T) (by
      rintro m1 ⟨h1, h2⟩
      obtain ⟨m2, k1, k2, k3⟩ := serialRun_ok hn (Heat.meshSpacing n L) gs ga gb gT hs.temps
        (fun d i hi => hs.apart d i hi 0 (by omega)) (fun d i hi => hs.apart d i hi 1 (by omega)) (fun d i hi => hs.apart d i hi 3 (by omega)) m1
      have out : ∀ j, j < 3 → ∀ x, m2 (blk j) x = m1 (blk j) x := fun j hj x =>
        k3 (blk j) (dif (by omega) (by omega) (by omega)) (fun d i hi => (hs.apart d i hi j (by omega)).symm) x
      refine ⟨m2, k1, ⟨fun x => ⟨by rw [out 0 (by omega), (h1 x).1], by rw [out 1 (by omega), (h1 x).2]⟩,
        fun x => by rw [out 2 (by omega), h2 x]⟩, fun c c0 c1 => ?_⟩
      rw [k2 c c0 c1, funext (frame ga fun x => (h1 x).1), funext (frame gb fun x => (h1 x).2)]) runs
  obtain ⟨-, -, e1⟩ := e1 hr
  obtain ⟨m2, r2, ⟨p2, q2, o2⟩, e2⟩ := repeated_ok (P := fun m2 : Mem K => (∀ d, m2 (blk 0) d = fill m (blk 0) d ∧ m2 (blk 1) d = fill m (blk 1) d) ∧
      (∀ d, m2 (blk 3) d = m1 (blk 3) d) ∧
      ∀ d, (∀ c, IntVec.Le 0 c → IntVec.Lt c n → cellAddr cr.geo c ≠ d) → m2 (blk 2) d = fill m (blk 2) d)
    (Q := fun _ m3 => ∀ c, IntVec.Le 0 c → IntVec.Lt c n → valueAt m3 cr c =
      kernel (Heat.meshSpacing n L) (valueAt (fill m) a) (valueAt (fill m) b) c) m1 ⟨p1, fun _ => rfl, fun d _ => q1 d⟩
    (body := chainedRun (Heat.meshSpacing n L) cr a b) (by
      rintro m2 ⟨h1, h2, h3⟩
      obtain ⟨m3, k1, k2, k3⟩ := chainedRun_ok hn (Heat.meshSpacing n L) gc ga gb (dif (by omega) (by omega) (by omega))
        (dif (by omega) (by omega) (by omega)) m2
      refine ⟨m3, k1, ⟨fun x => ⟨?_, ?_⟩, fun x => ?_, fun x hx => ?_⟩, fun c c0 c1 => ?_⟩
      · rw [k3 _ _ (.inl (dif (by omega) (by omega) (by omega))), (h1 x).1]
      · rw [k3 _ _ (.inl (dif (by omega) (by omega) (by omega))), (h1 x).2]
      · rw [k3 _ _ (.inl (dif (by omega) (by omega) (by omega))), h2 x]
      · rw [k3 _ _ (.inr hx), h3 x hx]
      · rw [k2 c c0 c1, funext (frame ga fun x => (h1 x).1), funext (frame gb fun x => (h1 x).2)]) runs
  obtain ⟨-, -, e2⟩ := e2 hr
  refine ⟨⟨a, b, cr, sr⟩, m2, ?_, fun c hc => ⟨?_, ?_⟩, fun c hc hnm => ?_, fun c hc => ⟨?_, ?_⟩⟩
  · unfold main serial chained
    rw [a1, Outcome.ok_bind, b1, Outcome.ok_bind, c1, Outcome.ok_bind, s1, Outcome.ok_bind, x1, Outcome.ok_bind, y1, Outcome.ok_bind,
      z1, Outcome.ok_bind, hsp, ← hT, r1, Outcome.ok_bind, r2, Outcome.ok_bind]
    rfl
  · rw [frame gs q2, e1 c hc.1 hc.2, kernel_eq]
  · rw [e2 c hc.1 hc.2, kernel_eq]
  · unfold valueAt
    rw [gc.target.mem, Option.getD_some]
    refine o2 _ fun c' h0 h1 he => hnm ?_
    have hcells := (Fld.has gc c).1 hc
    have := cellAddr_inj (l := cr) (minus := ⟨1, 1, 1⟩) (e := n + ⟨2, 2, 2⟩) (x := c' + ⟨1, 1, 1⟩) (y := c + ⟨1, 1, 1⟩) (by
        rw [gc.origin_eq, gc.npts, extra_F]
        unfold Window.Fits
        dsimp only
        iv_omega) (by unfold InBlock; iv_omega) (by unfold InBlock; iv_omega) (by
        have e : ∀ v : IntVec, v + ⟨1, 1, 1⟩ - ⟨1, 1, 1⟩ = v := fun v => by
          ext <;> simp
        rw [e, e]; exact he)
    have hcc : c' = c := by
      have hx := congrArg IntVec.x this
      have hy := congrArg IntVec.y this
      have hz := congrArg IntVec.z this
      simp only [IntVec.add_x, IntVec.add_y, IntVec.add_z] at hx hy hz
      ext <;> omega
    rw [← hcc]
    exact ⟨h0, h1⟩
  · exact frame ga (fun x => (p2 x).1) c
  · exact frame gb (fun x => (p2 x).2) c

/-- Memory of the intermediate fields in the example. -/
private def tmpEx (d : Dir) (i : Nat) : Nat := 4 + 3 * (match d with | .x => 0 | .y => 1 | .z => 2) + i

/-- Contents given to the fields in the example: each element holds its position. -/
private def fillEx (_ : Mem Rat) : Mem Rat := fun _ a => (a : Rat)

private theorem separateEx : Separate id tmpEx :=
  ⟨fun _ _ _ _ h => h, fun d d' i hi j hj h => by
      unfold tmpEx at h
      cases d <;> cases d' <;> dsimp only at h <;> first | exact ⟨rfl, by omega⟩ | omega,
    fun d i _ j hj => by unfold tmpEx; cases d <;> dsimp only [id] <;> omega⟩

/-- The hypotheses are met by a mesh of 4×3×2 cells run twice. -/
example (m : Mem Rat) : ∃ R m', main (fun _ => (1 : Rat)) ⟨4, 3, 2⟩ id tmpEx fillEx 2 m = .ok (R, m') ∧
    ∀ c, Heat.InMesh ⟨4, 3, 2⟩ c → valueAt m' R.sr c = valueAt m' R.cr c := by
  obtain ⟨R, m', h1, h2, -⟩ := C93_by_hand (fun _ => (1 : Rat)) ⟨4, 3, 2⟩ (by decide) id tmpEx separateEx fillEx 2 (by decide) m
  exact ⟨R, m', h1, fun c hc => (h2 c hc).1.trans (h2 c hc).2.symm⟩

end

end Views
end SpatialOps
