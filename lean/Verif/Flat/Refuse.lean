import Verif.Flat.Lemmas
import Verif.Nebo.Safe

/-!
# Lemmas: what is refused on meshes with a single cell in some direction
-/

namespace SpatialOps
namespace Nebo

variable {n : IntVec} {g : GhostData}

theorem refused_bind {α β : Type} {o : Outcome α} {f : α → Outcome β} (h : Refused o) : Refused (o >>= f) := by
  rcases h with h | h <;> rw [h]
  · exact .inl rfl
  · exact .inr rfl

theorem bind_refused {α β : Type} {o : Outcome α} {f : α → Outcome β} (h : o ≠ .ub) (hf : ∀ a, o = .ok a → Refused (f a)) :
    Refused (o >>= f) := by
  cases ho : o with
  | ok a => exact hf a ho
  | abort => exact .inl rfl
  | throws => exact .inr rfl
  | ub => exact absurd ho h

theorem window_make_inv {a b c : IntVec} {w : Window} (h : Window.make a b c = .ok w) :
    w = ⟨a, b, c⟩ ∧ Window.sanityCheck ⟨a, b, c⟩ := by
  unfold Window.make Outcome.assert at h
  split at h
  · rename_i hs
    injection h with h
    exact ⟨h.symm, hs⟩
  · cases h

theorem window_make_ne_ub (a b c : IntVec) : Window.make a b c ≠ .ub := by
  unfold Window.make Outcome.assert
  intro h
  split at h <;> cases h

theorem assert_ne_ub (p : Prop) [Decidable p] : Outcome.assert p ≠ .ub := by
  unfold Outcome.assert
  split <;> intro h <;> cases h

theorem throwIf_ne_ub (p : Prop) [Decidable p] : Outcome.throwIf p ≠ .ub := by
  unfold Outcome.throwIf
  split <;> intro h <;> cases h

theorem copy_ne_ub (g : GhostData) : g.copy ≠ .ub := by
  unfold GhostData.copy GhostData.checkValid Outcome.assert
  intro h
  split at h <;> cases h

theorem bind_ne_ub {α β : Type} {o : Outcome α} {f : α → Outcome β} (h : o ≠ .ub) (hf : ∀ a, f a ≠ .ub) : (o >>= f) ≠ .ub := by
  cases o with
  | ok a => exact hf a
  | abort => intro h; cases h
  | throws => intro h; cases h
  | ub => exact absurd rfl h

theorem windowCopy_ne_ub (w : Window) (f : FieldGeo) : FieldGeo.windowCopy false w f ≠ .ub := by
  unfold FieldGeo.windowCopy FieldGeo.singleValueCheck
  refine bind_ne_ub (copy_ne_ub _) fun _ => ?_
  simp only [Bool.false_eq_true]
  refine bind_ne_ub (by intro h; cases h) fun _ => bind_ne_ub (assert_ne_ub _) fun _ => bind_ne_ub (assert_ne_ub _) fun _ =>
    bind_ne_ub (assert_ne_ub _) fun _ => bind_ne_ub (assert_ne_ub _) fun _ => by intro h; cases h

theorem windowCopy_inv {w : Window} {f r : FieldGeo} (h : FieldGeo.windowCopy false w f = .ok r) :
    r.window = w ∧ IntVec.Lt w.offset f.window.npts := by
  unfold FieldGeo.windowCopy at h
  obtain ⟨_, -, h⟩ := Outcome.bind_eq_ok.1 h
  obtain ⟨_, -, h⟩ := Outcome.bind_eq_ok.1 h
  obtain ⟨_, -, h⟩ := Outcome.bind_eq_ok.1 h
  obtain ⟨_, h1, h⟩ := Outcome.bind_eq_ok.1 h
  obtain ⟨_, h2, h⟩ := Outcome.bind_eq_ok.1 h
  obtain ⟨_, h3, h⟩ := Outcome.bind_eq_ok.1 h
  injection h with h
  have key : ∀ (p : Prop) [Decidable p] (u : Unit), Outcome.assert p = .ok u → p := by
    intro p _ u hp
    unfold Outcome.assert at hp
    split at hp
    · assumption
    · cases hp
  rw [← h]
  exact ⟨rfl, (key _ _ h1).2, (key _ _ h2).2, (key _ _ h3).2⟩

theorem reshape_inv {f r : FieldGeo} {m s : IntVec} (h : f.reshape false m s = .ok r) :
    r.window.npts = f.window.npts ∧ r.window.offset = f.window.offset + s ∧ IntVec.Lt (f.window.offset + s) f.window.npts := by
  unfold FieldGeo.reshape at h
  obtain ⟨w, hw, h⟩ := Outcome.bind_eq_ok.1 h
  obtain ⟨rfl, -⟩ := window_make_inv hw
  obtain ⟨h1, h2⟩ := windowCopy_inv h
  rw [h1]
  exact ⟨rfl, rfl, h2⟩

theorem reshape_ne_ub (f : FieldGeo) (m s : IntVec) : f.reshape false m s ≠ .ub :=
  bind_ne_ub (window_make_ne_ub _ _ _) fun _ => windowCopy_ne_ub _ _

theorem resizeShift_ne_ub (f : FieldGeo) (minus plus s : IntVec) : resizeGhostAndShift f minus plus s ≠ .ub :=
  bind_ne_ub (reshape_ne_ub _ _ _) fun _ => reshape_ne_ub _ _ _

theorem resizeShift_inv {f r : FieldGeo} {minus plus s : IntVec} (h : resizeGhostAndShift f minus plus s = .ok r) :
    IntVec.Lt (f.window.offset + (f.validGhosts.minus - minus)) f.window.npts ∧
    IntVec.Lt (f.window.offset + (f.validGhosts.minus - minus) + s) f.window.npts := by
  unfold resizeGhostAndShift resizeGhost shiftWindow at h
  obtain ⟨q, h1, h2⟩ := Outcome.bind_eq_ok.1 h
  obtain ⟨a1, a2, a3⟩ := reshape_inv h1
  obtain ⟨b1, b2, b3⟩ := reshape_inv h2
  rw [a1, a2] at b3
  exact ⟨a3, b3⟩

theorem fieldWalk_ne_ub {V : Type} (f : FieldObj) : fieldWalk (V := V) false f ≠ .ub := by
  unfold fieldWalk FieldObj.beginC
  refine bind_ne_ub (bind_ne_ub (throwIf_ne_ub _) fun _ => by intro h; cases h) fun _ => ?_
  simp only [Bool.false_eq_true, if_false]
  exact bind_ne_ub (by intro h; cases h) fun _ => by intro h; cases h

theorem reset_ne_ub (f : FieldGeo) (g : GhostData) : f.resetValidGhosts g ≠ .ub :=
  bind_ne_ub (window_make_ne_ub _ _ _) fun _ => bind_ne_ub (copy_ne_ub _) fun _ => by intro h; cases h

theorem reset_inv {f r : FieldGeo} {g : GhostData} (h : f.resetValidGhosts g = .ok r) :
    IntVec.Le 0 (f.window.extent - (f.validGhosts.minus - g.minus) - f.validGhosts.plus + g.plus) := by
  unfold FieldGeo.resetValidGhosts at h
  obtain ⟨w, hw, h⟩ := Outcome.bind_eq_ok.1 h
  obtain ⟨-, -, -, h, -⟩ := window_make_inv hw
  exact h

theorem construct_refused {V α : Type} [Add V] {f : α → Outcome (Walk V .num)} (hu : ∀ a, f a ≠ .ub) :
    {pts : Pts α} → {q : α} → q ∈ pts.toList → (∀ w, f q ≠ .ok w) → Refused (pts.construct f)
  | .one a, q, hq, h => by
    simp only [Pts.toList, List.mem_singleton] at hq
    subst hq
    simp only [Pts.construct]
    cases hf : f q with
    | ok w => exact absurd hf (h w)
    | abort => exact .inl rfl
    | throws => exact .inr rfl
    | ub => exact absurd hf (hu q)
  | .more e a, q, hq, h => by
    simp only [Pts.toList, List.mem_append, List.mem_singleton] at hq
    simp only [Pts.construct]
    have hc : e.construct f ≠ .ub := by
      clear hq
      induction e with
      | one a => exact hu a
      | more e a ih => exact bind_ne_ub ih fun _ => bind_ne_ub (hu a) fun _ => by intro h; cases h
    rcases hq with hq | rfl
    · exact refused_bind (construct_refused hu hq h)
    · refine bind_refused hc fun _ _ => refused_bind ?_
      cases hf : f q with
      | ok w => exact absurd hf (h w)
      | abort => exact .inl rfl
      | throws => exact .inr rfl
      | ub => exact absurd hf (hu q)

/-- What makes a call refuse: the possible ghosts reflect a point that leads across a flat direction, and building the
right-hand side's walker needs the source displaced by that point. -/
structure Crossing {V : Type} [Add V] [Mul V] (n : IntVec) (src : FieldObj) (q : IntVec) (e : Expr V .num) : Prop where
  ghosts : ∀ pg, e.possibleGhosts = .ok pg → pg.Valid ∧ ∀ minus plus, IntVec.Le minus pg.minus → IntVec.Le plus pg.plus →
    Within minus plus q ⟨src.geo.validGhosts.minus, src.geo.validGhosts.plus + src.geo.bc.hasExtra, false⟩
  init : ∀ m minus plus, (∀ r, resizeGhostAndShift src.geo minus (plus - src.geo.bc.hasExtra) q ≠ .ok r) →
    Refused (e.init false m minus plus 0)

theorem cross1 {n sext sex slo shi glo ghi ofs npts q rm : Int} (hs : Span n sext sex slo shi glo ghi) (hn : n = 1) (hq : q ≠ 0)
    (h2 : rm ≤ slo) (h4 : rm - q ≤ slo) (ht : npts = ofs + 1)
    (h6 : ofs + (slo - rm) < npts) (h7 : ofs + (slo - rm) + q < npts) : False := by
  unfold Span at hs
  have := hs.1 hn
  omega

theorem crossing_refused {V : Type} [Add V] [Mul V] {l src : FieldObj} {q : IntVec} {e : Expr V .num}
    (hl : FlatOn n g l.geo) (hs : FlatOn n g src.geo) (ht : Thin n src.geo) (hq : ¬ InPlane n q)
    (hc : Crossing n src q e) (useGhost : Bool) (m : Mem V) : Refused (sequentialAssign useGhost l e m) := by
  unfold sequentialAssign
  refine bind_refused (possibleGhosts_ne_ub e) fun pg hpg => ?_
  obtain ⟨pv, pw⟩ := hc.ghosts pg hpg
  by_cases hx : IntVec.Le l.geo.bc.hasExtra pg.plus
  swap
  · rw [calc_refused hx pv]; exact .inr rfl
  obtain ⟨rg, lg, c1, c2, c3, c4, c5, c6, c7, c8, c9, c10, c11⟩ := calc_ok (flatOn_mesh hl) pv hx useGhost
  rw [c1, Outcome.ok_bind, c3, Outcome.ok_bind]
  refine bind_refused (make_ne_ub _ _) fun _ _ => bind_refused (reset_ne_ub _ _) fun _ _ => refused_bind ?_
  obtain ⟨w1, -, w3, -⟩ := pw rg.minus rg.plus c10 c11
  refine hc.init m _ _ fun r h => hq ?_
  obtain ⟨r1, r2⟩ := resizeShift_inv h
  refine ⟨fun e => ?_, fun e => ?_, fun e => ?_⟩
  · exact Decidable.byContradiction fun h0 => cross1 hs.x e h0 w1.1 w3.1 (ht.1 e) r1.1 r2.1
  · exact Decidable.byContradiction fun h0 => cross1 hs.y e h0 w1.2.1 w3.2.1 (ht.2.1 e) r1.2.1 r2.2.1
  · exact Decidable.byContradiction fun h0 => cross1 hs.z e h0 w1.2.2 w3.2.2 (ht.2.2 e) r1.2.2 r2.2.2

theorem leaf_crossing {f : FieldGeo} (hf : FlatOn n g f) {gg : GhostData} (h : leafGhosts f = .ok gg) :
    gg.Valid ∧ gg.minus = f.validGhosts.minus ∧ gg.plus = f.validGhosts.plus + f.bc.hasExtra := by
  obtain ⟨r, h1, h2, h3, h4⟩ := add_extra hf.valid hf.finite hf.extra
  unfold leafGhosts at h
  rw [h1] at h
  injection h with h
  subst h
  exact ⟨h2, h3, h4⟩

theorem pts_crossing {α : Type} {pt : α → IntVec} {f : FieldGeo} (hf : FlatOn n g f) {gg pg : GhostData}
    (h : leafGhosts f = .ok gg) {pts : Pts α} (hp : pts.possibleGhosts pt gg = .ok pg) {q : α} (hq : q ∈ pts.toList) :
    pg.Valid ∧ ∀ minus plus, IntVec.Le minus pg.minus → IntVec.Le plus pg.plus →
      Within minus plus (pt q) ⟨f.validGhosts.minus, f.validGhosts.plus + f.bc.hasExtra, false⟩ := by
  obtain ⟨g1, g2, g3⟩ := leaf_crossing hf h
  refine ⟨(pts_within (minus := 0) (plus := 0) (s := 0) pt g1 pts hp).1, fun minus plus h1 h2 => ?_⟩
  have := (pts_within (minus := minus) (plus := plus) (s := 0) pt g1 pts hp).2
    (by unfold Within; refine ⟨h1, h2, ?_, ?_⟩ <;> iv_omega) q hq
  unfold Within at this ⊢
  rw [g2, g3] at this
  obtain ⟨t1, t2, t3, t4⟩ := this
  refine ⟨t1, t2, ?_, ?_⟩ <;> dsimp only at * <;> iv_omega

theorem zero_add' (q : IntVec) : (0 : IntVec) + q = q := by ext <;> simp

theorem crossing_stencil {V : Type} [Add V] [Mul V] {src : FieldObj} (hs : FlatOn n g src.geo) {pts : Pts (IntVec × V)}
    {q : IntVec × V} (hq : q ∈ pts.toList) : Crossing n src q.1 (.stencil pts (.field src)) where
  ghosts := by
    intro pg h
    simp only [Expr.possibleGhosts] at h
    obtain ⟨gg, h1, h2⟩ := Outcome.bind_eq_ok.1 h
    exact pts_crossing hs h1 h2 hq
  init := by
    intro m minus plus h
    simp only [Expr.init]
    refine construct_refused (fun a => bind_ne_ub (bind_ne_ub (resizeShift_ne_ub _ _ _ _) fun _ => fieldWalk_ne_ub _) fun _ => by
      intro h; cases h) hq fun w hw => ?_
    obtain ⟨_, hw, -⟩ := Outcome.bind_eq_ok.1 hw
    obtain ⟨r, hw, -⟩ := Outcome.bind_eq_ok.1 hw
    rw [zero_add'] at hw
    exact h r hw

theorem crossing_sum {V : Type} [Add V] [Mul V] {src : FieldObj} (hs : FlatOn n g src.geo) {pts : Pts IntVec}
    {q : IntVec} (hq : q ∈ pts.toList) : Crossing (V := V) n src q (.sumStencil pts (.field src)) where
  ghosts := by
    intro pg h
    simp only [Expr.possibleGhosts] at h
    obtain ⟨gg, h1, h2⟩ := Outcome.bind_eq_ok.1 h
    exact pts_crossing (pt := id) hs h1 h2 hq
  init := by
    intro m minus plus h
    simp only [Expr.init]
    refine construct_refused (fun a => bind_ne_ub (resizeShift_ne_ub _ _ _ _) fun _ => fieldWalk_ne_ub _) hq fun w hw => ?_
    obtain ⟨r, hw, -⟩ := Outcome.bind_eq_ok.1 hw
    rw [zero_add'] at hw
    exact h r hw

theorem crossing_bin {V : Type} [Add V] [Mul V] {src : FieldObj} {q : IntVec} {e : Expr V .num} (h : Crossing n src q e)
    (op : V → V → V) (v : V) : Crossing n src q (.bin (s := .num) (t := .num) op e (.scalar (t := .num) v)) where
  ghosts := by
    intro pg hp
    simp only [Expr.possibleGhosts] at hp
    obtain ⟨x, h1, hp⟩ := Outcome.bind_eq_ok.1 hp
    obtain ⟨y, h2, hp⟩ := Outcome.bind_eq_ok.1 hp
    rw [uniform_ok] at h2
    injection h2 with h2
    obtain ⟨x1, x2⟩ := h.ghosts x h1
    have yv : y.Valid := by rw [← h2]; decide
    obtain ⟨r, r1, r2, r3, r4⟩ := min_ok x1 yv
    rw [r1] at hp
    injection hp with hp
    subst hp
    refine ⟨r2, fun minus plus m1 m2 => x2 minus plus ?_ ?_⟩
    · rw [r3] at m1; unfold IntVec.min at m1; iv_omega
    · rw [r4] at m2; unfold IntVec.min at m2; iv_omega
  init := by
    intro m minus plus hr
    simp only [Expr.init]
    exact refused_bind (h.init m minus plus hr)

theorem interior1 {n ext ex lo hi glo ghi rm rp : Int} (h : Span n ext ex lo hi glo ghi) (hn : n = 1) (h2 : 2 ≤ glo + ghi)
    (h1 : 0 ≤ ext - (lo - rm) - hi + (rp - ex)) (h3 : rm = 0) (h4 : rp = ex) : False := by
  unfold Span at h
  have := h.1 hn
  omega

theorem calc_interior {bc : BcInfo} {a p rg : GhostData} (h : calcValidGhost false a bc p = .ok rg) :
    rg.minus = 0 ∧ rg.plus = bc.hasExtra := by
  unfold calcValidGhost at h
  obtain ⟨_, -, h⟩ := Outcome.bind_eq_ok.1 h
  obtain ⟨_, -, h⟩ := Outcome.bind_eq_ok.1 h
  obtain ⟨_, -, h⟩ := Outcome.bind_eq_ok.1 h
  obtain ⟨_, -, h⟩ := Outcome.bind_eq_ok.1 h
  obtain ⟨_, -, h⟩ := Outcome.bind_eq_ok.1 h
  simp only [Bool.false_eq_true, if_false] at h
  unfold GhostData.make at h
  obtain ⟨_, -, h⟩ := Outcome.bind_eq_ok.1 h
  injection h with h
  rw [← h]
  exact ⟨rfl, rfl⟩

theorem interior_refused {V : Type} [Add V] [Mul V] {l : FieldObj} {b : Nat} (ht : FlatTarget n g l b) {e : Expr V .num}
    (he : e.FlatWf n g) (hd : (n.x = 1 ∧ 2 ≤ g.minus.x + g.plus.x) ∨ (n.y = 1 ∧ 2 ≤ g.minus.y + g.plus.y) ∨
      (n.z = 1 ∧ 2 ≤ g.minus.z + g.plus.z)) (m : Mem V) : Refused (interiorAssign l e m) := by
  unfold interiorAssign sequentialAssign
  refine bind_refused (possibleGhosts_ne_ub e) fun pg hpg => ?_
  obtain ⟨pv, -⟩ := possibleGhosts_exact e (flat_wf e he) pg hpg
  by_cases hx : IntVec.Le l.geo.bc.hasExtra pg.plus
  swap
  · rw [calc_refused hx pv]; exact .inr rfl
  obtain ⟨rg, lg, c1, c2, c3, c4, c5, c6, -⟩ := calc_ok (flatOn_mesh ht.mesh) pv hx false
  obtain ⟨i1, i2⟩ := calc_interior c1
  rw [c1, Outcome.ok_bind, c3, Outcome.ok_bind]
  refine bind_refused (make_ne_ub _ _) fun gg hgg => bind_refused (reset_ne_ub _ _) fun geo hgeo => ?_
  exfalso
  have hr := reset_inv hgeo
  have hgm : gg.minus = lg.minus ∧ gg.plus = lg.plus := by
    rw [GhostData.make_ok c4] at hgg
    injection hgg with hgg
    rw [← hgg]
    exact ⟨rfl, rfl⟩
  rw [hgm.1, hgm.2, c5, c6, i1, i2] at hr
  rcases hd with ⟨d1, d2⟩ | ⟨d1, d2⟩ | ⟨d1, d2⟩
  · exact interior1 ht.mesh.x d1 d2 hr.1 rfl rfl
  · exact interior1 ht.mesh.y d1 d2 hr.2.1 rfl rfl
  · exact interior1 ht.mesh.z d1 d2 hr.2.2 rfl rfl

theorem reshape_extent {f r : FieldGeo} {m s : IntVec} (h : f.reshape false m s = .ok r) : IntVec.Le 0 (f.window.extent + m) := by
  unfold FieldGeo.reshape at h
  obtain ⟨w, hw, -⟩ := Outcome.bind_eq_ok.1 h
  exact (window_make_inv hw).2.2.2.1

theorem mismatch1 {n ext ex lo hi glo ghi sext sex slo shi hlo hhi rm rp : Int} (h : Span n ext ex lo hi glo ghi)
    (hs : Span n sext sex slo shi hlo hhi) (hn : n = 1) (h1 : 0 ≤ ext - (lo - rm) - hi + (rp - ex))
    (h2 : 0 ≤ sext + (rm + (rp - sex) - slo - shi)) (h3 : rm ≤ slo) (h4 : rp ≤ shi + sex) (h5 : rm ≤ glo) (h6 : rp - ex ≤ ghi) :
    ¬ (glo + ghi + 2 ≤ hlo + hhi ∨ hlo + hhi + 2 ≤ glo + ghi) := by
  unfold Span at h hs
  have := h.1 hn
  have := hs.1 hn
  omega

theorem mismatch_refused {V : Type} [Add V] [Mul V] {g' : GhostData} {l src : FieldObj} {b : Nat} (ht : FlatTarget n g l b)
    (hs : FlatOn n g' src.geo)
    (hd : (n.x = 1 ∧ (g.minus.x + g.plus.x + 2 ≤ g'.minus.x + g'.plus.x ∨ g'.minus.x + g'.plus.x + 2 ≤ g.minus.x + g.plus.x)) ∨
      (n.y = 1 ∧ (g.minus.y + g.plus.y + 2 ≤ g'.minus.y + g'.plus.y ∨ g'.minus.y + g'.plus.y + 2 ≤ g.minus.y + g.plus.y)) ∨
      (n.z = 1 ∧ (g.minus.z + g.plus.z + 2 ≤ g'.minus.z + g'.plus.z ∨ g'.minus.z + g'.plus.z + 2 ≤ g.minus.z + g.plus.z)))
    (m : Mem V) : Refused (assign l (.field src) m) := by
  unfold assign sequentialAssign
  refine bind_refused (possibleGhosts_ne_ub _) fun pg hpg => ?_
  obtain ⟨pv, p1, p2⟩ := leaf_crossing hs hpg
  by_cases hx : IntVec.Le l.geo.bc.hasExtra pg.plus
  swap
  · rw [calc_refused hx pv]; exact .inr rfl
  obtain ⟨rg, lg, c1, c2, c3, c4, c5, c6, c7, c8, c9, c10, c11⟩ := calc_ok (flatOn_mesh ht.mesh) pv hx true
  rw [c1, Outcome.ok_bind, c3, Outcome.ok_bind]
  refine bind_refused (make_ne_ub _ _) fun gg hgg => bind_refused (reset_ne_ub _ _) fun geo hgeo => refused_bind ?_
  have hr := reset_inv hgeo
  have hgm : gg.minus = lg.minus ∧ gg.plus = lg.plus := by
    rw [GhostData.make_ok c4] at hgg
    injection hgg with hgg
    rw [← hgg]
    exact ⟨rfl, rfl⟩
  rw [hgm.1, hgm.2, c5, c6] at hr
  rw [p1] at c10
  rw [p2] at c11
  rw [c6] at c9
  simp only [Expr.init]
  refine refused_bind (bind_refused (reshape_ne_ub _ _ _) fun r hrs => ?_)
  exfalso
  have he := reshape_extent hrs
  obtain ⟨gx, gy, gz⟩ := flatGhost ht
  rcases hd with ⟨d1, d2⟩ | ⟨d1, d2⟩ | ⟨d1, d2⟩
  · refine mismatch1 ht.mesh.x hs.x d1 hr.1 he.1 c10.1 c11.1 ?_ ?_ d2
    · rw [← (gx d1).2.1]; exact c8.1
    · rw [← (gx d1).2.2]; exact c9.1
  · refine mismatch1 ht.mesh.y hs.y d1 hr.2.1 he.2.1 c10.2.1 c11.2.1 ?_ ?_ d2
    · rw [← (gy d1).2.1]; exact c8.2.1
    · rw [← (gy d1).2.2]; exact c9.2.1
  · refine mismatch1 ht.mesh.z hs.z d1 hr.2.2 he.2.2 c10.2.2 c11.2.2 ?_ ?_ d2
    · rw [← (gz d1).2.1]; exact c8.2.2
    · rw [← (gz d1).2.2]; exact c9.2.2

end Nebo
end SpatialOps
