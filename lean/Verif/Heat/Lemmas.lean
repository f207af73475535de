import Verif.Heat.Spec
import Verif.Flat.Props

/-!
# Lemmas for the heat equation program
-/

namespace SpatialOps
namespace Heat

open Nebo Stencil

/-- `GhostData(1)`. -/
def G : GhostData := ⟨⟨1, 1, 1⟩, ⟨1, 1, 1⟩, false⟩

theorem ghost_eq : ghost = .ok G := by decide

theorem G_moderate : Moderate G := ⟨by decide, by decide, by decide⟩

/-- What is used of a field of the program with `e` boundary cells. -/
structure Good (n e : IntVec) (f : FieldObj) (b : Nat) : Prop where
  target : FlatTarget n G f b
  bc : f.geo.bc = BcInfo.build true true true e
  ghosts : f.geo.ghosts = G
  valid : f.geo.validGhosts = G
  offset : f.geo.window.offset = 0
  full : f.geo.window.extent = f.geo.window.npts
  ctor : FieldGeo.ctor false f.geo.window (BcInfo.build true true true e) G = .ok f.geo
  interior : (n.x = 1 → f.geo.interior.offset.x = 0) ∧ (n.x ≠ 1 → f.geo.interior.offset.x = 1) ∧
    (n.y = 1 → f.geo.interior.offset.y = 0) ∧ (n.y ≠ 1 → f.geo.interior.offset.y = 1) ∧
    (n.z = 1 → f.geo.interior.offset.z = 0) ∧ (n.z ≠ 1 → f.geo.interior.offset.z = 1)

theorem build_extra (e : IntVec) : (BcInfo.build true true true e).hasExtra = e := by
  ext <;> simp [BcInfo.build, BcInfo.hasExtra, BcInfo.b2i]

theorem good_extra {n e : IntVec} {f : FieldObj} {b : Nat} (h : Good n e f b) : f.geo.bc.hasExtra = e := by
  rw [h.bc, build_extra]

theorem newField_ok {n : IntVec} (hn : IntVec.Lt 0 n) (t : FieldType) (b : Nat) (he : IntVec.Le 0 t.bcExtra) :
    ∃ f, newField n t b = .ok f ∧ (InPlane n t.bcExtra → Good n t.bcExtra f b) := by
  obtain ⟨w, f, h1, h2, h3, h4, h5, h6, h7, h8, h9, h10, h11, h12, h13, lx, ly, lz⟩ := C09_field_layout n G true true true t.bcExtra (by decide) he
  refine ⟨⟨f, some b, none, true, .localRam, 0, false, [], [], false, w.globNpts⟩, ?_, fun hp => ?_⟩
  · unfold newField
    rw [ghost_eq, Outcome.ok_bind]
    dsimp only
    rw [h1, Outcome.ok_bind, h2, Outcome.ok_bind]
    rfl
  · obtain ⟨f', ⟨w', b1, b2⟩, b3, b4, b5, b6, b7⟩ := C72_built n hn G (by decide) rfl true true true t.bcExtra he
      (by rw [build_extra]; exact hp)
    rw [h1] at b1
    obtain rfl := Outcome.ok.inj b1
    rw [h2] at b2
    obtain rfl := Outcome.ok.inj b2
    refine ⟨b7 _ rfl rfl rfl b rfl, b3, b4, h12, ?_, ?_, ?_, ?_⟩
    · dsimp only; rw [h3]; exact h4
    · dsimp only; rw [h3]; exact h5
    · dsimp only; rw [h3]; exact h2
    · dsimp only
      have key : ∀ {n gm gp ex al io ie : Int}, 0 < n → Layout1 n gm gp ex al io ie → gm = 1 → (n = 1 → io = 0) ∧ (n ≠ 1 → io = 1) := by
        intro n gm gp ex al io ie h0 hl hg
        refine ⟨fun e => (hl.inactive (by omega)).1, fun e => ?_⟩
        rw [(hl.active (by omega)).1, hg]
      obtain ⟨n1, n2, n3⟩ := hn
      have kx := key n1 lx rfl
      have ky := key n2 ly rfl
      have kz := key n3 lz rfl
      exact ⟨kx.1, kx.2, ky.1, ky.2, kz⟩

variable {n e : IntVec} {f : FieldObj} {b : Nat}

theorem good_has (h : Good n e f b) (c : IntVec) : FlatHas n f.geo c ↔ InSpans n ⟨1, 1, 1⟩ (⟨1, 1, 1⟩ + e) c := by
  unfold FlatHas
  rw [good_extra h, h.valid]
  rfl

theorem good_on (h : Good n e f b) : FlatOn n G f.geo ∧ f.values ≠ none := ⟨h.target.mesh, by rw [h.target.mem]; exact Option.some_ne_none _⟩

theorem inSpans_of {lo hi c : IntVec} (h1 : IntVec.Le (-lo) c) (h2 : IntVec.Lt c (n + hi)) (h3 : InPlane n c) : InSpans n lo hi c :=
  ⟨⟨h3.1, fun _ => ⟨h1.1, h2.1⟩⟩, ⟨h3.2.1, fun _ => ⟨h1.2.1, h2.2.1⟩⟩, h3.2.2, fun _ => ⟨h1.2.2, h2.2.2⟩⟩

theorem block_spans (hp : InPlane n e) {c : IntVec} (h1 : IntVec.Le 0 c) (h2 : IntVec.Lt c (n + e)) : InSpans n 0 e c := by
  unfold InPlane at hp
  refine inSpans_of (by iv_omega) h2 ?_
  unfold InPlane
  iv_omega

theorem spans_block (hn : IntVec.Lt 0 n) (hp : InPlane n e) {c : IntVec} (h : InSpans n 0 e c) : IntVec.Le 0 c ∧ IntVec.Lt c (n + e) := by
  unfold InPlane at hp
  unfold InSpans InSpan at h
  iv_omega

set_option linter.unusedSectionVars false

section
variable {K : Type} [NatCast K] [One K] [Neg K] [Zero K] [Add K] [Sub K] [Mul K] [Div K]

/-- Assignment to a field of the program: interior cells, and ghost cells where the expression is defined. -/
theorem assign_stored (hn : IntVec.Lt 0 n) (hp : InPlane n e) {l : FieldObj} (h : Good n e l b) (x : Expr K .num) (hx : x.FlatWf n G)
    (hd : ∀ c, IntVec.Le 0 c → IntVec.Lt c (n + e) → InPlane n c → x.FlatDefined n c) (hi : x.Independent l 0) (m : Mem K) :
    ∃ m', assign l x m = .ok m' ∧
      (∀ c, InSpans n ⟨1, 1, 1⟩ (⟨1, 1, 1⟩ + e) c → x.FlatDefined n c → val n m' l c = x.flatValue n m c) ∧
      ∀ blk, blk ≠ b → ∀ a, m' blk a = m blk a := by
  have hdef : ∀ c, FlatInterior n l c → x.FlatDefined n c := by
    intro c hc
    unfold FlatInterior at hc
    rw [good_extra h] at hc
    have := spans_block hn hp hc
    exact hd c this.1 this.2 (inSpans_plane hc)
  obtain ⟨m', h1, h2, h3⟩ := C72_assign_partial n hn G G_moderate l b h.target x hx hdef hi m
  refine ⟨m', h1, fun c c1 c2 => ?_, fun blk hb a => h3 blk a (.inl hb)⟩
  unfold val
  rw [h.target.mem, Option.getD_some, h2 c ⟨?_, c2⟩]
  unfold FlatStored
  rw [good_extra h, h.ghosts]
  exact c1

theorem assign_good (hn : IntVec.Lt 0 n) (hp : InPlane n e) {l : FieldObj} (h : Good n e l b) (x : Expr K .num) (hx : x.FlatWf n G)
    (hd : ∀ c, IntVec.Le 0 c → IntVec.Lt c (n + e) → InPlane n c → x.FlatDefined n c) (hi : x.Independent l 0) (m : Mem K) :
    ∃ m', assign l x m = .ok m' ∧
      (∀ c, IntVec.Le 0 c → IntVec.Lt c (n + e) → val n m' l c = x.flatValue n m c) ∧ ∀ blk, blk ≠ b → ∀ a, m' blk a = m blk a := by
  obtain ⟨m', h1, h2, h3⟩ := assign_stored hn hp h x hx hd hi m
  refine ⟨m', h1, fun c c1 c2 => ?_, h3⟩
  have hs := block_spans hp c1 c2
  have pl := inSpans_plane hs
  have h0 := h.target.mesh.extra
  rw [good_extra h] at h0
  refine h2 c (inSpans_of ?_ ?_ pl) (hd c c1 c2 pl)
  · iv_omega
  · iv_omega

theorem work_ok {t : FieldType} (h : Good n t.bcExtra f b) (b' : Nat) (m : Mem K) :
    ∃ f' m', workField t f b' m = .ok (f', m') ∧ Good n t.bcExtra f' b' ∧ ∀ blk, blk ≠ b' → ∀ a, m' blk a = m blk a := by
  have hg : storeGet false f.geo t.bcExtra t.bcExtra = .ok (f.geo, f.geo.window.globNpts) := by
    have hfit := h.target.mesh.fits
    have w0 : f.geo.window = ⟨f.geo.window.npts, 0, f.geo.window.npts⟩ := by
      have h1 := h.offset
      have h2 := h.full
      generalize f.geo.window = w at *
      obtain ⟨a, o, x⟩ := w
      dsimp only at h1 h2 ⊢
      rw [h1, h2]
    have hs : Window.sanityCheck ⟨f.geo.window.npts, 0, f.geo.window.npts⟩ := by
      obtain ⟨p1, p2, p3, p4⟩ := hfit
      rw [h.full] at p3
      unfold Window.sanityCheck
      dsimp only
      simp only [IntVec.sub_x, IntVec.sub_y, IntVec.sub_z]
      iv_omega
    have hc := h.ctor
    rw [w0] at hc
    unfold storeGet storeFromWindow
    rw [h.ghosts, GhostData.copy_ok (g := G) (by decide), Outcome.ok_bind]
    have e1 : (BcInfo.buildVec f.geo.bc.isbc t.bcExtra).isbc * (t.bcExtra - t.bcExtra) = 0 := by ext <;> simp
    have e2 : BcInfo.buildVec f.geo.bc.isbc t.bcExtra = BcInfo.build true true true t.bcExtra := by
      rw [h.bc]; simp [BcInfo.buildVec, BcInfo.build, BcInfo.b2i]
    dsimp only
    rw [e1, e2]
    have e3 : ∀ v : IntVec, v + 0 = v := fun v => by ext <;> simp
    rw [e3, e3, h.full, h.offset, Window.make_ok hs, Outcome.ok_bind]
    dsimp only
    rw [Window.make_ok hs, Outcome.ok_bind, Outcome.assert_true hs, Outcome.ok_bind, hc, Outcome.ok_bind, ← w0]
    rfl
  unfold workField
  rw [hg, Outcome.ok_bind]
  refine ⟨_, _, rfl, ?_, fun blk hb a => if_neg fun h => hb h.1⟩
  have ht := h.target
  exact ⟨⟨ht.mesh, ht.cpu, rfl, rfl, ht.x, ht.y, ht.z⟩, h.bc, h.ghosts, h.valid, h.offset, h.full, h.ctor, h.interior⟩

/-! ## The two calculations -/

theorem unit_nonneg (d : Dir) : IntVec.Le 0 (unit d) := by cases d <;> decide

theorem bcExtra_face (d : Dir) : (faceType d).bcExtra = unit d := by cases d <;> rfl

theorem interp_apply (h : Dir → K) (d : Dir) (arg : Expr K .num) :
    (interp d).apply h arg = some (.stencil (.more (.one (-unit d, 1 / 2)) (0, 1 / 2)) arg) := by cases d <;> rfl

theorem grad_apply (h : Dir → K) (d : Dir) (arg : Expr K .num) :
    (grad d).apply h arg = some (.stencil (.more (.one (-unit d, -1 / h d)) (0, 1 / h d)) arg) := by cases d <;> rfl

theorem div_apply (h : Dir → K) (d : Dir) (arg : Expr K .num) :
    (div d).apply h arg = some (.stencil (.more (.one (0, -1 / h d)) (unit d, 1 / h d)) arg) := by cases d <;> rfl

theorem plane_zero (n : IntVec) : InPlane n 0 := ⟨fun _ => rfl, fun _ => rfl, fun _ => rfl⟩

theorem plane_unit {d : Dir} (hd : 1 < comp n d) : InPlane n (unit d) ∧ InPlane n (-unit d) := by
  unfold InPlane
  cases d <;> simp only [comp] at hd <;> simp [unit] <;> omega

omit [NatCast K] [One K] [Neg K] [Zero K] [Add K] [Sub K] [Mul K] [Div K] in
/-- Two-point stencils on the fields of the program: what an assignment needs. -/
theorem stencil_facts {e' : IntVec} {src l : FieldObj} {b' : Nat} (h : Good n e l b)
    (hs : Good n e' src b') (hb : b' ≠ b) (p q : IntVec) (u v : K) (pp : InPlane n p) (pq : InPlane n q)
    (h0 : IntVec.Le e (⟨1, 1, 1⟩ + e'))
    (h1 : IntVec.Le (-⟨1, 1, 1⟩) p ∧ IntVec.Le (e + p) (⟨1, 1, 1⟩ + e')) (h2 : IntVec.Le (-⟨1, 1, 1⟩) q ∧ IntVec.Le (e + q) (⟨1, 1, 1⟩ + e')) :
    (Expr.stencil (.more (.one (p, u)) (q, v)) (.field src)).FlatWf n G ∧
      (∀ c, IntVec.Le 0 c → IntVec.Lt c (n + e) → InPlane n c →
        (Expr.stencil (.more (.one (p, u)) (q, v)) (.field src)).FlatDefined n c) ∧
      (Expr.stencil (.more (.one (p, u)) (q, v)) (.field src)).Independent l 0 := by
  have hx : (Expr.stencil (.more (.one (p, u)) (q, v)) (.field src)).FlatWf n G := by
    refine ⟨?_, good_on hs⟩
    intro r hr
    simp only [Pts.toList, List.mem_append, List.mem_singleton] at hr
    rcases hr with rfl | rfl
    · exact pp
    · exact pq
  have hd : ∀ c, IntVec.Le 0 c → IntVec.Lt c (n + e) → InPlane n c →
      (Expr.stencil (.more (.one (p, u)) (q, v)) (.field src)).FlatDefined n c := by
    intro c c1 c2 c3 r hr
    simp only [Pts.toList, List.mem_append, List.mem_singleton] at hr
    refine ⟨(good_has hs c).2 (inSpans_of ?_ ?_ c3), ?_⟩
    · iv_omega
    · iv_omega
    · rcases hr with rfl | rfl
      · refine (good_has hs _).2 (inSpans_of ?_ ?_ (inPlane_add c3 pp))
        · dsimp only; iv_omega
        · dsimp only; iv_omega
      · refine (good_has hs _).2 (inSpans_of ?_ ?_ (inPlane_add c3 pq))
        · dsimp only; iv_omega
        · dsimp only; iv_omega
  have hi : (Expr.stencil (.more (.one (p, u)) (q, v)) (.field src)).Independent l 0 := by
    intro r _
    refine .inl ?_
    rw [hs.target.mem, h.target.mem]
    exact fun e => hb (Option.some.inj e)
  exact ⟨hx, hd, hi⟩

/-- Two-point stencils on the fields of the program. -/
theorem stencil_good (hn : IntVec.Lt 0 n) {e' : IntVec} (hp : InPlane n e) {src l : FieldObj} {b' : Nat} (h : Good n e l b)
    (hs : Good n e' src b') (hb : b' ≠ b) (p q : IntVec) (u v : K) (pp : InPlane n p) (pq : InPlane n q)
    (h0 : IntVec.Le e (⟨1, 1, 1⟩ + e'))
    (h1 : IntVec.Le (-⟨1, 1, 1⟩) p ∧ IntVec.Le (e + p) (⟨1, 1, 1⟩ + e')) (h2 : IntVec.Le (-⟨1, 1, 1⟩) q ∧ IntVec.Le (e + q) (⟨1, 1, 1⟩ + e'))
    (m : Mem K) :
    ∃ m', assign l (.stencil (.more (.one (p, u)) (q, v)) (.field src)) m = .ok m' ∧
      (∀ c, IntVec.Le 0 c → IntVec.Lt c (n + e) → val n m' l c = val n m src (c + p) * u + val n m src (c + q) * v) ∧
      ∀ blk, blk ≠ b → ∀ a, m' blk a = m blk a := by
  obtain ⟨hx, hd, hi⟩ := stencil_facts h hs hb p q u v pp pq h0 h1 h2
  exact assign_good hn hp h _ hx hd hi m

end
end Heat
end SpatialOps
