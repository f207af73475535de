import Verif.Flat.Spec
import Verif.Nebo.Props

/-!
# Lemmas: a flat mesh is a mesh in other coordinates

The single cell of a flat direction has number `-g` in the coordinates of the code's ghost arithmetic, and the
mesh has `1 - g - g'` interior cells there.
-/

namespace SpatialOps
namespace Nebo

/-- One direction of the mesh as the ghost arithmetic sees it. -/
def mesh1 (n glo ghi : Int) : Int := if n = 1 then 1 - glo - ghi else n

/-- One direction of a cell as the ghost arithmetic sees it. -/
def emb1 (n glo c : Int) : Int := if n = 1 then -glo else c

/-- The mesh as the ghost arithmetic sees it. -/
def flatMesh (n : IntVec) (g : GhostData) : IntVec :=
  ⟨mesh1 n.x g.minus.x g.plus.x, mesh1 n.y g.minus.y g.plus.y, mesh1 n.z g.minus.z g.plus.z⟩

/-- The cell as the ghost arithmetic sees it. -/
def emb (n : IntVec) (g : GhostData) (c : IntVec) : IntVec :=
  ⟨emb1 n.x g.minus.x c.x, emb1 n.y g.minus.y c.y, emb1 n.z g.minus.z c.z⟩

/-- The cell with number 0 in flat directions. -/
def flat0 (n c : IntVec) : IntVec :=
  ⟨if n.x = 1 then 0 else c.x, if n.y = 1 then 0 else c.y, if n.z = 1 then 0 else c.z⟩

variable {n : IntVec} {g : GhostData}

theorem size1 {n ext ex lo hi glo ghi : Int} (h : Span n ext ex lo hi glo ghi) : ext = mesh1 n glo ghi + ex + lo + hi := by
  unfold Span at h; unfold mesh1; split <;> omega

theorem room1 {n ext ex lo hi glo ghi ofs npts gm gp : Int} (h : Span n ext ex lo hi glo ghi) (hr : Room n ofs npts ex lo gm gp glo ghi)
    (h0 : 0 ≤ ofs) (h1 : ofs + ext ≤ npts) : 0 ≤ ofs + lo - gm ∧ ofs + lo + mesh1 n glo ghi + ex + gp ≤ npts := by
  unfold Span at h; unfold Room at hr; unfold mesh1; split <;> omega

theorem has1 {n ext ex lo hi glo ghi c : Int} (h : Span n ext ex lo hi glo ghi) (hc : n = 1 → c = 0) :
    (-lo ≤ emb1 n glo c ∧ emb1 n glo c < mesh1 n glo ghi + (hi + ex)) ↔ InSpan n lo (hi + ex) c := by
  unfold Span at h; unfold mesh1 emb1 InSpan
  by_cases e : n = 1
  · simp only [e, if_true, ne_eq, not_true, false_implies, true_implies, and_true] at *; omega
  · simp only [e, if_false, ne_eq, not_false_iff, false_implies, true_implies, true_and] at *

theorem stored1 {n ex glo ghi gm gp c : Int} (h : n = 1 → ex = 0 ∧ gm = glo ∧ gp = ghi) (hc : n = 1 → c = 0) :
    (-gm ≤ emb1 n glo c ∧ emb1 n glo c < mesh1 n glo ghi + ex + gp) ↔ InSpan n gm (gp + ex) c := by
  unfold mesh1 emb1 InSpan
  by_cases e : n = 1
  · simp only [e, if_true, ne_eq, not_true, false_implies, true_implies, and_true] at *; omega
  · simp only [e, if_false, ne_eq, not_false_iff, false_implies, true_implies, true_and] at *; omega

theorem storedEmb1 {n ex glo ghi gm gp c : Int} (h : n = 1 → ex = 0 ∧ gm = glo ∧ gp = ghi)
    (h1 : -gm ≤ c) (h2 : c < mesh1 n glo ghi + ex + gp) : emb1 n glo (if n = 1 then 0 else c) = c := by
  unfold mesh1 at h2; unfold emb1; split <;> rename_i e
  · rw [if_pos e] at h2; have := h e; omega
  · rfl

theorem uniform1 {n glo ghi c : Int} (h2 : glo ≤ ghostMax) (h3 : ghi ≤ ghostMax) (hc : n = 1 → c = 0) :
    (-ghostMax ≤ emb1 n glo c ∧ emb1 n glo c < mesh1 n glo ghi + ghostMax) ↔ InSpan n ghostMax ghostMax c := by
  unfold mesh1 emb1 InSpan
  by_cases e : n = 1
  · simp only [e, if_true, ne_eq, not_true, false_implies, true_implies, and_true] at *; omega
  · simp only [e, if_false, ne_eq, not_false_iff, false_implies, true_implies, true_and] at *

theorem core1 {n glo ghi minus plus : Int} (h0 : 0 ≤ glo) (h1 : 0 ≤ ghi)
    (a : -minus ≤ emb1 n glo 0) (b : emb1 n glo (n - 1) < mesh1 n glo ghi + plus) : 0 ≤ minus ∧ 0 ≤ plus := by
  unfold emb1 at a b; unfold mesh1 at b
  by_cases e : n = 1
  · simp only [e, if_true] at *; omega
  · simp only [e, if_false] at *; omega

theorem and3 {a b c a' b' c' p q r : Prop} (h1 : a ∧ a' ↔ p) (h2 : b ∧ b' ↔ q) (h3 : c ∧ c' ↔ r) :
    (a ∧ b ∧ c) ∧ (a' ∧ b' ∧ c') ↔ p ∧ q ∧ r := by
  rw [← h1, ← h2, ← h3]
  constructor
  · rintro ⟨⟨x, y, z⟩, x', y', z'⟩; exact ⟨⟨x, x'⟩, ⟨y, y'⟩, z, z'⟩
  · rintro ⟨⟨x, x'⟩, ⟨y, y'⟩, z, z'⟩; exact ⟨⟨x, y, z⟩, x', y', z'⟩

theorem flatOn_mesh {f : FieldGeo} (h : FlatOn n g f) : OnMesh (flatMesh n g) f where
  fits := h.fits
  size := IntVec.ext (size1 h.x) (size1 h.y) (size1 h.z)
  extra := h.extra
  valid := h.valid
  finite := h.finite
  ghosts := h.ghosts
  ghostsFinite := h.ghostsFinite

theorem flatTarget_target {l : FieldObj} {b : Nat} (h : FlatTarget n g l b) : Target (flatMesh n g) l b where
  mesh := flatOn_mesh h.mesh
  cpu := h.cpu
  writable := h.writable
  mem := h.mem
  room := by
    obtain ⟨-, f1, -, f2⟩ := h.mesh.fits
    have hx := room1 h.mesh.x h.x f1.1 f2.1
    have hy := room1 h.mesh.y h.y f1.2.1 f2.2.1
    have hz := room1 h.mesh.z h.z f1.2.2 f2.2.2
    exact ⟨⟨hx.1, hy.1, hz.1⟩, hx.2, hy.2, hz.2⟩

theorem flat_wf {V : Type} : {t : Ty} → (e : Expr V t) → e.FlatWf n g → e.Wf (flatMesh n g)
  | _, .scalar _, _ => trivial
  | _, .field _, h => ⟨flatOn_mesh h.1, h.2⟩
  | _, .single _, h => h
  | _, .mask _, h => ⟨flatOn_mesh h.1, h.2⟩
  | _, .maskShift _ a, h => flat_wf a h.2
  | _, .un _ a, h => flat_wf a h
  | _, .bin _ a b, h => ⟨flat_wf a h.1, flat_wf b h.2⟩
  | _, .and a b, h => ⟨flat_wf a h.1, flat_wf b h.2⟩
  | _, .or a b, h => ⟨flat_wf a h.1, flat_wf b h.2⟩
  | _, .cond t a b, h => ⟨flat_wf t h.1, flat_wf a h.2.1, flat_wf b h.2.2⟩
  | _, .stencil _ a, h => flat_wf a h.2
  | _, .sumStencil _ a, h => flat_wf a h.2

theorem embAdd1 {n glo c p : Int} (hp : n = 1 → p = 0) : emb1 n glo c + p = emb1 n glo (c + p) := by
  unfold emb1; split <;> omega

theorem emb_add {c p : IntVec} (hp : InPlane n p) : emb n g c + p = emb n g (c + p) :=
  IntVec.ext (embAdd1 hp.1) (embAdd1 hp.2.1) (embAdd1 hp.2.2)

theorem inPlane_add {c p : IntVec} (hc : InPlane n c) (hp : InPlane n p) : InPlane n (c + p) := by
  unfold InPlane at *
  simp only [IntVec.add_x, IntVec.add_y, IntVec.add_z]
  omega

theorem flat_has {f : FieldGeo} (h : FlatOn n g f) {c : IntVec} (hc : InPlane n c) :
    HasCell f (emb n g c) ↔ FlatHas n f c := by
  rw [hasCell_iff (flatOn_mesh h)]
  exact and3 (has1 h.x hc.1) (has1 h.y hc.2.1) (has1 h.z hc.2.2)

theorem place1 {n ext ex lo hi glo ghi : Int} (h : Span n ext ex lo hi glo ghi) (ofs c : Int) :
    ofs + lo + emb1 n glo c = ofs + place n lo c := by
  unfold Span at h; unfold emb1 place; split <;> omega

theorem flat_addr {f : FieldGeo} (h : FlatOn n g f) (c : IntVec) : cellAddr f (emb n g c) = flatAddr n f c :=
  congrArg (fortranPos f.window.npts) (IntVec.ext (place1 h.x _ _) (place1 h.y _ _) (place1 h.z _ _))

theorem flat_uniform (hg : Moderate g) {c : IntVec} (hc : InPlane n c) :
    (IntVec.Le (-⟨ghostMax, ghostMax, ghostMax⟩) (emb n g c) ∧
      IntVec.Lt (emb n g c) (flatMesh n g + ⟨ghostMax, ghostMax, ghostMax⟩)) ↔
    InSpans n ⟨ghostMax, ghostMax, ghostMax⟩ ⟨ghostMax, ghostMax, ghostMax⟩ c := by
  obtain ⟨-, h1, h2⟩ := hg
  exact and3 (uniform1 h1.1 h2.1 hc.1) (uniform1 h1.2.1 h2.2.1 hc.2.1)
    (uniform1 h1.2.2 h2.2.2 hc.2.2)

theorem Pts.all_congr {α : Type} {P Q : α → Prop} {pts : Pts α} (h : ∀ a ∈ pts.toList, P a ↔ Q a) : pts.All P ↔ pts.All Q :=
  ⟨fun hp a ha => (h a ha).1 (hp a ha), fun hq a ha => (h a ha).2 (hq a ha)⟩

theorem flat_defined (hg : Moderate g) {V : Type} : {t : Ty} → (e : Expr V t) → e.FlatWf n g → (c : IntVec) → InPlane n c →
    (e.DefinedAt (flatMesh n g) (emb n g c) ↔ e.FlatDefined n c)
  | _, .scalar _, _, _, hc => flat_uniform hg hc
  | _, .single _, _, _, hc => flat_uniform hg hc
  | _, .field _, h, _, hc => flat_has h.1 hc
  | _, .mask _, h, _, hc => flat_has h.1 hc
  | _, .maskShift p a, h, c, hc => by
    simp only [Expr.DefinedAt, Expr.FlatDefined]
    rw [emb_add h.1, flat_defined hg a h.2 c hc, flat_defined hg a h.2 _ (inPlane_add hc h.1)]
  | _, .un _ a, h, c, hc => flat_defined hg a h c hc
  | _, .bin _ a b, h, c, hc => and_congr (flat_defined hg a h.1 c hc) (flat_defined hg b h.2 c hc)
  | _, .and a b, h, c, hc => and_congr (flat_defined hg a h.1 c hc) (flat_defined hg b h.2 c hc)
  | _, .or a b, h, c, hc => and_congr (flat_defined hg a h.1 c hc) (flat_defined hg b h.2 c hc)
  | _, .cond t a b, h, c, hc =>
    and_congr (flat_defined hg t h.1 c hc) (and_congr (flat_defined hg a h.2.1 c hc) (flat_defined hg b h.2.2 c hc))
  | _, .stencil pts a, h, c, hc => by
    simp only [Expr.DefinedAt, Expr.FlatDefined]
    refine Pts.all_congr fun q hq => ?_
    have hp := h.1 q hq
    rw [emb_add hp, flat_defined hg a h.2 c hc, flat_defined hg a h.2 _ (inPlane_add hc hp)]
  | _, .sumStencil pts a, h, c, hc => by
    simp only [Expr.DefinedAt, Expr.FlatDefined]
    refine Pts.all_congr fun q hq => ?_
    have hp := h.1 q hq
    rw [emb_add hp, flat_defined hg a h.2 c hc, flat_defined hg a h.2 _ (inPlane_add hc hp)]

theorem flat_value {V : Type} [Add V] [Mul V] (m : Mem V) : {t : Ty} → (e : Expr V t) → e.FlatWf n g → (c : IntVec) →
    e.value m (emb n g c) = e.flatValue n m c
  | _, .scalar _, _, _ => rfl
  | _, .single _, _, _ => rfl
  | _, .field f, h, c => by simp only [Expr.value, Expr.flatValue]; rw [flat_addr h.1]
  | _, .mask f, h, c => by simp only [Expr.value, Expr.flatValue]; rw [flat_addr h.1]
  | _, .maskShift p a, h, c => by
    simp only [Expr.value, Expr.flatValue]
    rw [emb_add h.1, flat_value m a h.2]
  | _, .un _ a, h, c => by simp only [Expr.value, Expr.flatValue]; rw [flat_value m a h]
  | _, .bin _ a b, h, c => by simp only [Expr.value, Expr.flatValue]; rw [flat_value m a h.1, flat_value m b h.2]
  | _, .and a b, h, c => by simp only [Expr.value, Expr.flatValue]; rw [flat_value m a h.1, flat_value m b h.2]
  | _, .or a b, h, c => by simp only [Expr.value, Expr.flatValue]; rw [flat_value m a h.1, flat_value m b h.2]
  | _, .cond t a b, h, c => by
    simp only [Expr.value, Expr.flatValue]; rw [flat_value m t h.1, flat_value m a h.2.1, flat_value m b h.2.2]
  | _, .stencil pts a, h, c => by
    simp only [Expr.value, Expr.flatValue]
    refine pts_sum_congr pts fun q hq => ?_
    dsimp only
    rw [emb_add (h.1 q hq), flat_value m a h.2]
  | _, .sumStencil pts a, h, c => by
    simp only [Expr.value, Expr.flatValue]
    refine pts_sum_congr pts fun q hq => ?_
    dsimp only
    rw [emb_add (h.1 q hq), flat_value m a h.2]

theorem inSpans_plane {lo hi c : IntVec} (h : InSpans n lo hi c) : InPlane n c := ⟨h.1.1, h.2.1.1, h.2.2.1⟩

theorem flatGhost {l : FieldObj} {b : Nat} (h : FlatTarget n g l b) :
    (n.x = 1 → l.geo.bc.hasExtra.x = 0 ∧ l.geo.ghosts.minus.x = g.minus.x ∧ l.geo.ghosts.plus.x = g.plus.x) ∧
    (n.y = 1 → l.geo.bc.hasExtra.y = 0 ∧ l.geo.ghosts.minus.y = g.minus.y ∧ l.geo.ghosts.plus.y = g.plus.y) ∧
    (n.z = 1 → l.geo.bc.hasExtra.z = 0 ∧ l.geo.ghosts.minus.z = g.minus.z ∧ l.geo.ghosts.plus.z = g.plus.z) :=
  ⟨fun e => ⟨(h.mesh.x.1 e).2.1, h.x.1 e⟩, fun e => ⟨(h.mesh.y.1 e).2.1, h.y.1 e⟩, fun e => ⟨(h.mesh.z.1 e).2.1, h.z.1 e⟩⟩

theorem flat_stored {l : FieldObj} {b : Nat} (h : FlatTarget n g l b) {c : IntVec} (hc : InPlane n c) :
    Stored (flatMesh n g) l (emb n g c) ↔ FlatStored n l c := by
  obtain ⟨hx, hy, hz⟩ := flatGhost h
  exact and3 (stored1 hx hc.1) (stored1 hy hc.2.1) (stored1 hz hc.2.2)

/-- Every stored cell is the image of a cell. -/
theorem stored_emb {l : FieldObj} {b : Nat} (h : FlatTarget n g l b) {c : IntVec} (hc : Stored (flatMesh n g) l c) :
    emb n g (flat0 n c) = c ∧ InPlane n (flat0 n c) := by
  obtain ⟨hx, hy, hz⟩ := flatGhost h
  obtain ⟨⟨a1, a2, a3⟩, b1, b2, b3⟩ := hc
  refine ⟨IntVec.ext (storedEmb1 hx a1 b1) (storedEmb1 hy a2 b2) (storedEmb1 hz a3 b3), ?_⟩
  unfold InPlane flat0
  exact ⟨fun e => by simp [e], fun e => by simp [e], fun e => by simp [e]⟩

theorem flat_core (hn : IntVec.Lt 0 n) (hg : g.Valid) : Core (flatMesh n g) fun c => ∃ c0, InSpans n 0 0 c0 ∧ c = emb n g c0 := by
  intro minus plus h
  have hn' : 0 < n.x ∧ 0 < n.y ∧ 0 < n.z := hn
  have h1 := h (emb n g 0) ⟨0, by refine ⟨⟨fun _ => rfl, fun _ => ?_⟩, ⟨fun _ => rfl, fun _ => ?_⟩, fun _ => rfl, fun _ => ?_⟩ <;> simp <;> omega, rfl⟩
  have h2 := h (emb n g (n - ⟨1, 1, 1⟩)) ⟨_, by unfold InSpans InSpan; simp only [IntVec.sub_x, IntVec.sub_y, IntVec.sub_z, IntVec.zero_x, IntVec.zero_y, IntVec.zero_z]; omega, rfl⟩
  have x := core1 hg.1.1 hg.2.1 h1.1.1 h2.2.1
  have y := core1 hg.1.2.1 hg.2.2.1 h1.1.2.1 h2.2.2.1
  have z := core1 hg.1.2.2 hg.2.2.2 h1.1.2.2 h2.2.2.2
  exact ⟨⟨x.1, y.1, z.1⟩, x.2, y.2, z.2⟩

end Nebo
end SpatialOps
