import Verif.Views.Spec
import Verif.Nebo.Props
import Verif.Study.Lemmas
import Verif.Heat.Lemmas

/-!
# Lemmas for expressions of views
-/

namespace SpatialOps
namespace Views

open Nebo Stencil

variable {g : GhostData} {x E : IntVec}

/-- The number of interior cells a view of `E` cells is taken to have. -/
def inner (g : GhostData) (x E : IntVec) : IntVec := E - x - g.minus - g.plus

theorem ViewOf.onMesh {f : FieldGeo} (h : ViewOf g x E f) (hg : g.Valid) (hf : g.isInf = false) (hx : IntVec.Le 0 x) :
    OnMesh (inner g x E) f := by
  refine ⟨h.fits, ?_, by rw [h.extra]; exact hx, by rw [h.valid]; exact hg, by rw [h.valid]; exact hf, by rw [h.ghosts]; exact hg,
    by rw [h.ghosts]; exact hf⟩
  rw [h.size, h.extra, h.valid]
  unfold inner
  ext <;> simp only [IntVec.add_x, IntVec.add_y, IntVec.add_z, IntVec.sub_x, IntVec.sub_y, IntVec.sub_z] <;> omega

theorem wf_of_views {V : Type} (hg : g.Valid) (hf : g.isInf = false) (hx : IntVec.Le 0 x) :
    {t : Ty} → (e : Expr V t) → OfViews g x E e → e.Wf (inner g x E)
  | _, .scalar _, _ => trivial
  | _, .field _, h => ⟨h.1.onMesh hg hf hx, h.2⟩
  | _, .single _, h => h
  | _, .mask _, h => ⟨h.1.onMesh hg hf hx, h.2⟩
  | _, .un _ a, h => wf_of_views hg hf hx a h
  | _, .bin _ a b, h => ⟨wf_of_views hg hf hx a h.1, wf_of_views hg hf hx b h.2⟩
  | _, .and a b, h => ⟨wf_of_views hg hf hx a h.1, wf_of_views hg hf hx b h.2⟩
  | _, .or a b, h => ⟨wf_of_views hg hf hx a h.1, wf_of_views hg hf hx b h.2⟩
  | _, .cond c a b, h => ⟨wf_of_views hg hf hx c h.1, wf_of_views hg hf hx a h.2.1, wf_of_views hg hf hx b h.2.2⟩
  | _, .maskShift _ _, h => h.elim
  | _, .stencil _ _, h => h.elim
  | _, .sumStencil _ _, h => h.elim

theorem ViewOf.origin_eq {f : FieldGeo} (h : ViewOf g x E f) : origin f = f.window.offset + g.minus := by
  unfold origin; rw [h.valid]

theorem ViewOf.addr {f : FieldGeo} (h : ViewOf g x E f) (c : IntVec) : cellAddr f (c - g.minus) = element f c := by
  unfold cellAddr element
  rw [h.origin_eq]
  congr 1
  ext <;> simp only [IntVec.add_x, IntVec.add_y, IntVec.add_z, IntVec.sub_x, IntVec.sub_y, IntVec.sub_z] <;> omega

theorem ViewOf.has {f : FieldGeo} (h : ViewOf g x E f) (c : IntVec) : HasCell f (c - g.minus) ↔ InBlock E c := by
  have := h.size
  unfold HasCell Window.Covers InBlock
  rw [h.origin_eq, this]
  constructor <;> intro h <;> iv_omega

theorem value_of_views {V : Type} [Add V] [Mul V] (m : Mem V) (c : IntVec) :
    {t : Ty} → (e : Expr V t) → OfViews g x E e → e.value m (c - g.minus) = shown m e c
  | _, .scalar _, _ => rfl
  | _, .field f, h => by unfold Expr.value shown; rw [h.1.addr]
  | _, .single _, _ => rfl
  | _, .mask k, h => by unfold Expr.value shown; rw [h.1.addr]
  | _, .un op a, h => by unfold Expr.value shown; rw [value_of_views m c a h]
  | _, .bin op a b, h => by unfold Expr.value shown; rw [value_of_views m c a h.1, value_of_views m c b h.2]
  | _, .and a b, h => by unfold Expr.value shown; rw [value_of_views m c a h.1, value_of_views m c b h.2]
  | _, .or a b, h => by unfold Expr.value shown; rw [value_of_views m c a h.1, value_of_views m c b h.2]
  | _, .cond t a b, h => by
    unfold Expr.value shown; rw [value_of_views m c t h.1, value_of_views m c a h.2.1, value_of_views m c b h.2.2]
  | _, .maskShift _ _, h => h.elim
  | _, .stencil _ _, h => h.elim
  | _, .sumStencil _ _, h => h.elim

/-- Constants are defined at all cells of a view with few enough ghosts. -/
theorem const_defined (hm : IntVec.Le g.minus ⟨ghostMax, ghostMax, ghostMax⟩) (hp : IntVec.Le (g.plus + x) ⟨ghostMax, ghostMax, ghostMax⟩)
    {c : IntVec} (hc : InBlock E c) : IntVec.Le (-⟨ghostMax, ghostMax, ghostMax⟩) (c - g.minus) ∧
      IntVec.Lt (c - g.minus) (inner g x E + ⟨ghostMax, ghostMax, ghostMax⟩) := by
  unfold inner
  unfold InBlock at hc
  iv_omega

theorem defined_of_views {V : Type} (hm : IntVec.Le g.minus ⟨ghostMax, ghostMax, ghostMax⟩)
    (hp : IntVec.Le (g.plus + x) ⟨ghostMax, ghostMax, ghostMax⟩) {c : IntVec} (hc : InBlock E c) :
    {t : Ty} → (e : Expr V t) → OfViews g x E e → e.DefinedAt (inner g x E) (c - g.minus)
  | _, .scalar _, _ => const_defined hm hp hc
  | _, .single _, _ => const_defined hm hp hc
  | _, .field _, h => (h.1.has c).2 hc
  | _, .mask _, h => (h.1.has c).2 hc
  | _, .un _ a, h => defined_of_views hm hp hc a h
  | _, .bin _ a b, h => ⟨defined_of_views hm hp hc a h.1, defined_of_views hm hp hc b h.2⟩
  | _, .and a b, h => ⟨defined_of_views hm hp hc a h.1, defined_of_views hm hp hc b h.2⟩
  | _, .or a b, h => ⟨defined_of_views hm hp hc a h.1, defined_of_views hm hp hc b h.2⟩
  | _, .cond t a b, h => ⟨defined_of_views hm hp hc t h.1, defined_of_views hm hp hc a h.2.1, defined_of_views hm hp hc b h.2.2⟩
  | _, .maskShift _ _, h => h.elim
  | _, .stencil _ _, h => h.elim
  | _, .sumStencil _ _, h => h.elim

theorem independent_of_views {V : Type} {l : FieldObj} (hl : ViewOf g x E l.geo) :
    {t : Ty} → (e : Expr V t) → OfViews g x E e → Apart l e → e.Independent l 0
  | _, .scalar _, _, _ => trivial
  | _, .single _, _, _ => trivial
  | _, .mask _, _, _ => trivial
  | _, .field f, h, ha => ha.imp id fun hw => ⟨rfl, by rw [h.1.origin_eq, hl.origin_eq, hw], by rw [hw]⟩
  | _, .un _ a, h, ha => independent_of_views hl a h ha
  | _, .bin _ a b, h, ha => ⟨independent_of_views hl a h.1 ha.1, independent_of_views hl b h.2 ha.2⟩
  | _, .and a b, h, ha => ⟨independent_of_views hl a h.1 ha.1, independent_of_views hl b h.2 ha.2⟩
  | _, .or a b, h, ha => ⟨independent_of_views hl a h.1 ha.1, independent_of_views hl b h.2 ha.2⟩
  | _, .cond t a b, h, ha => ⟨independent_of_views hl t h.1 ha.1, independent_of_views hl a h.2.1 ha.2.1, independent_of_views hl b h.2.2 ha.2.2⟩
  | _, .maskShift _ _, h, _ => h.elim
  | _, .stencil _ _, h, _ => h.elim
  | _, .sumStencil _ _, h, _ => h.elim

theorem ViewOf.target {l : FieldObj} {b : Nat} (h : ViewOf g x E l.geo) (hw : Writable l b) (hg : g.Valid) (hf : g.isInf = false)
    (hx : IntVec.Le 0 x) : Target (inner g x E) l b := by
  refine ⟨h.onMesh hg hf hx, hw.cpu, hw.writable, hw.mem, ?_, ?_⟩
  · rw [h.origin_eq, h.ghosts]
    have := h.fits
    unfold Window.Fits at this
    iv_omega
  · rw [h.origin_eq, h.ghosts, h.extra]
    have := h.fits
    unfold Window.Fits at this
    rw [h.size] at this
    unfold inner
    iv_omega

theorem ViewOf.stored {l : FieldObj} (h : ViewOf g x E l.geo) (c : IntVec) : Stored (inner g x E) l (c - g.minus) ↔ InBlock E c := by
  unfold Stored InBlock inner
  rw [h.ghosts, h.extra]
  constructor <;> intro h <;> iv_omega

/-- Assignment to a view. -/
theorem assign_view {V : Type} [Add V] [Mul V] (hg : g.Valid) (hf : g.isInf = false) (hx : IntVec.Le 0 x)
    (hm : IntVec.Le g.minus ⟨ghostMax, ghostMax, ghostMax⟩) (hp : IntVec.Le (g.plus + x) ⟨ghostMax, ghostMax, ghostMax⟩)
    (hE : IntVec.Lt 0 E) {l : FieldObj} {b : Nat} (hl : ViewOf g x E l.geo) (hw : Writable l b) (e : Expr V .num)
    (he : OfViews g x E e) (ha : Apart l e) (m : Mem V) :
    ∃ m', assign l e m = .ok m' ∧ (∀ c, InBlock E c → m' b (element l.geo c) = shown m e c) ∧
      ∀ blk a, (blk ≠ b ∨ ∀ c, InBlock E c → element l.geo c ≠ a) → m' blk a = m blk a := by
  have hwf := wf_of_views hg hf hx e he
  have hT := hl.target hw hg hf hx
  have hfst : InBlock E 0 := by unfold InBlock; iv_omega
  have hlst : InBlock E (E - ⟨1, 1, 1⟩) := by unfold InBlock; iv_omega
  have hcore : ∀ minus plus : IntVec, (∀ c, InBlock E (c + g.minus) → InBox (inner g x E) minus plus c) →
      IntVec.Le g.minus minus ∧ IntVec.Le (x + g.plus) plus := by
    intro minus plus h
    have h1 := h (0 - g.minus) (by unfold InBlock at hfst ⊢; iv_omega)
    have h2 := h (E - ⟨1, 1, 1⟩ - g.minus) (by unfold InBlock at hlst ⊢; iv_omega)
    unfold InBox inner at h1 h2
    iv_omega
  have hdef : ∀ c, InBlock E (c + g.minus) → e.DefinedAt (inner g x E) c := by
    intro c hc
    have := defined_of_views hm hp hc e he
    have hcc : c + g.minus - g.minus = c := by
      ext <;> simp only [IntVec.add_x, IntVec.add_y, IntVec.add_z, IntVec.sub_x, IntVec.sub_y, IntVec.sub_z] <;> omega
    rwa [hcc] at this
  have hg0 : IntVec.Le 0 g.minus ∧ IntVec.Le 0 g.plus := by unfold GhostData.Valid at hg; iv_omega
  obtain ⟨pg, hpg⟩ := possibleGhosts_core (C := fun c => InBlock E (c + g.minus)) (by
      intro minus plus h
      obtain ⟨h1, h2⟩ := hcore minus plus h
      exact ⟨by iv_omega, by iv_omega⟩) e hwf hdef
  obtain ⟨pv, pex⟩ := possibleGhosts_exact e hwf pg hpg
  have hxp : IntVec.Le l.geo.bc.hasExtra pg.plus := by
    obtain ⟨-, h2⟩ := hcore pg.minus pg.plus fun c hc => (pex c).1 (hdef c hc)
    rw [hl.extra]
    iv_omega
  obtain ⟨m', h1, h2, h3⟩ := C22_assign_any_mesh (inner g x E) l b hT e hwf (independent_of_views hl e he ha) pg hpg hxp (0 - g.minus)
    ⟨(hl.stored 0).2 hfst, defined_of_views hm hp hfst e he⟩ m
  refine ⟨m', h1, fun c hc => ?_, fun blk a hba => h3 blk a ?_⟩
  · rw [← hl.addr, h2 _ ⟨(hl.stored c).2 hc, defined_of_views hm hp hc e he⟩, value_of_views m c e he]
  · refine hba.imp id fun hn c hc => ?_
    have hcc : c + g.minus - g.minus = c := by
      ext <;> simp only [IntVec.add_x, IntVec.add_y, IntVec.add_z, IntVec.sub_x, IntVec.sub_y, IntVec.sub_z] <;> omega
    have := hn (c + g.minus) ((hl.stored _).1 (by rw [hcc]; exact hc.1))
    rwa [← hl.addr, hcc] at this

/-- A view of a field. -/
theorem part_ok {f : FieldObj} (hg : f.geo.ghosts.Valid) (o size : IntVec) (ho : IntVec.Le 0 o) (hs : IntVec.Lt 0 size)
    (hfit : IntVec.Le (o + size) f.geo.window.npts) :
    ∃ v, Loops.part f f.geo.window.npts o size = .ok v ∧ ViewOf f.geo.ghosts f.geo.bc.hasExtra size v.geo ∧
      v.geo.window = ⟨f.geo.window.npts, o, size⟩ ∧ v.values = f.values ∧ v.memType = f.memType ∧ v.readOnly = f.readOnly := by
  have hsane : Window.sanityCheck ⟨f.geo.window.npts, o, size⟩ := by
    unfold Window.sanityCheck
    simp only [IntVec.sub_x, IntVec.sub_y, IntVec.sub_z]
    iv_omega
  have hsv : FieldGeo.singleValueCheck false ⟨f.geo.window.npts, o, size⟩ f.geo.ghosts = .ok () := by
    unfold FieldGeo.singleValueCheck
    rw [Outcome.throwIf_false (by simp), Outcome.ok_bind, Outcome.throwIf_false (by simp)]
  unfold Loops.part
  rw [Window.make_ok hsane, Outcome.ok_bind]
  unfold FieldGeo.windowCopy
  rw [GhostData.copy_ok hg, Outcome.ok_bind, hsv, Outcome.ok_bind, Outcome.assert_true hsane, Outcome.ok_bind,
    Outcome.assert_true (by dsimp only; iv_omega), Outcome.ok_bind, Outcome.assert_true (by dsimp only; iv_omega), Outcome.ok_bind,
    Outcome.assert_true (by dsimp only; iv_omega), Outcome.ok_bind]
  refine ⟨_, rfl, ⟨?_, rfl, rfl, rfl, rfl⟩, rfl, rfl, rfl, rfl⟩
  unfold Window.Fits
  dsimp only
  iv_omega

end Views
end SpatialOps
