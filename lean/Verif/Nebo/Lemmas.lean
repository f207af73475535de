import Verif.Nebo.Spec
import Verif.Geometry.Props
import Verif.Ghost.Props
import Verif.Mask.Props
import Verif.Field.Step

/-!
# Lemmas about Nebo expressions: where they are defined and what they evaluate to
-/

namespace SpatialOps
namespace Nebo

/-! ## Ghost arithmetic -/

/-- Negative part of a point. -/
def np (p : IntVec) : IntVec :=
  ⟨if p.x < 0 then -p.x else 0, if p.y < 0 then -p.y else 0, if p.z < 0 then -p.z else 0⟩
/-- Positive part of a point. -/
def pp (p : IntVec) : IntVec :=
  ⟨if 0 < p.x then p.x else 0, if 0 < p.y then p.y else 0, if 0 < p.z then p.z else 0⟩

theorem ptg_eq (p : IntVec) : GhostData.pointToGhost p = .ok ⟨np p, pp p, false⟩ := by
  unfold GhostData.pointToGhost
  rw [GhostData.make_ok (by iv_omega)]
  congr 1
  rw [GhostData.mk.injEq]
  refine ⟨rfl, rfl, ?_⟩
  rw [Bool.eq_false_iff]
  intro h
  rw [GhostData.ghostInfinite_iff _ _ true] at h
  unfold GhostData.AllHuge ghostMax at h
  iv_omega

theorem np_pp_nonneg (p : IntVec) : IntVec.Le 0 (np p) ∧ IntVec.Le 0 (pp p) := by
  unfold np pp; iv_omega

theorem np_of_nonneg {p : IntVec} (h : IntVec.Le 0 p) : np p = 0 ∧ pp p = p := by
  constructor
  · unfold np; ext <;> simp only [IntVec.zero_x, IntVec.zero_y, IntVec.zero_z] <;> iv_omega
  · unfold pp; ext <;> iv_omega

theorem sub_ok_iff {g r q : GhostData} (hg : g.Valid) (hq : q.isInf = false) :
    g.sub q = .ok r ↔ (IntVec.Le 0 (g.minus - q.minus) ∧ IntVec.Le 0 (g.plus - q.plus)) ∧
      r = { g with minus := g.minus - q.minus, plus := g.plus - q.plus } := by
  unfold GhostData.sub
  rw [GhostData.copy_ok hg, Outcome.ok_bind]
  unfold GhostData.subAssign
  rw [Outcome.throwIf_false (by simp [hq]), Outcome.ok_bind]
  by_cases h : IntVec.Le 0 (g.minus - q.minus) ∧ IntVec.Le 0 (g.plus - q.plus)
  · rw [GhostData.checkValid_ok h, Outcome.ok_bind, Outcome.pure_eq, Outcome.ok_bind,
      GhostData.copy_ok (g := { g with minus := g.minus - q.minus, plus := g.plus - q.plus }) h]
    constructor
    · intro e; injection e with e; exact ⟨h, e.symm⟩
    · rintro ⟨-, e⟩; rw [e]
  · rw [GhostData.checkValid_abort h]
    constructor
    · intro e; cases e
    · rintro ⟨h', -⟩; exact absurd h' h

theorem sub_ne_ub (g q : GhostData) : g.sub q ≠ .ub := by
  unfold GhostData.sub GhostData.copy GhostData.subAssign GhostData.checkValid Outcome.assert Outcome.throwIf
  intro h
  split at h
  · simp only [Outcome.ok_bind, Outcome.pure_eq] at h
    split at h
    · cases h
    · simp only [Outcome.ok_bind] at h
      split at h
      · simp only [Outcome.ok_bind] at h
        split at h <;> cases h
      · cases h
  · cases h

theorem shrink_ok_iff {g r : GhostData} {p : IntVec} (hg : g.Valid) :
    shrink g p = .ok r ↔ (IntVec.Le 0 (g.minus - np p) ∧ IntVec.Le 0 (g.plus - pp p)) ∧
      r = { g with minus := g.minus - np p, plus := g.plus - pp p } := by
  unfold shrink
  rw [ptg_eq, Outcome.ok_bind, sub_ok_iff hg rfl]

theorem min_ok {a b : GhostData} (ha : a.Valid) (hb : b.Valid) :
    ∃ r, GhostData.min a b = .ok r ∧ r.Valid ∧ r.minus = a.minus.min b.minus ∧
      r.plus = a.plus.min b.plus := by
  have h : IntVec.Le 0 (a.minus.min b.minus) ∧ IntVec.Le 0 (a.plus.min b.plus) := by
    unfold GhostData.Valid at ha hb; unfold IntVec.min; iv_omega
  exact ⟨_, GhostData.make_ok h, h, rfl, rfl⟩

/-- The cells of the mesh `n` grown by ghosts. -/
def InBox (n minus plus c : IntVec) : Prop := IntVec.Le (-minus) c ∧ IntVec.Lt c (n + plus)

theorem inBox_min {n am bm ap bp c : IntVec} :
    InBox n (am.min bm) (ap.min bp) c ↔ InBox n am ap c ∧ InBox n bm bp c := by
  unfold InBox IntVec.min; constructor <;> intro h <;> iv_omega

theorem inBox_shrink {n m p c q : IntVec} :
    InBox n (m - np q) (p - pp q) c ↔ InBox n m p c ∧ InBox n m p (c + q) := by
  unfold InBox np pp; constructor <;> intro h <;> iv_omega

theorem add_extra {g : GhostData} (hg : g.Valid) (hf : g.isInf = false) {e : IntVec}
    (he : IntVec.Le 0 e) :
    ∃ r, (GhostData.pointToGhost e >>= fun q => g.add q) = .ok r ∧ r.Valid ∧ r.minus = g.minus ∧
      r.plus = g.plus + e := by
  rw [ptg_eq, Outcome.ok_bind]
  obtain ⟨e1, e2⟩ := np_of_nonneg he
  rw [e1, e2]
  unfold GhostData.add
  rw [GhostData.copy_ok hg, Outcome.ok_bind]
  unfold GhostData.addAssign
  rw [if_neg (by simp [hf]), if_neg (by simp)]
  have hv : IntVec.Le 0 (g.minus + 0) ∧ IntVec.Le 0 (g.plus + e) := by
    unfold GhostData.Valid at hg; iv_omega
  rw [GhostData.checkValid_ok hv, Outcome.ok_bind, Outcome.pure_eq, Outcome.ok_bind]
  refine ⟨_, GhostData.copy_ok hv, hv, ?_, rfl⟩
  ext <;> simp

/-! ## Possible ghosts are exact -/

theorem hasCell_iff {n : IntVec} {f : FieldGeo} (hf : OnMesh n f) (c : IntVec) :
    HasCell f c ↔ InBox n f.validGhosts.minus (f.validGhosts.plus + f.bc.hasExtra) c := by
  have h := hf.size
  unfold HasCell origin InBox Window.Covers
  rw [h]
  constructor <;> intro h <;> iv_omega

theorem leaf_ghosts {n : IntVec} {f : FieldGeo} (hf : OnMesh n f) :
    ∃ g, leafGhosts f = .ok g ∧ g.Valid ∧ ∀ c, HasCell f c ↔ InBox n g.minus g.plus c := by
  obtain ⟨r, h1, h2, h3, h4⟩ := add_extra hf.valid hf.finite hf.extra
  refine ⟨r, h1, h2, fun c => ?_⟩
  rw [hasCell_iff hf, h3, h4]

theorem uniform_ok : GhostData.makeUniform ghostMax =
    .ok ⟨⟨ghostMax, ghostMax, ghostMax⟩, ⟨ghostMax, ghostMax, ghostMax⟩, true⟩ := by decide

theorem Pts.all_one {α : Type} {P : α → Prop} {a : α} : (Pts.one a).All P ↔ P a := by
  unfold Pts.All Pts.toList; simp

theorem Pts.all_more {α : Type} {P : α → Prop} {e : Pts α} {a : α} :
    (Pts.more e a).All P ↔ e.All P ∧ P a := by
  unfold Pts.All
  simp only [Pts.toList, List.mem_append, List.mem_singleton]
  constructor
  · intro h; exact ⟨fun b hb => h b (.inl hb), h a (.inr rfl)⟩
  · rintro ⟨h1, h2⟩ b (hb | rfl)
    · exact h1 b hb
    · exact h2

/-- What an expression's possible ghosts mean: they describe exactly the cells at
which the expression is defined. -/
def Exact (n : IntVec) (d : IntVec → Prop) (o : Outcome GhostData) : Prop :=
  ∀ g, o = .ok g → g.Valid ∧ ∀ c, d c ↔ InBox n g.minus g.plus c

theorem exact_congr {n : IntVec} {d d' : IntVec → Prop} {o : Outcome GhostData}
    (h : ∀ c, d c ↔ d' c) (he : Exact n d o) : Exact n d' o := by
  intro g hg
  obtain ⟨h1, h2⟩ := he g hg
  exact ⟨h1, fun c => (h c).symm.trans (h2 c)⟩

theorem exact_min {n : IntVec} {d d' : IntVec → Prop} {o o' : Outcome GhostData}
    (h : Exact n d o) (h' : Exact n d' o') :
    Exact n (fun c => d c ∧ d' c) (o >>= fun x => o' >>= fun y => GhostData.min x y) := by
  intro g hg
  obtain ⟨x, hx, hg⟩ := Outcome.bind_eq_ok.1 hg
  obtain ⟨y, hy, hg⟩ := Outcome.bind_eq_ok.1 hg
  obtain ⟨v1, b1⟩ := h x hx
  obtain ⟨v2, b2⟩ := h' y hy
  obtain ⟨r, r1, r2, r3, r4⟩ := min_ok v1 v2
  rw [r1] at hg
  injection hg with hg
  subst hg
  refine ⟨r2, fun c => ?_⟩
  rw [r3, r4, inBox_min]
  exact and_congr (b1 c) (b2 c)

theorem exact_shrink {n : IntVec} {d : IntVec → Prop} {x : GhostData}
    (hv : x.Valid) (hb : ∀ c, d c ↔ InBox n x.minus x.plus c) (p : IntVec) :
    Exact n (fun c => d c ∧ d (c + p)) (shrink x p) := by
  intro g hg
  obtain ⟨hl, rfl⟩ := (shrink_ok_iff hv).1 hg
  refine ⟨hl, fun c => ?_⟩
  rw [inBox_shrink]
  exact and_congr (hb c) (hb _)

theorem exact_pts {α : Type} {n : IntVec} {d : IntVec → Prop} {x : GhostData} (pt : α → IntVec)
    (hv : x.Valid) (hb : ∀ c, d c ↔ InBox n x.minus x.plus c) (pts : Pts α) :
    Exact n (fun c => pts.All fun a => d c ∧ d (c + pt a)) (pts.possibleGhosts pt x) := by
  induction pts with
  | one a => exact exact_congr (fun c => Pts.all_one.symm) (exact_shrink hv hb (pt a))
  | more e a ih =>
    have := exact_min (exact_shrink hv hb (pt a)) ih
    exact exact_congr (fun c => by rw [Pts.all_more]; exact And.comm) this

theorem exact_bind {n : IntVec} {d d' : IntVec → Prop} {o : Outcome GhostData}
    {k : GhostData → Outcome GhostData} (h : Exact n d o)
    (hk : ∀ x, x.Valid → (∀ c, d c ↔ InBox n x.minus x.plus c) → Exact n d' (k x)) :
    Exact n d' (o >>= k) := by
  intro g hg
  obtain ⟨x, hx, hg⟩ := Outcome.bind_eq_ok.1 hg
  obtain ⟨v, b⟩ := h x hx
  exact hk x v b g hg

theorem exact_uniform (n : IntVec) : Exact n
    (fun c => IntVec.Le (-⟨ghostMax, ghostMax, ghostMax⟩) c ∧
      IntVec.Lt c (n + ⟨ghostMax, ghostMax, ghostMax⟩)) (GhostData.makeUniform ghostMax) := by
  intro g hg
  rw [uniform_ok] at hg
  injection hg with hg
  subst hg
  exact ⟨by decide, fun c => Iff.rfl⟩

theorem possibleGhosts_exact {V : Type} {n : IntVec} : {t : Ty} → (e : Expr V t) → e.Wf n →
    Exact n (e.DefinedAt n) e.possibleGhosts
  | _, .scalar _, _ => exact_uniform n
  | _, .single _, _ => exact_uniform n
  | _, .field f, h => by
    obtain ⟨g, h1, h2, h3⟩ := leaf_ghosts h.1
    intro g' hg'
    have : Outcome.ok g' = .ok g := hg'.symm.trans h1
    injection this with this
    subst this
    exact ⟨h2, h3⟩
  | _, .mask m, h => by
    obtain ⟨g, h1, h2, h3⟩ := leaf_ghosts h.1
    intro g' hg'
    have : Outcome.ok g' = .ok g := hg'.symm.trans h1
    injection this with this
    subst this
    exact ⟨h2, h3⟩
  | _, .maskShift p a, h =>
    exact_bind (possibleGhosts_exact a h) fun x hv hb => exact_shrink hv hb p
  | _, .un _ a, h => possibleGhosts_exact a h
  | _, .bin _ a b, h => exact_min (possibleGhosts_exact a h.1) (possibleGhosts_exact b h.2)
  | _, .and a b, h => exact_min (possibleGhosts_exact a h.1) (possibleGhosts_exact b h.2)
  | _, .or a b, h => exact_min (possibleGhosts_exact a h.1) (possibleGhosts_exact b h.2)
  | _, .cond t a b, h => by
    have h1 := exact_min (possibleGhosts_exact t h.1) (possibleGhosts_exact a h.2.1)
    have h2 := exact_min h1 (possibleGhosts_exact b h.2.2)
    intro g hg
    refine exact_congr (fun c => ?_) h2 g ?_
    · exact and_assoc
    · obtain ⟨x, hx, hg⟩ := Outcome.bind_eq_ok.1 hg
      obtain ⟨y, hy, hg⟩ := Outcome.bind_eq_ok.1 hg
      rw [hx, Outcome.ok_bind, hy, Outcome.ok_bind]
      exact hg
  | _, .stencil pts a, h =>
    exact_bind (possibleGhosts_exact a h) fun x hv hb => exact_pts Prod.fst hv hb pts
  | _, .sumStencil pts a, h =>
    exact_bind (possibleGhosts_exact a h) fun x hv hb => exact_pts id hv hb pts

/-- Counts of a box that contains the whole mesh are non-negative. -/
theorem nonneg_of_box {n minus plus : IntVec} (hn : IntVec.Lt 0 n)
    (h : ∀ c, IntVec.Le 0 c → IntVec.Lt c n → InBox n minus plus c) :
    IntVec.Le 0 minus ∧ IntVec.Le 0 plus := by
  have h1 := h 0 (by iv_omega) hn
  have h2 := h ⟨n.x - 1, n.y - 1, n.z - 1⟩ (by iv_omega) (by iv_omega)
  unfold InBox at h1 h2
  iv_omega

theorem min_possible {n : IntVec} {d d' : IntVec → Prop} {o o' : Outcome GhostData}
    (h : Exact n d o) (h' : Exact n d' o') (ho : ∃ x, o = .ok x) (ho' : ∃ x, o' = .ok x) :
    ∃ g, (o >>= fun x => o' >>= fun y => GhostData.min x y) = .ok g := by
  obtain ⟨x, rfl⟩ := ho
  obtain ⟨y, rfl⟩ := ho'
  obtain ⟨r, h1, -⟩ := min_ok (h x rfl).1 (h' y rfl).1
  exact ⟨r, h1⟩

/-- A box that contains the cells `C` has non-negative counts. -/
def Core (n : IntVec) (C : IntVec → Prop) : Prop :=
  ∀ minus plus, (∀ c, C c → InBox n minus plus c) → IntVec.Le 0 minus ∧ IntVec.Le 0 plus

theorem shrink_possible {n : IntVec} {C : IntVec → Prop} (hC : Core n C) {d : IntVec → Prop} {x : GhostData}
    (hv : x.Valid) (hb : ∀ c, d c ↔ InBox n x.minus x.plus c) (p : IntVec)
    (hd : ∀ c, C c → d c ∧ d (c + p)) : ∃ g, shrink x p = .ok g := by
  refine ⟨_, (shrink_ok_iff hv).2 ⟨hC _ _ fun c hc => ?_, rfl⟩⟩
  obtain ⟨a, b⟩ := hd c hc
  exact inBox_shrink.2 ⟨(hb c).1 a, (hb _).1 b⟩

theorem pts_possible {α : Type} {n : IntVec} {C : IntVec → Prop} (hC : Core n C) {d : IntVec → Prop} {x : GhostData}
    (pt : α → IntVec) (hv : x.Valid) (hb : ∀ c, d c ↔ InBox n x.minus x.plus c) (pts : Pts α)
    (hd : ∀ c, C c → pts.All fun a => d c ∧ d (c + pt a)) :
    ∃ g, pts.possibleGhosts pt x = .ok g := by
  induction pts with
  | one a =>
    exact shrink_possible hC hv hb _ fun c hc =>
      (Pts.all_one (P := fun a => d c ∧ d (c + pt a))).1 (hd c hc)
  | more e a ih =>
    exact min_possible (exact_shrink hv hb (pt a)) (exact_pts pt hv hb e)
      (shrink_possible hC hv hb _ fun c hc => (Pts.all_more.1 (hd c hc)).2)
      (ih fun c hc => (Pts.all_more.1 (hd c hc)).1)

theorem pts_all_left {α : Type} {p : Prop} {Q : α → Prop} {pts : Pts α}
    (h : pts.All fun a => p ∧ Q a) : p := by
  cases pts with
  | one a => exact (Pts.all_one.1 h).1
  | more e a => exact (Pts.all_more.1 h).2.1

/-- Possible ghosts exist if the expression is defined on the core. -/
theorem possibleGhosts_core {V : Type} {n : IntVec} {C : IntVec → Prop} (hC : Core n C) : {t : Ty} → (e : Expr V t) →
    e.Wf n → (∀ c, C c → e.DefinedAt n c) → ∃ g, e.possibleGhosts = .ok g
  | _, .scalar _, _, _ => ⟨_, uniform_ok⟩
  | _, .single _, _, _ => ⟨_, uniform_ok⟩
  | _, .field f, h, _ => by
    obtain ⟨g, h1, -⟩ := leaf_ghosts h.1
    exact ⟨g, h1⟩
  | _, .mask m, h, _ => by
    obtain ⟨g, h1, -⟩ := leaf_ghosts h.1
    exact ⟨g, h1⟩
  | _, .maskShift p a, h, hd => by
    obtain ⟨x, hx⟩ := possibleGhosts_core hC a h fun c hc => (hd c hc).1
    obtain ⟨v, b⟩ := possibleGhosts_exact a h x hx
    obtain ⟨r, hr⟩ := shrink_possible hC v b p hd
    refine ⟨r, ?_⟩
    simp only [Expr.possibleGhosts]
    rw [hx, Outcome.ok_bind, hr]
  | _, .un _ a, h, hd => possibleGhosts_core hC a h hd
  | _, .bin _ a b, h, hd =>
    min_possible (possibleGhosts_exact a h.1) (possibleGhosts_exact b h.2)
      (possibleGhosts_core hC a h.1 fun c hc => (hd c hc).1)
      (possibleGhosts_core hC b h.2 fun c hc => (hd c hc).2)
  | _, .and a b, h, hd =>
    min_possible (possibleGhosts_exact a h.1) (possibleGhosts_exact b h.2)
      (possibleGhosts_core hC a h.1 fun c hc => (hd c hc).1)
      (possibleGhosts_core hC b h.2 fun c hc => (hd c hc).2)
  | _, .or a b, h, hd =>
    min_possible (possibleGhosts_exact a h.1) (possibleGhosts_exact b h.2)
      (possibleGhosts_core hC a h.1 fun c hc => (hd c hc).1)
      (possibleGhosts_core hC b h.2 fun c hc => (hd c hc).2)
  | _, .cond t a b, h, hd => by
    obtain ⟨x, hx⟩ := possibleGhosts_core hC t h.1 fun c hc => (hd c hc).1
    obtain ⟨y, hy⟩ := possibleGhosts_core hC a h.2.1 fun c hc => (hd c hc).2.1
    obtain ⟨z, hz⟩ := possibleGhosts_core hC b h.2.2 fun c hc => (hd c hc).2.2
    obtain ⟨r, r1, r2, -⟩ := min_ok (possibleGhosts_exact t h.1 x hx).1 (possibleGhosts_exact a h.2.1 y hy).1
    obtain ⟨q, q1, -⟩ := min_ok r2 (possibleGhosts_exact b h.2.2 z hz).1
    refine ⟨q, ?_⟩
    simp only [Expr.possibleGhosts]
    rw [hx, Outcome.ok_bind, hy, Outcome.ok_bind, r1, Outcome.ok_bind, hz, Outcome.ok_bind, q1]
  | _, .stencil pts a, h, hd => by
    obtain ⟨x, hx⟩ := possibleGhosts_core hC a h fun c hc => pts_all_left (hd c hc)
    obtain ⟨v, b⟩ := possibleGhosts_exact a h x hx
    obtain ⟨r, hr⟩ := pts_possible hC Prod.fst v b pts hd
    refine ⟨r, ?_⟩
    simp only [Expr.possibleGhosts]
    rw [hx, Outcome.ok_bind, hr]
  | _, .sumStencil pts a, h, hd => by
    obtain ⟨x, hx⟩ := possibleGhosts_core hC a h fun c hc => pts_all_left (hd c hc)
    obtain ⟨v, b⟩ := possibleGhosts_exact a h x hx
    obtain ⟨r, hr⟩ := pts_possible hC id v b pts hd
    refine ⟨r, ?_⟩
    simp only [Expr.possibleGhosts]
    rw [hx, Outcome.ok_bind, hr]

/-- Possible ghosts exist if the expression is defined on the whole mesh. -/
theorem possibleGhosts_ok {V : Type} {n : IntVec} (hn : IntVec.Lt 0 n) {t : Ty} (e : Expr V t) (he : e.Wf n)
    (hd : ∀ c, IntVec.Le 0 c → IntVec.Lt c n → e.DefinedAt n c) : ∃ g, e.possibleGhosts = .ok g :=
  possibleGhosts_core (C := fun c => IntVec.Le 0 c ∧ IntVec.Lt c n)
    (fun _ _ h => nonneg_of_box hn fun c h0 h1 => h c ⟨h0, h1⟩) e he fun c hc => hd c hc.1 hc.2

end Nebo
end SpatialOps
