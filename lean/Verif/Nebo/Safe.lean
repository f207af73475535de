import Verif.Nebo.Assign
import Verif.Field.Step

/-!
# Lemmas: an assignment never performs an undefined access

No common mesh is assumed here: every field only has to be consistent in itself.
-/

namespace SpatialOps
namespace Nebo

/-! ## Possible ghosts -/

theorem make_ne_ub (a b : IntVec) : GhostData.make a b ≠ .ub := by
  intro h
  unfold GhostData.make GhostData.checkValid at h
  simp [Outcome.bind_eq_ub, Outcome.assert_ne_ub] at h

theorem min_ne_ub (a b : GhostData) : GhostData.min a b ≠ .ub := make_ne_ub _ _

theorem shrink_ne_ub (g : GhostData) (p : IntVec) : shrink g p ≠ .ub := by
  unfold shrink
  rw [ptg_eq, Outcome.ok_bind]
  exact sub_ne_ub _ _

theorem pts_ne_ub {α : Type} (pt : α → IntVec) (g : GhostData) (pts : Pts α) :
    pts.possibleGhosts pt g ≠ .ub := by
  induction pts with
  | one a => exact shrink_ne_ub _ _
  | more e a ih =>
    intro h
    simp only [Pts.possibleGhosts] at h
    simp [Outcome.bind_eq_ub, shrink_ne_ub, ih, min_ne_ub] at h

theorem add_ne_ub (a b : GhostData) : a.add b ≠ .ub := by
  intro h
  unfold GhostData.add GhostData.addAssign GhostData.checkValid at h
  rw [Outcome.bind_eq_ub] at h
  rcases h with h | ⟨c, -, h⟩
  · exact GhostData.copy_ne_ub _ h
  · split at h
    · exact GhostData.copy_ne_ub _ h
    · rw [Outcome.bind_eq_ub] at h
      rcases h with h | ⟨d, -, h⟩
      · split at h
        · exact GhostData.copy_ne_ub _ h
        · simp [Outcome.bind_eq_ub, Outcome.assert_ne_ub] at h
      · exact GhostData.copy_ne_ub _ h

theorem leafGhosts_ne_ub (f : FieldGeo) : leafGhosts f ≠ .ub := by
  unfold leafGhosts
  rw [ptg_eq, Outcome.ok_bind]
  exact add_ne_ub _ _

theorem bind2_ne_ub {o o' : Outcome GhostData} (h : o ≠ .ub) (h' : o' ≠ .ub) :
    (o >>= fun x => o' >>= fun y => GhostData.min x y) ≠ .ub := by
  intro hb
  simp [Outcome.bind_eq_ub, h, h', min_ne_ub] at hb

theorem possibleGhosts_ne_ub {V : Type} : {t : Ty} → (e : Expr V t) → e.possibleGhosts ≠ .ub
  | _, .scalar _ => by intro h; simp only [Expr.possibleGhosts, uniform_ok] at h; cases h
  | _, .single _ => by intro h; simp only [Expr.possibleGhosts, uniform_ok] at h; cases h
  | _, .field f => leafGhosts_ne_ub _
  | _, .mask f => leafGhosts_ne_ub _
  | _, .maskShift p a => by
    intro h
    have := possibleGhosts_ne_ub a
    simp only [Expr.possibleGhosts] at h
    simp [Outcome.bind_eq_ub, shrink_ne_ub, this] at h
  | _, .un _ a => possibleGhosts_ne_ub a
  | _, .bin _ a b => bind2_ne_ub (possibleGhosts_ne_ub a) (possibleGhosts_ne_ub b)
  | _, .and a b => bind2_ne_ub (possibleGhosts_ne_ub a) (possibleGhosts_ne_ub b)
  | _, .or a b => bind2_ne_ub (possibleGhosts_ne_ub a) (possibleGhosts_ne_ub b)
  | _, .cond c a b => by
    intro h
    have h1 := possibleGhosts_ne_ub c
    have h2 := possibleGhosts_ne_ub a
    have h3 := possibleGhosts_ne_ub b
    simp only [Expr.possibleGhosts] at h
    simp [Outcome.bind_eq_ub, h1, h2, h3, min_ne_ub] at h
  | _, .stencil pts a => by
    intro h
    have := possibleGhosts_ne_ub a
    simp only [Expr.possibleGhosts] at h
    simp [Outcome.bind_eq_ub, pts_ne_ub, this] at h
  | _, .sumStencil pts a => by
    intro h
    have := possibleGhosts_ne_ub a
    simp only [Expr.possibleGhosts] at h
    simp [Outcome.bind_eq_ub, pts_ne_ub, this] at h

/-- The region `minus`, `plus`, itself and displaced by `s`, is within ghosts `g`. -/
def Within (minus plus s : IntVec) (g : GhostData) : Prop :=
  IntVec.Le minus g.minus ∧ IntVec.Le plus g.plus ∧ IntVec.Le (minus - s) g.minus ∧ IntVec.Le (plus + s) g.plus

theorem within_min {minus plus s : IntVec} {a b r : GhostData} (ha : a.Valid) (hb : b.Valid)
    (hr : GhostData.min a b = .ok r) (h : Within minus plus s r) :
    Within minus plus s a ∧ Within minus plus s b := by
  obtain ⟨r', h1, -, h3, h4⟩ := min_ok ha hb
  rw [hr] at h1; injection h1 with h1; subst h1
  unfold Within at h ⊢
  rw [h3, h4] at h
  unfold IntVec.min at h
  constructor <;> iv_omega

theorem within_shrink {minus plus s p : IntVec} {a r : GhostData} (ha : a.Valid)
    (hr : shrink a p = .ok r) (h : Within minus plus s r) : Within minus plus (s + p) a := by
  obtain ⟨-, rfl⟩ := (shrink_ok_iff ha).1 hr
  unfold Within np pp at h
  unfold Within
  dsimp only at h
  refine ⟨?_, ?_, ?_, ?_⟩ <;> iv_omega

theorem shrink_valid {p : IntVec} {a r : GhostData} (ha : a.Valid) (hr : shrink a p = .ok r) : r.Valid := by
  obtain ⟨h, rfl⟩ := (shrink_ok_iff ha).1 hr
  exact h

theorem min_valid {a b r : GhostData} (ha : a.Valid) (hb : b.Valid) (hr : GhostData.min a b = .ok r) :
    r.Valid := by
  obtain ⟨r', h1, h2, -⟩ := min_ok ha hb
  rw [hr] at h1; injection h1 with h1; subst h1
  exact h2

theorem pts_within {α : Type} {minus plus s : IntVec} (pt : α → IntVec) {a : GhostData} (ha : a.Valid)
    (pts : Pts α) : ∀ {r : GhostData}, pts.possibleGhosts pt a = .ok r →
      r.Valid ∧ (Within minus plus s r → pts.All fun q => Within minus plus (s + pt q) a) := by
  induction pts with
  | one q =>
    intro r hr
    exact ⟨shrink_valid ha hr, fun h => Pts.all_one.2 (within_shrink ha hr h)⟩
  | more e q ih =>
    intro r hr
    simp only [Pts.possibleGhosts] at hr
    obtain ⟨x, hx, hr⟩ := Outcome.bind_eq_ok.1 hr
    obtain ⟨y, hy, hr⟩ := Outcome.bind_eq_ok.1 hr
    obtain ⟨y1, y2⟩ := ih hy
    have x1 := shrink_valid ha hx
    refine ⟨min_valid x1 y1 hr, fun h => ?_⟩
    obtain ⟨h1, h2⟩ := within_min x1 y1 hr h
    exact Pts.all_more.2 ⟨y2 h2, within_shrink ha hx h1⟩

/-! ## Walkers that never access memory outside an allocation -/

/-- No evaluation of the walker, however far it is advanced, is undefined. -/
def SafeWalk {V : Type} {t : Ty} (w : Walk V t) : Prop := ∀ (k : Nat) (m : Mem V), (w.nextN k).eval m ≠ .ub

theorem It.inc_past {i : It} (h : i.zExtent ≤ i.zIndex) : i.inc.zExtent ≤ i.inc.zIndex := by
  unfold It.inc
  dsimp only
  split
  · split
    · dsimp only; omega
    · exact h
  · exact h

theorem It.deref_past {i : It} (h : i.zExtent ≤ i.zIndex) : i.deref = .throws := by
  unfold It.deref Outcome.throwIf
  split
  · rfl
  · rw [Outcome.ok_bind, if_pos (by omega)]; rfl

theorem nth_past {w : Window} (he : w.Nonempty) {k : Nat} (hk : w.localNpts ≤ k) :
    (It.nth 0 w k).zExtent ≤ (It.nth 0 w k).zIndex := by
  obtain ⟨j, rfl⟩ : ∃ j, k = w.localNpts.toNat + j := ⟨k - w.localNpts.toNat, by omega⟩
  have hN := It.localNpts_nonneg he
  induction j with
  | zero =>
    have hs := staysIn_replicate_inc (n := w.localNpts) w.localNpts.toNat (k := 0) (by omega) (by omega)
    obtain ⟨x, y, z, hp, hr, hc⟩ := run_from_start he 0 _ hs
    rw [It.run_inc_eq_nth] at hr
    injection hr with hr
    rw [Nat.add_zero, hr]
    have hlt := hp.lt_iff
    rw [endPos_replicate_inc] at hc
    unfold Window.localNpts at hc hN
    unfold It.canon It.start
    dsimp only
    omega
  | succ j ih => exact It.inc_past (ih (by omega))

theorem safe_field {V : Type} {w : Window} (hw : w.Fits) (he : w.Nonempty) (b : Nat) (e : Option It) :
    SafeWalk (Walk.field (V := V) (some b) w.globNpts (It.start 0 w) e) := by
  intro k m
  by_cases hk : (k : Int) < w.localNpts
  · have hl := nthLoc_spec hw he hk
    rw [tracks_field hw he b e k _ hl m]
    intro h; cases h
  · rw [nextN_field]
    unfold Walk.eval
    rw [It.deref_past (nth_past he (by omega))]
    intro h; cases h

theorem mask_inc_size (i : MaskIt) : i.inc.size = i.size := by
  have h : ∀ j : MaskIt, j.updatePositions.size = j.size := by
    intro j; unfold MaskIt.updatePositions; split <;> rfl
  unfold MaskIt.inc
  dsimp only
  rw [h]
  split
  · split <;> rfl
  · rfl

theorem mask_size (w : Window) (k : Nat) : (maskNth w k).size = roundToInt w.globNpts := by
  induction k with
  | zero => rfl
  | succ k ih =>
    rw [← ih]
    exact mask_inc_size _

theorem safe_mask {V : Type} {w : Window} (bits : BitField) (hs : bits.size = roundToInt w.globNpts)
    (e : Option MaskIt) : SafeWalk (Walk.mask (V := V) bits (MaskIt.start w) e) := by
  intro k m
  rw [nextN_mask]
  have hz := mask_size w k
  generalize maskNth w k = i at hz
  unfold Walk.eval MaskIt.deref
  by_cases h1 : i.bit < 0 ∨ 32 ≤ i.bit
  · rw [Outcome.throwIf_true h1]; intro h; cases h
  rw [Outcome.throwIf_false h1, Outcome.ok_bind]
  by_cases h2 : i.block < 0 ∨ i.size ≤ i.block
  · rw [Outcome.throwIf_true h2]; intro h; cases h
  rw [Outcome.throwIf_false h2, Outcome.ok_bind]
  intro h
  rw [Outcome.bind_eq_ub] at h
  rcases h with h | ⟨v, -, h⟩
  · simp [Outcome.bind_eq_ub, Outcome.throwIf_ne_ub] at h
  · rw [Outcome.ubUnless_true (by omega)] at h
    cases h

theorem safe_const {V : Type} {t : Ty} (v : t.den V) : SafeWalk (Walk.const (V := V) v) := by
  intro k m
  rw [nextN_const]
  intro h; cases h

theorem safe_un {V : Type} {s t : Ty} (op : s.den V → t.den V) {a : Walk V s} (h : SafeWalk a) :
    SafeWalk (.un op a) := by
  intro k m hu
  rw [nextN_un] at hu
  unfold Walk.eval at hu
  simp [Outcome.bind_eq_ub, h k m] at hu

theorem safe_bin {V : Type} {s t : Ty} (op : s.den V → s.den V → t.den V) {a b : Walk V s}
    (h : SafeWalk a) (h' : SafeWalk b) : SafeWalk (.bin op a b) := by
  intro k m hu
  rw [nextN_bin] at hu
  unfold Walk.eval at hu
  simp [Outcome.bind_eq_ub, h k m, h' k m] at hu

theorem safe_and {V : Type} {a b : Walk V .bool} (h : SafeWalk a) (h' : SafeWalk b) :
    SafeWalk (.and a b) := by
  intro k m hu
  rw [nextN_and] at hu
  unfold Walk.eval at hu
  rw [Outcome.bind_eq_ub] at hu
  rcases hu with hu | ⟨x, -, hu⟩
  · exact h k m hu
  · split at hu
    · exact h' k m hu
    · cases hu

theorem safe_or {V : Type} {a b : Walk V .bool} (h : SafeWalk a) (h' : SafeWalk b) :
    SafeWalk (.or a b) := by
  intro k m hu
  rw [nextN_or] at hu
  unfold Walk.eval at hu
  rw [Outcome.bind_eq_ub] at hu
  rcases hu with hu | ⟨x, -, hu⟩
  · exact h k m hu
  · split at hu
    · cases hu
    · exact h' k m hu

theorem safe_cond {V : Type} {c : Walk V .bool} {a b : Walk V .num} (hc : SafeWalk c) (h : SafeWalk a)
    (h' : SafeWalk b) : SafeWalk (.cond c a b) := by
  intro k m hu
  rw [nextN_cond] at hu
  unfold Walk.eval at hu
  rw [Outcome.bind_eq_ub] at hu
  rcases hu with hu | ⟨x, -, hu⟩
  · exact hc k m hu
  · split at hu
    · exact h k m hu
    · exact h' k m hu

theorem pts_safe {V α : Type} [Add V] (f : α → Outcome (Walk V .num)) (pts : Pts α)
    (h : pts.All fun a => ∃ w, f a = .ok w ∧ SafeWalk w) :
    ∃ w, pts.construct f = .ok w ∧ SafeWalk w := by
  induction pts with
  | one a => exact (Pts.all_one (P := fun a => ∃ w, f a = .ok w ∧ SafeWalk w)).1 h
  | more e a ih =>
    obtain ⟨h1, h2⟩ := Pts.all_more.1 h
    obtain ⟨w, hw, tw⟩ := ih h1
    obtain ⟨u, hu, tu⟩ := h2
    refine ⟨.bin (s := .num) (t := .num) (· + ·) w u, ?_, safe_bin (s := .num) (t := .num) (· + ·) tw tu⟩
    simp only [Pts.construct]
    rw [hw, Outcome.ok_bind, hu]
    rfl

theorem leaf_within {n : IntVec} {f : FieldGeo} (hf : OnMesh n f) {g : GhostData} (hg : leafGhosts f = .ok g)
    {minus plus s : IntVec} (hw : Within minus plus s g) :
    ∀ c, InBox n minus plus c → HasCell f c ∧ HasCell f (c + s) := by
  obtain ⟨g', h1, -, h3⟩ := leaf_ghosts hf
  rw [hg] at h1; injection h1 with h1; subst h1
  intro c hc
  rw [h3, h3]
  unfold InBox at hc ⊢
  unfold Within at hw
  constructor <;> iv_omega

/-- `init` on a region within the possible ghosts succeeds and gives a walker that
never makes an undefined access, whatever the sizes of the fields. -/
theorem init_safe {V : Type} [Add V] [Mul V] (red : Bool) (m0 : Mem V) {minus plus : IntVec}
    (hm : IntVec.Le 0 minus) (hp : IntVec.Le 0 plus) :
    {t : Ty} → (e : Expr V t) → e.Sane → (s : IntVec) → (pg : GhostData) →
    e.possibleGhosts = .ok pg → pg.Valid ∧ (Within minus plus s pg →
    ∃ w, e.init red m0 minus plus s = .ok w ∧ SafeWalk w)
  | _, .scalar v, _, _, pg, hpg => by
    simp only [Expr.possibleGhosts, uniform_ok] at hpg
    injection hpg with hpg; subst hpg
    exact ⟨by decide, fun _ => ⟨_, rfl, safe_const v⟩⟩
  | _, .single f, h, s, pg, hpg => by
    simp only [Expr.possibleGhosts, uniform_ok] at hpg
    injection hpg with hpg; subst hpg
    refine ⟨by decide, fun _ => ?_⟩
    obtain ⟨b, hb⟩ := Option.ne_none_iff_exists'.1 h.1
    refine ⟨.const (t := .num) (m0 b 0), ?_, safe_const (t := .num) _⟩
    simp only [Expr.init]
    unfold singleValue FieldObj.fieldValuesC
    dsimp only
    rw [if_neg h.1, Outcome.ok_bind, hb]
    unfold elemAt
    dsimp only
    rw [Outcome.ubUnless_true ⟨le_refl _, h.2⟩]
    rfl
  | _, .field f, h, s, pg, hpg => by
    obtain ⟨⟨n, hn, hf⟩, hv⟩ := h
    obtain ⟨g', h1, h2, -⟩ := leaf_ghosts hf
    have hpg' : leafGhosts f.geo = .ok pg := hpg
    rw [h1] at hpg'; injection hpg' with e; subst e
    refine ⟨h2, fun hw => ?_⟩
    obtain ⟨g, g1, g2, g3, g4⟩ := leaf_reshape hf (by iv_omega) (leaf_within hf h1 hw)
    obtain ⟨b, hb⟩ := Option.ne_none_iff_exists'.1 hv
    obtain ⟨e, e1, -⟩ := fieldWalk_ok (V := V) red { f with geo := g } hb g4
    refine ⟨.field (some b) g.window.globNpts (It.start 0 g.window) e, ?_, safe_field g3 g4 b e⟩
    simp only [Expr.init]
    rw [g1, Outcome.ok_bind, e1]
  | _, .mask k, h, s, pg, hpg => by
    obtain ⟨⟨n, hn, hf⟩, hv⟩ := h
    obtain ⟨g', h1, h2, -⟩ := leaf_ghosts hf
    have hpg' : leafGhosts k.geo = .ok pg := hpg
    rw [h1] at hpg'; injection hpg' with e; subst e
    refine ⟨h2, fun hw => ?_⟩
    obtain ⟨g, g1, g2, g3, g4⟩ := leaf_reshape hf (by iv_omega) (leaf_within hf h1 hw)
    have hsz : k.bits.size = roundToInt g.window.globNpts := by rw [hv, g2]; rfl
    cases red with
    | false =>
      refine ⟨_, ?_, safe_mask k.bits hsz none⟩
      simp only [Expr.init]
      rw [g1, Outcome.ok_bind]
      rfl
    | true =>
      obtain ⟨fin, hfin⟩ := maskFinish_ok g3 g4
      refine ⟨_, ?_, safe_mask k.bits hsz (some fin)⟩
      simp only [Expr.init]
      rw [g1, Outcome.ok_bind]
      unfold maskWalk
      rw [if_pos rfl]
      dsimp only
      rw [hfin]
      rfl
  | _, .maskShift p a, h, s, pg, hpg => by
    simp only [Expr.possibleGhosts] at hpg
    obtain ⟨x, hx, hpg⟩ := Outcome.bind_eq_ok.1 hpg
    obtain ⟨vx, ix⟩ := init_safe red m0 hm hp a h (s + p) x hx
    exact ⟨shrink_valid vx hpg, fun hw => ix (within_shrink vx hpg hw)⟩
  | _, .un op a, h, s, pg, hpg => by
    obtain ⟨vx, ix⟩ := init_safe red m0 hm hp a h s pg hpg
    refine ⟨vx, fun hw => ?_⟩
    obtain ⟨w, w1, w2⟩ := ix hw
    refine ⟨.un op w, ?_, safe_un op w2⟩
    simp only [Expr.init]; rw [w1]; rfl
  | _, .bin op a b, h, s, pg, hpg => by
    simp only [Expr.possibleGhosts] at hpg
    obtain ⟨x, hx, hpg⟩ := Outcome.bind_eq_ok.1 hpg
    obtain ⟨y, hy, hpg⟩ := Outcome.bind_eq_ok.1 hpg
    obtain ⟨vx, ix⟩ := init_safe red m0 hm hp a h.1 s x hx
    obtain ⟨vy, iy⟩ := init_safe red m0 hm hp b h.2 s y hy
    refine ⟨min_valid vx vy hpg, fun hw => ?_⟩
    obtain ⟨hw1, hw2⟩ := within_min vx vy hpg hw
    obtain ⟨w, w1, w2⟩ := ix hw1
    obtain ⟨u, u1, u2⟩ := iy hw2
    refine ⟨.bin op w u, ?_, safe_bin op w2 u2⟩
    simp only [Expr.init]; rw [w1, Outcome.ok_bind, u1]; rfl
  | _, .and a b, h, s, pg, hpg => by
    simp only [Expr.possibleGhosts] at hpg
    obtain ⟨x, hx, hpg⟩ := Outcome.bind_eq_ok.1 hpg
    obtain ⟨y, hy, hpg⟩ := Outcome.bind_eq_ok.1 hpg
    obtain ⟨vx, ix⟩ := init_safe red m0 hm hp a h.1 s x hx
    obtain ⟨vy, iy⟩ := init_safe red m0 hm hp b h.2 s y hy
    refine ⟨min_valid vx vy hpg, fun hw => ?_⟩
    obtain ⟨hw1, hw2⟩ := within_min vx vy hpg hw
    obtain ⟨w, w1, w2⟩ := ix hw1
    obtain ⟨u, u1, u2⟩ := iy hw2
    refine ⟨.and w u, ?_, safe_and w2 u2⟩
    simp only [Expr.init]; rw [w1, Outcome.ok_bind, u1]; rfl
  | _, .or a b, h, s, pg, hpg => by
    simp only [Expr.possibleGhosts] at hpg
    obtain ⟨x, hx, hpg⟩ := Outcome.bind_eq_ok.1 hpg
    obtain ⟨y, hy, hpg⟩ := Outcome.bind_eq_ok.1 hpg
    obtain ⟨vx, ix⟩ := init_safe red m0 hm hp a h.1 s x hx
    obtain ⟨vy, iy⟩ := init_safe red m0 hm hp b h.2 s y hy
    refine ⟨min_valid vx vy hpg, fun hw => ?_⟩
    obtain ⟨hw1, hw2⟩ := within_min vx vy hpg hw
    obtain ⟨w, w1, w2⟩ := ix hw1
    obtain ⟨u, u1, u2⟩ := iy hw2
    refine ⟨.or w u, ?_, safe_or w2 u2⟩
    simp only [Expr.init]; rw [w1, Outcome.ok_bind, u1]; rfl
  | _, .cond t a b, h, s, pg, hpg => by
    simp only [Expr.possibleGhosts] at hpg
    obtain ⟨x, hx, hpg⟩ := Outcome.bind_eq_ok.1 hpg
    obtain ⟨y, hy, hpg⟩ := Outcome.bind_eq_ok.1 hpg
    obtain ⟨cl, hcl, hpg⟩ := Outcome.bind_eq_ok.1 hpg
    obtain ⟨z, hz, hpg⟩ := Outcome.bind_eq_ok.1 hpg
    obtain ⟨vx, ix⟩ := init_safe red m0 hm hp t h.1 s x hx
    obtain ⟨vy, iy⟩ := init_safe red m0 hm hp a h.2.1 s y hy
    obtain ⟨vz, iz⟩ := init_safe red m0 hm hp b h.2.2 s z hz
    have vc := min_valid vx vy hcl
    refine ⟨min_valid vc vz hpg, fun hw => ?_⟩
    obtain ⟨hwc, hw3⟩ := within_min vc vz hpg hw
    obtain ⟨hw1, hw2⟩ := within_min vx vy hcl hwc
    obtain ⟨q, q1, q2⟩ := ix hw1
    obtain ⟨w, w1, w2⟩ := iy hw2
    obtain ⟨u, u1, u2⟩ := iz hw3
    refine ⟨.cond q w u, ?_, safe_cond q2 w2 u2⟩
    simp only [Expr.init]; rw [q1, Outcome.ok_bind, w1, Outcome.ok_bind, u1]; rfl
  | _, .stencil pts a, h, s, pg, hpg => by
    simp only [Expr.possibleGhosts] at hpg
    obtain ⟨x, hx, hpg⟩ := Outcome.bind_eq_ok.1 hpg
    have vx := (init_safe red m0 hm hp a h s x hx).1
    obtain ⟨v, hall⟩ := pts_within (minus := minus) (plus := plus) (s := s) Prod.fst vx pts hpg
    refine ⟨v, fun hw => ?_⟩
    exact pts_safe (fun pc : IntVec × V => a.init red m0 minus plus (s + pc.1) >>= fun x =>
        .ok (.bin (s := .num) (t := .num) (· * ·) x (.const (t := .num) pc.2))) pts (by
        intro q hq
        obtain ⟨w, hw, tw⟩ := (init_safe red m0 hm hp a h (s + q.1) x hx).2 (hall hw q hq)
        refine ⟨_, by rw [hw]; rfl, ?_⟩
        exact safe_bin (s := .num) (t := .num) (· * ·) tw (safe_const (t := .num) q.2))
  | _, .sumStencil pts a, h, s, pg, hpg => by
    simp only [Expr.possibleGhosts] at hpg
    obtain ⟨x, hx, hpg⟩ := Outcome.bind_eq_ok.1 hpg
    have vx := (init_safe red m0 hm hp a h s x hx).1
    obtain ⟨v, hall⟩ := pts_within (minus := minus) (plus := plus) (s := s) id vx pts hpg
    refine ⟨v, fun hw => ?_⟩
    exact pts_safe (fun p : IntVec => a.init red m0 minus plus (s + p)) pts (by
        intro q hq
        exact (init_safe red m0 hm hp a h (s + q) x hx).2 (hall hw q hq))

/-! ## The loop -/

theorem foldO_ne_ub {S : Type} (P : Nat → S → Prop) (f : Nat → S → Outcome S)
    (h : ∀ k s, P k s → f k s ≠ .ub ∧ ∀ s', f k s = .ok s' → P (k + 1) s') (s : S) (h0 : P 0 s) (N : Nat) :
    foldO f (List.range N) s ≠ .ub ∧ ∀ s', foldO f (List.range N) s = .ok s' → P N s' := by
  induction N with
  | zero =>
    refine ⟨(fun h => by cases h), fun s' hs => ?_⟩
    injection hs with hs; subst hs; exact h0
  | succ N ih =>
    rw [List.range_succ, foldO_append]
    obtain ⟨i1, i2⟩ := ih
    constructor
    · intro hu
      rw [Outcome.bind_eq_ub] at hu
      rcases hu with hu | ⟨t, ht, hu⟩
      · exact i1 hu
      · simp only [foldO] at hu
        rw [Outcome.bind_eq_ub] at hu
        rcases hu with hu | ⟨r, -, hu⟩
        · exact (h N t (i2 t ht)).1 hu
        · cases hu
    · intro s' hs
      obtain ⟨t, ht, hs⟩ := Outcome.bind_eq_ok.1 hs
      simp only [foldO] at hs
      obtain ⟨r, hr, hs⟩ := Outcome.bind_eq_ok.1 hs
      injection hs with hs; subst hs
      exact (h N t (i2 t ht)).2 r hr

theorem foldO_congr_range {S : Type} {f g : Nat → S → Outcome S} {N : Nat} {s : S}
    (h : ∀ k < N, ∀ s, f k s = g k s) : foldO f (List.range N) s = foldO g (List.range N) s :=
  foldO_congr (fun a ha s => h a (List.mem_range.1 ha) s) s

/-- The assignment loop: never undefined, and it stores only in the cells of the
window. -/
theorem walkAssign_safe {V : Type} {l : FieldObj} {b : Nat} (hv : l.values = some b)
    (hw : l.geo.window.Fits) (hn : l.geo.window.Nonempty) {u : Walk V .num} (hs : SafeWalk u) (m : Mem V) :
    walkAssign l u m ≠ .ub ∧ ∀ m', walkAssign l u m = .ok m' → ∀ blk a,
      (blk ≠ b ∨ ∀ loc, InBlock l.geo.window.extent loc → winAddr l.geo.window loc ≠ a) →
      m' blk a = m blk a := by
  have hN := It.localNpts_nonneg hn
  unfold walkAssign FieldObj.beginM FieldObj.endM
  by_cases hr : l.readOnly = true
  · rw [Outcome.throwIf_false (by simp [hr]), Outcome.ok_bind, Outcome.throwIf_true hr]
    exact ⟨(fun h => by cases h), fun _ h => by cases h⟩
  by_cases hc : l.memType = .localRam
  swap
  · rw [Outcome.throwIf_true (by simp only [Bool.not_eq_true] at hr; exact ⟨hc, hr⟩)]
    exact ⟨(fun h => by cases h), fun _ h => by cases h⟩
  rw [Outcome.throwIf_false (by simp [hc]), Outcome.ok_bind]
  rw [Outcome.throwIf_false (by simp [hr]), Outcome.ok_bind, Outcome.pure_eq, Outcome.ok_bind,
    Outcome.throwIf_false (by simp [hc]),
    Outcome.ok_bind, It.finish_eq_nth hn, Outcome.ok_bind, Outcome.pure_eq, Outcome.ok_bind]
  dsimp only
  rw [It.forIt_eq hw hn, hv]
  have key := foldO_ne_ub (S := Mem V × Walk V .num)
    (fun k s => s.2 = u.nextN k ∧ ∀ blk a,
      (blk ≠ b ∨ ∀ loc, InBlock l.geo.window.extent loc → winAddr l.geo.window loc ≠ a) →
      s.1 blk a = m blk a)
    (fun k s => if (k : Int) < l.geo.window.localNpts then
      assignBody (some b) l.geo.window.globNpts (It.nth 0 l.geo.window k) s else .abort)
    (by
      rintro k ⟨m1, w1⟩ ⟨rfl, hm1⟩
      dsimp only at hm1 ⊢
      by_cases hk : (k : Int) < l.geo.window.localNpts
      swap
      · rw [if_neg hk]; exact ⟨(fun h => by cases h), fun _ h => by cases h⟩
      rw [if_pos hk]
      have hloc := nthLoc_spec hw hn hk
      unfold assignBody
      dsimp only
      cases hev : (u.nextN k).eval m1 with
      | ub => exact absurd hev (hs k m1)
      | abort => exact ⟨(fun h => by cases h), fun _ h => by cases h⟩
      | throws => exact ⟨(fun h => by cases h), fun _ h => by cases h⟩
      | ok v =>
        rw [Outcome.ok_bind, store_ok hw hn hloc]
        refine ⟨(fun h => by cases h), fun s' h => ?_⟩
        injection h with h
        subst h
        refine ⟨rfl, fun blk a ha => ?_⟩
        dsimp only
        unfold Mem.write
        rw [if_neg, hm1 blk a ha]
        rintro ⟨rfl, rfl⟩
        rcases ha with ha | ha
        · exact ha rfl
        · exact ha _ hloc.1 rfl)
    (m, u) ⟨rfl, fun _ _ _ => rfl⟩ l.geo.window.localNpts.toNat
  rw [foldO_congr_range (g := fun k => assignBody (some b) l.geo.window.globNpts (It.nth 0 l.geo.window k))
    (by
      intro k hk s
      rw [if_pos (by omega)])] at key
  obtain ⟨k1, k2⟩ := key
  constructor
  · intro hu
    rw [Outcome.bind_eq_ub] at hu
    rcases hu with hu | ⟨_, -, hu⟩
    · exact k1 hu
    · cases hu
  · intro m' hm' blk a ha
    obtain ⟨r, hr, hm'⟩ := Outcome.bind_eq_ok.1 hm'
    injection hm' with hm'; subst hm'
    exact (k2 r hr).2 blk a ha

theorem calc_refused {l : FieldGeo} {pg : GhostData} (hx : ¬ IntVec.Le l.bc.hasExtra pg.plus)
    (hp : pg.Valid) (useGhost : Bool) : calcValidGhost useGhost l.ghosts l.bc pg = .throws := by
  unfold calcValidGhost Outcome.throwIf
  unfold IntVec.Le at hx
  unfold GhostData.Valid at hp
  have h0 := hp.2
  unfold IntVec.Le at h0
  simp only [IntVec.zero_x, IntVec.zero_y, IntVec.zero_z] at h0
  have e1 : ∀ i n : Int, (if i ≠ 0 then n else 0) ≠ 0 → i ≠ 0 := by intro i n h hi; simp [hi] at h
  by_cases a1 : l.bc.isbc.x ≠ 0 ∧ pg.plus.x < l.bc.hasExtra.x
  · rw [if_pos a1]; rfl
  rw [if_neg a1, Outcome.ok_bind]
  by_cases a2 : l.bc.isbc.y ≠ 0 ∧ pg.plus.y < l.bc.hasExtra.y
  · rw [if_pos a2]; rfl
  rw [if_neg a2, Outcome.ok_bind]
  by_cases a3 : l.bc.isbc.z ≠ 0 ∧ pg.plus.z < l.bc.hasExtra.z
  · rw [if_pos a3]; rfl
  exfalso
  apply hx
  have x1 := e1 l.bc.isbc.x l.bc.nExtra.x
  have x2 := e1 l.bc.isbc.y l.bc.nExtra.y
  have x3 := e1 l.bc.isbc.z l.bc.nExtra.z
  change l.bc.hasExtra.x ≠ 0 → _ at x1
  change l.bc.hasExtra.y ≠ 0 → _ at x2
  change l.bc.hasExtra.z ≠ 0 → _ at x3
  have y1 : l.bc.isbc.x ≠ 0 ∨ l.bc.hasExtra.x = 0 := by
    by_cases h : l.bc.hasExtra.x = 0
    · exact .inr h
    · exact .inl (x1 h)
  have y2 : l.bc.isbc.y ≠ 0 ∨ l.bc.hasExtra.y = 0 := by
    by_cases h : l.bc.hasExtra.y = 0
    · exact .inr h
    · exact .inl (x2 h)
  have y3 : l.bc.isbc.z ≠ 0 ∨ l.bc.hasExtra.z = 0 := by
    by_cases h : l.bc.hasExtra.z = 0
    · exact .inr h
    · exact .inl (x3 h)
  omega

/-- Sequential assignment with fields of any sizes. -/
theorem sequentialAssign_safe {V : Type} [Add V] [Mul V] {n : IntVec} (hn : IntVec.Lt 0 n) {l : FieldObj}
    {b : Nat} (hl : OnMesh n l.geo) (hv : l.values = some b)
    (hroom : IntVec.Le 0 (origin l.geo - l.geo.ghosts.minus) ∧
      IntVec.Le (origin l.geo + n + l.geo.bc.hasExtra + l.geo.ghosts.plus) l.geo.window.npts)
    {e : Expr V .num} (he : e.Sane) (useGhost : Bool) (m : Mem V) :
    sequentialAssign useGhost l e m ≠ .ub ∧ ∀ m', sequentialAssign useGhost l e m = .ok m' →
      ∀ blk a, (blk ≠ b ∨ ∀ c, Stored n l c → cellAddr l.geo c ≠ a) → m' blk a = m blk a := by
  unfold sequentialAssign
  cases hpg : e.possibleGhosts with
  | ub => exact absurd hpg (possibleGhosts_ne_ub e)
  | abort => exact ⟨(fun h => by cases h), fun _ h => by cases h⟩
  | throws => exact ⟨(fun h => by cases h), fun _ h => by cases h⟩
  | ok pg =>
    rw [Outcome.ok_bind]
    have pv := (init_safe (minus := 0) (plus := 0) false m (by iv_omega) (by iv_omega) e he 0 pg hpg).1
    by_cases hx : IntVec.Le l.geo.bc.hasExtra pg.plus
    swap
    · rw [calc_refused hx pv]
      exact ⟨(fun h => by cases h), fun _ h => by cases h⟩
    obtain ⟨rg, lg, c1, c2, c3, c4, c5, c6, c7, c8, c9, c10, c11⟩ := calc_ok hl pv hx useGhost
    have hbox : IntVec.Lt 0 (n + rg.minus + rg.plus) := by unfold GhostData.Valid at c2; iv_omega
    obtain ⟨g, geo, g1, g2, g3, g4⟩ := reset_ok' hl hroom c4 c5 c6 c8 c9 hbox
    obtain ⟨w, w1, w2⟩ := (init_safe false m c2.1 c2.2 e he 0 pg hpg).2
      (by
        unfold Within
        refine ⟨c10, c11, ?_, ?_⟩ <;> iv_omega)
    have gw : geo.window = ⟨l.geo.window.npts, origin l.geo - rg.minus, n + rg.minus + rg.plus⟩ := by rw [g3]
    have main := walkAssign_safe (l := { l with geo := geo }) (b := b) hv
      (by dsimp only; rw [gw]; exact g4) (by dsimp only; rw [gw]; exact hbox) w2 m
    rw [c1, Outcome.ok_bind, c3, Outcome.ok_bind, g1, Outcome.ok_bind, g2, Outcome.ok_bind, w1,
      Outcome.ok_bind]
    refine ⟨main.1, fun m' hm' blk a ha => main.2 m' hm' blk a ?_⟩
    rcases ha with ha | ha
    · exact .inl ha
    · refine .inr fun loc hloc => ?_
      dsimp only at hloc ⊢
      rw [gw] at hloc ⊢
      have := ha (loc - rg.minus) (by
        unfold Stored
        dsimp only at hloc
        rw [c6] at c9
        iv_omega)
      unfold cellAddr at this
      unfold winAddr
      dsimp only
      intro he
      apply this
      rw [← he]
      congr 1
      ext <;> simp <;> omega

/-- The value at a cell depends only on cells where the fields have one. -/
theorem value_congr {V : Type} [Add V] [Mul V] {n : IntVec} {m1 m2 : Mem V} : {t : Ty} → (e : Expr V t) →
    e.SameInputs m1 m2 → (c : IntVec) → e.DefinedAt n c → e.value m1 c = e.value m2 c
  | _, .scalar _, _, _, _ => rfl
  | _, .single _, h, _, _ => h
  | _, .mask _, _, _, _ => rfl
  | _, .field _, h, c, hd => h c hd
  | _, .maskShift p a, h, c, hd => value_congr a h (c + p) hd.2
  | _, .un op a, h, c, hd => congrArg op (value_congr a h c hd)
  | _, .bin op a b, h, c, hd => congrArg₂ op (value_congr a h.1 c hd.1) (value_congr b h.2 c hd.2)
  | _, .and a b, h, c, hd => congrArg₂ Bool.and (value_congr a h.1 c hd.1) (value_congr b h.2 c hd.2)
  | _, .or a b, h, c, hd => congrArg₂ Bool.or (value_congr a h.1 c hd.1) (value_congr b h.2 c hd.2)
  | _, .cond t a b, h, c, hd => by
    simp only [Expr.value]
    rw [value_congr t h.1 c hd.1, value_congr a h.2.1 c hd.2.1, value_congr b h.2.2 c hd.2.2]
  | _, .stencil pts a, h, c, hd =>
    pts_sum_congr pts fun q hq => by
      dsimp only
      rw [value_congr a h (c + q.1) (hd q hq).2]
  | _, .sumStencil pts a, h, c, hd =>
    pts_sum_congr pts fun q hq => value_congr a h (c + q) (hd q hq).2

end Nebo
end SpatialOps
