import Verif.Nebo.Lemmas

/-!
# Lemmas: a walker built over a region evaluates the expression at its cells
-/

namespace SpatialOps
namespace Nebo

/-! ## Reshaping -/

theorem singleCheck_false (w : Window) (g : GhostData) :
    FieldGeo.singleValueCheck false w g = .ok () := by
  unfold FieldGeo.singleValueCheck
  rw [Outcome.throwIf_false (by simp), Outcome.ok_bind, Outcome.throwIf_false (by simp)]

theorem windowCopy_ok {f : FieldGeo} (hg : f.ghosts.Valid) {w : Window} (hw : w.Fits)
    (hn : w.Nonempty) (he : w.npts = f.window.npts) :
    ∃ g, f.windowCopy false w = .ok g ∧ g.window = w ∧ g.ghosts = f.ghosts ∧ g.bc = f.bc ∧
      g.validGhosts = f.ghosts := by
  unfold FieldGeo.windowCopy
  rw [GhostData.copy_ok hg, Outcome.ok_bind, singleCheck_false, Outcome.ok_bind,
    Outcome.assert_true (by unfold Window.sanityCheck; iv_omega), Outcome.ok_bind,
    Outcome.assert_true (by rw [← he]; iv_omega), Outcome.ok_bind,
    Outcome.assert_true (by rw [← he]; iv_omega), Outcome.ok_bind,
    Outcome.assert_true (by rw [← he]; iv_omega), Outcome.ok_bind]
  exact ⟨_, rfl, rfl, rfl, rfl, rfl⟩

theorem reshape_ok {f : FieldGeo} (hg : f.ghosts.Valid) {em sh : IntVec}
    (hw : Window.Fits ⟨f.window.npts, f.window.offset + sh, f.window.extent + em⟩)
    (hn : Window.Nonempty ⟨f.window.npts, f.window.offset + sh, f.window.extent + em⟩) :
    ∃ g, f.reshape false em sh = .ok g ∧
      g.window = ⟨f.window.npts, f.window.offset + sh, f.window.extent + em⟩ ∧
      g.ghosts = f.ghosts ∧ g.bc = f.bc ∧ g.validGhosts = f.ghosts := by
  unfold FieldGeo.reshape
  rw [Window.make_ok (by unfold Window.sanityCheck; iv_omega), Outcome.ok_bind]
  exact windowCopy_ok hg hw hn rfl

/-- Cutting a leaf to the region `[-minus, n+plus)` displaced by `s`. -/
theorem leaf_reshape {n : IntVec} {f : FieldGeo} (hf : OnMesh n f) {minus plus s : IntVec}
    (hbox : IntVec.Lt 0 (n + minus + plus))
    (hd : ∀ c, InBox n minus plus c → HasCell f c ∧ HasCell f (c + s)) :
    ∃ g, resizeGhostAndShift f minus (plus - f.bc.hasExtra) s = .ok g ∧
      g.window = ⟨f.window.npts, origin f - minus + s, n + minus + plus⟩ ∧ g.window.Fits ∧
      g.window.Nonempty := by
  have h1 := hd (-minus) (by unfold InBox; iv_omega)
  have h2 := hd (n + plus - ⟨1, 1, 1⟩) (by unfold InBox; iv_omega)
  have hs := hf.size
  have hF := hf.fits
  have hB : ∀ d : IntVec, f.window.offset + (f.validGhosts.minus - minus) + d = origin f - minus + d := by
    intro d; unfold origin; ext <;> simp <;> omega
  have hE : f.window.extent + (minus + (plus - f.bc.hasExtra) - f.validGhosts.minus - f.validGhosts.plus) =
      n + minus + plus := by rw [hs]; ext <;> simp <;> omega
  have hB0 : f.window.offset + (f.validGhosts.minus - minus) = origin f - minus := by
    unfold origin; ext <;> simp <;> omega
  have hfit : ∀ d : IntVec, (HasCell f (-minus + d) ∧ HasCell f (n + plus - ⟨1, 1, 1⟩ + d)) →
      Window.Fits ⟨f.window.npts, origin f - minus + d, n + minus + plus⟩ := by
    intro d ⟨a, b⟩
    unfold HasCell at a b
    iv_omega
  unfold resizeGhostAndShift resizeGhost
  have e0 : origin f - minus + 0 = origin f - minus := by ext <;> simp
  have f0 := hfit 0 (by
    have ea : ∀ a : IntVec, a + 0 = a := fun a => by ext <;> simp
    rw [ea, ea]; exact ⟨h1.1, h2.1⟩)
  rw [e0] at f0
  obtain ⟨g, r1, r2, r3, r4, r5⟩ := reshape_ok (f := f) hf.ghosts
    (em := minus + (plus - f.bc.hasExtra) - f.validGhosts.minus - f.validGhosts.plus)
    (sh := f.validGhosts.minus - minus) (by rw [hB0, hE]; exact f0) (by rw [hB0, hE]; exact hbox)
  rw [hB0, hE] at r2
  rw [r1, Outcome.ok_bind]
  unfold shiftWindow
  have eE : n + minus + plus + 0 = n + minus + plus := by ext <;> simp
  have fs := hfit s ⟨h1.2, h2.2⟩
  obtain ⟨g', q1, q2, -⟩ := reshape_ok (f := g) (by rw [r3]; exact hf.ghosts) (em := 0) (sh := s)
    (by rw [r2]; dsimp only; rw [eE]; exact fs) (by rw [r2]; dsimp only; rw [eE]; exact hbox)
  rw [r2] at q2
  dsimp only at q2
  rw [eE] at q2
  refine ⟨g', q1, q2, ?_, ?_⟩
  · rw [q2]; exact fs
  · rw [q2]; exact hbox

/-! ## Stepping walkers -/

/-- A walker after `k` calls of `next()`. -/
def Walk.nextN {V : Type} {t : Ty} (w : Walk V t) : Nat → Walk V t
  | 0 => w
  | k + 1 => (w.nextN k).next

/-- A mask iterator after `k` increments. -/
def maskNth (w : Window) : Nat → MaskIt
  | 0 => MaskIt.start w
  | k + 1 => (maskNth w k).inc

theorem maskRun_append (i : MaskIt) (a b : List It.Op) :
    i.run (a ++ b) = i.run a >>= fun j => j.run b := by
  induction a generalizing i with
  | nil => rfl
  | cons o os ih =>
    show (i.step o >>= fun j => j.run (os ++ b)) = _
    have : i.run (o :: os) = i.step o >>= fun j => j.run os := rfl
    rw [this]
    cases i.step o with
    | ok j => simp only [Outcome.ok_bind]; exact ih j
    | abort => rfl
    | throws => rfl
    | ub => rfl

theorem mask_run_inc (w : Window) (k : Nat) :
    (MaskIt.start w).run (List.replicate k It.Op.inc) = .ok (maskNth w k) := by
  induction k with
  | zero => rfl
  | succ k ih =>
    rw [List.replicate_succ', maskRun_append, ih]
    rfl

theorem nextN_const {V : Type} {t : Ty} (v : t.den V) (k : Nat) :
    (Walk.const (V := V) v).nextN k = .const v := by
  induction k with
  | zero => rfl
  | succ k ih => simp only [Walk.nextN, ih, Walk.next]

theorem nextN_field {V : Type} (b : Option Nat) (n : Int) (w : Window) (e : Option It) (k : Nat) :
    (Walk.field (V := V) b n (It.start 0 w) e).nextN k = .field b n (It.nth 0 w k) e := by
  induction k with
  | zero => rfl
  | succ k ih => simp only [Walk.nextN, ih, Walk.next, It.nth]

theorem nextN_mask {V : Type} (b : BitField) (w : Window) (e : Option MaskIt) (k : Nat) :
    (Walk.mask (V := V) b (MaskIt.start w) e).nextN k = .mask b (maskNth w k) e := by
  induction k with
  | zero => rfl
  | succ k ih => simp only [Walk.nextN, ih, Walk.next, maskNth]

theorem nextN_un {V : Type} {s t : Ty} (op : s.den V → t.den V) (a : Walk V s) (k : Nat) :
    (Walk.un op a).nextN k = .un op (a.nextN k) := by
  induction k with
  | zero => rfl
  | succ k ih => simp only [Walk.nextN, ih, Walk.next]

theorem nextN_bin {V : Type} {s t : Ty} (op : s.den V → s.den V → t.den V) (a b : Walk V s) (k : Nat) :
    (Walk.bin op a b).nextN k = .bin op (a.nextN k) (b.nextN k) := by
  induction k with
  | zero => rfl
  | succ k ih => simp only [Walk.nextN, ih, Walk.next]

theorem nextN_and {V : Type} (a b : Walk V .bool) (k : Nat) :
    (Walk.and a b).nextN k = .and (a.nextN k) (b.nextN k) := by
  induction k with
  | zero => rfl
  | succ k ih => simp only [Walk.nextN, ih, Walk.next]

theorem nextN_or {V : Type} (a b : Walk V .bool) (k : Nat) :
    (Walk.or a b).nextN k = .or (a.nextN k) (b.nextN k) := by
  induction k with
  | zero => rfl
  | succ k ih => simp only [Walk.nextN, ih, Walk.next]

theorem nextN_cond {V : Type} (c : Walk V .bool) (a b : Walk V .num) (k : Nat) :
    (Walk.cond c a b).nextN k = .cond (c.nextN k) (a.nextN k) (b.nextN k) := by
  induction k with
  | zero => rfl
  | succ k ih => simp only [Walk.nextN, ih, Walk.next]

/-! ## Evaluation -/

/-- `w` evaluates to `v` at every cell of a region with dimensions `e` walked from
its first cell, `v` being a function of the position and the memory. -/
def Tracks {V : Type} {t : Ty} (e : IntVec) (w : Walk V t) (v : Mem V → IntVec → t.den V) : Prop :=
  ∀ (k : Nat) (loc : IntVec), IsNthCell e k loc → ∀ m, (w.nextN k).eval m = .ok (v m loc)

theorem isNth_lt {e loc : IntVec} {k : Nat} (h : IsNthCell e k loc) : (k : Int) < e.x * e.y * e.z := by
  rw [← h.2]; exact (fortranPos_bound h.1).2

theorem nthCell_unique {e a b : IntVec} {k : Int} (ha : IsNthCell e k a) (hb : IsNthCell e k b) : a = b :=
  fortranPos_inj ha.1 hb.1 (ha.2.trans hb.2.symm)

theorem tracks_const {V : Type} {t : Ty} (e : IntVec) (v : t.den V) :
    Tracks e (Walk.const (V := V) v) fun _ _ => v := by
  intro k loc _ m
  rw [nextN_const]; rfl

theorem nth_deref {w : Window} (hw : w.Fits) (hn : w.Nonempty) {k : Nat} {loc : IntVec}
    (hk : IsNthCell w.extent k loc) :
    (It.nth 0 w k).deref = .ok (fortranPos w.npts (w.offset + loc)) ∧
      InBlock w.npts (w.offset + loc) := by
  obtain ⟨loc', a, h1, -, h3, h4⟩ := It.nth_spec hw hn 0 (isNth_lt hk)
  have := nthCell_unique h1 hk
  subst this
  obtain ⟨f1, f2⟩ := Window.flatIndex_eq_ok hw hk.1
  rw [f1] at h3
  injection h3 with h3
  subst h3
  rw [h4, Int.zero_add]
  exact ⟨rfl, f2⟩

theorem tracks_field {V : Type} {w : Window} (hw : w.Fits) (hn : w.Nonempty) (b : Nat) (e : Option It) :
    Tracks w.extent (Walk.field (V := V) (some b) w.globNpts (It.start 0 w) e)
      fun m loc => m b (fortranPos w.npts (w.offset + loc)) := by
  intro k loc hk m
  rw [nextN_field]
  unfold Walk.eval
  obtain ⟨h1, h2⟩ := nth_deref hw hn hk
  rw [h1, Outcome.ok_bind]
  unfold elemAt
  dsimp only
  rw [Outcome.ubUnless_true (p := _ ∧ _ < w.globNpts) (fortranPos_bound h2)]
  rfl

theorem tracks_mask {V : Type} {w : Window} (hw : w.Fits) (hn : w.Nonempty) (bits : BitField)
    (hs : bits.size = roundToInt w.globNpts) (e : Option MaskIt) :
    Tracks w.extent (Walk.mask (V := V) bits (MaskIt.start w) e)
      fun _ loc => bitAt bits.words (fortranPos w.npts (w.offset + loc)) := by
  intro k loc hk m
  rw [nextN_mask]
  have hlt : (k : Int) < w.localNpts := isNth_lt hk
  obtain ⟨it, r, hv, -⟩ := MaskIt.run_deref bits.words hw hn (List.replicate k It.Op.inc)
    (staysIn_replicate_inc (n := w.localNpts) k (k := 0) (by omega) (by omega))
  rw [mask_run_inc] at r
  injection r with r
  subst r
  rw [endPos_replicate_inc, Int.zero_add] at hv
  obtain ⟨loc', hl, hd, b1, b2⟩ := hv hlt
  have := nthCell_unique hl hk
  subst this
  unfold Walk.eval
  rw [hd, Outcome.ok_bind, Outcome.ubUnless_true (by rw [hs]; exact b2)]
  rfl

theorem tracks_un {V : Type} {s t : Ty} {e : IntVec} {a : Walk V s} {v : Mem V → IntVec → s.den V}
    (op : s.den V → t.den V) (h : Tracks e a v) : Tracks e (.un op a) fun m l => op (v m l) := by
  intro k loc hk m
  rw [nextN_un]
  unfold Walk.eval
  rw [h k loc hk m]
  rfl

theorem tracks_bin {V : Type} {s t : Ty} {e : IntVec} {a b : Walk V s} {v u : Mem V → IntVec → s.den V}
    (op : s.den V → s.den V → t.den V) (h : Tracks e a v) (h' : Tracks e b u) :
    Tracks e (.bin op a b) fun m l => op (v m l) (u m l) := by
  intro k loc hk m
  rw [nextN_bin]
  unfold Walk.eval
  rw [h k loc hk m, Outcome.ok_bind, h' k loc hk m]
  rfl

theorem tracks_and {V : Type} {e : IntVec} {a b : Walk V .bool} {v u : Mem V → IntVec → Bool}
    (h : Tracks e a v) (h' : Tracks e b u) : Tracks e (.and a b) fun m l => v m l && u m l := by
  intro k loc hk m
  rw [nextN_and]
  unfold Walk.eval
  rw [h k loc hk m, Outcome.ok_bind]
  cases hv : v m loc with
  | true => rw [if_pos rfl, h' k loc hk m]; simp only [hv, Bool.true_and]
  | false => rw [if_neg (by simp)]; simp only [hv, Bool.false_and]; rfl

theorem tracks_or {V : Type} {e : IntVec} {a b : Walk V .bool} {v u : Mem V → IntVec → Bool}
    (h : Tracks e a v) (h' : Tracks e b u) : Tracks e (.or a b) fun m l => v m l || u m l := by
  intro k loc hk m
  rw [nextN_or]
  unfold Walk.eval
  rw [h k loc hk m, Outcome.ok_bind]
  cases hv : v m loc with
  | true => rw [if_pos rfl]; simp only [hv, Bool.true_or]; rfl
  | false => rw [if_neg (by simp), h' k loc hk m]; simp only [hv, Bool.false_or]

theorem tracks_cond {V : Type} {e : IntVec} {c : Walk V .bool} {a b : Walk V .num}
    {q : Mem V → IntVec → Bool} {v u : Mem V → IntVec → V}
    (hc : Tracks e c q) (h : Tracks (t := .num) e a v) (h' : Tracks (t := .num) e b u) :
    Tracks (t := .num) e (.cond c a b) fun m l => if q m l then v m l else u m l := by
  intro k loc hk m
  rw [nextN_cond]
  unfold Walk.eval
  rw [hc k loc hk m, Outcome.ok_bind]
  cases hv : q m loc with
  | true => rw [if_pos rfl, h k loc hk m]; simp only [hv, if_true]
  | false =>
    rw [if_neg (by simp), h' k loc hk m]
    simp only [hv, Bool.false_eq_true, if_false]

/-- Leaf walkers over a legal window. -/
theorem fieldWalk_ok {V : Type} (red : Bool) (f : FieldObj) {b : Nat} (hv : f.values = some b)
    (hw : f.geo.window.Nonempty) :
    ∃ e, fieldWalk (V := V) red f = .ok (.field (some b) f.geo.window.globNpts (It.start 0 f.geo.window) e) ∧
      e = if red then some (It.nth 0 f.geo.window f.geo.window.localNpts.toNat) else none := by
  unfold fieldWalk FieldObj.beginC
  rw [Outcome.throwIf_false (by simp [hv]), Outcome.ok_bind, Outcome.pure_eq, Outcome.ok_bind]
  cases red with
  | false => refine ⟨none, ?_, rfl⟩; rw [hv]; rfl
  | true =>
    refine ⟨_, ?_, rfl⟩
    unfold FieldObj.endC
    rw [if_pos rfl, Outcome.throwIf_false (by simp [hv]), Outcome.ok_bind, It.finish_eq_nth hw, hv]
    rfl

theorem pts_construct {V α : Type} [Add V] {e : IntVec} (f : α → Outcome (Walk V .num))
    (v : Mem V → IntVec → α → V) (pts : Pts α)
    (h : pts.All fun a => ∃ w, f a = .ok w ∧ Tracks (t := .num) e w fun m l => v m l a) :
    ∃ w, pts.construct f = .ok w ∧ Tracks (t := .num) e w fun m l => pts.sum (v m l) := by
  induction pts with
  | one a => exact (Pts.all_one (P := fun a => ∃ w, f a = .ok w ∧ Tracks (t := .num) e w fun m l => v m l a)).1 h
  | more e' a ih =>
    obtain ⟨h1, h2⟩ := Pts.all_more.1 h
    obtain ⟨w, hw, tw⟩ := ih h1
    obtain ⟨u, hu, tu⟩ := h2
    refine ⟨.bin (s := .num) (t := .num) (· + ·) w u, ?_, ?_⟩
    · simp only [Pts.construct]
      rw [hw, Outcome.ok_bind, hu]
      rfl
    · exact tracks_bin (s := .num) (t := .num) (· + ·) tw tu

theorem maskFinish_ok {w : Window} (hw : w.Fits) (hn : w.Nonempty) : ∃ fin, MaskIt.finish w = .ok fin := by
  obtain ⟨it, fin, -, -, h, -⟩ := C12_history_independent w hw hn [] trivial
  exact ⟨fin, h⟩

theorem add_assoc_iv (a b c : IntVec) : a + b + c = a + (b + c) := by
  ext <;> simp <;> omega

/-- `init` succeeds on any region whose cells, themselves and displaced, have
values, and the walker evaluates the expression there. -/
theorem init_tracks {V : Type} [Add V] [Mul V] (red : Bool) (m0 : Mem V) {n minus plus : IntVec}
    (hbox : IntVec.Lt 0 (n + minus + plus)) : {t : Ty} → (e : Expr V t) → e.Wf n → (s : IntVec) →
    (∀ c, InBox n minus plus c → e.DefinedAt n c ∧ e.DefinedAt n (c + s)) →
    ∃ w, e.init red m0 minus plus s = .ok w ∧
      Tracks (n + minus + plus) w fun m loc => e.value2 m0 m (loc - minus + s)
  | _, .scalar v, _, _, _ => ⟨_, rfl, tracks_const _ v⟩
  | _, .single f, h, s, _ => by
    obtain ⟨b, hb⟩ := Option.ne_none_iff_exists'.1 h.1
    refine ⟨.const (t := .num) (m0 b 0), ?_, ?_⟩
    · simp only [Expr.init]
      unfold singleValue FieldObj.fieldValuesC
      dsimp only
      rw [if_neg h.1, Outcome.ok_bind, hb]
      unfold elemAt
      dsimp only
      rw [Outcome.ubUnless_true ⟨le_refl _, h.2⟩]
      rfl
    · simp only [Expr.value2, hb, Option.getD_some]
      exact tracks_const _ _
  | _, .field f, h, s, hd => by
    obtain ⟨g, g1, g2, g3, g4⟩ := leaf_reshape h.1 hbox hd
    obtain ⟨b, hb⟩ := Option.ne_none_iff_exists'.1 h.2
    obtain ⟨e, e1, -⟩ := fieldWalk_ok (V := V) red { f with geo := g } hb g4
    refine ⟨.field (some b) g.window.globNpts (It.start 0 g.window) e, ?_, ?_⟩
    · simp only [Expr.init]
      rw [g1, Outcome.ok_bind, e1]
    · have := tracks_field (V := V) g3 g4 b e
      rw [g2] at this ⊢
      intro k loc hk m
      rw [this k loc hk m]
      simp only [Expr.value2, hb, Option.getD_some, cellAddr]
      congr 3
      ext <;> simp <;> omega
  | _, .mask k, h, s, hd => by
    obtain ⟨g, g1, g2, g3, g4⟩ := leaf_reshape h.1 hbox hd
    have hsz : k.bits.size = roundToInt g.window.globNpts := by rw [h.2, g2]; rfl
    have main : ∀ e, Tracks (V := V) (n + minus + plus) (Walk.mask k.bits (MaskIt.start g.window) e)
        fun m loc => (Expr.mask k).value2 m0 m (loc - minus + s) := by
      intro e
      have := tracks_mask (V := V) g3 g4 k.bits hsz e
      rw [g2] at this ⊢
      intro j loc hk m
      rw [this j loc hk m]
      simp only [Expr.value2, cellAddr]
      congr 3
      ext <;> simp <;> omega
    cases red with
    | false =>
      refine ⟨_, ?_, main none⟩
      simp only [Expr.init]
      rw [g1, Outcome.ok_bind]
      rfl
    | true =>
      obtain ⟨fin, hfin⟩ := maskFinish_ok g3 g4
      refine ⟨_, ?_, main (some fin)⟩
      simp only [Expr.init]
      rw [g1, Outcome.ok_bind]
      unfold maskWalk
      rw [if_pos rfl]
      dsimp only
      rw [hfin]
      rfl
  | _, .maskShift p a, h, s, hd => by
    obtain ⟨w, hw, tw⟩ := init_tracks red m0 hbox a h (s + p) fun c hc =>
      ⟨(hd c hc).1.1, by rw [← add_assoc_iv]; exact (hd c hc).2.2⟩
    refine ⟨w, hw, ?_⟩
    intro k loc hk m
    rw [tw k loc hk m]
    simp only [Expr.value2]
    rw [add_assoc_iv]
  | _, .un op a, h, s, hd => by
    obtain ⟨w, hw, tw⟩ := init_tracks red m0 hbox a h s hd
    refine ⟨.un op w, ?_, tracks_un op tw⟩
    simp only [Expr.init]; rw [hw]; rfl
  | _, .bin op a b, h, s, hd => by
    obtain ⟨w, hw, tw⟩ := init_tracks red m0 hbox a h.1 s fun c hc => ⟨(hd c hc).1.1, (hd c hc).2.1⟩
    obtain ⟨u, hu, tu⟩ := init_tracks red m0 hbox b h.2 s fun c hc => ⟨(hd c hc).1.2, (hd c hc).2.2⟩
    refine ⟨.bin op w u, ?_, tracks_bin op tw tu⟩
    simp only [Expr.init]; rw [hw, Outcome.ok_bind, hu]; rfl
  | _, .and a b, h, s, hd => by
    obtain ⟨w, hw, tw⟩ := init_tracks red m0 hbox a h.1 s fun c hc => ⟨(hd c hc).1.1, (hd c hc).2.1⟩
    obtain ⟨u, hu, tu⟩ := init_tracks red m0 hbox b h.2 s fun c hc => ⟨(hd c hc).1.2, (hd c hc).2.2⟩
    refine ⟨.and w u, ?_, tracks_and tw tu⟩
    simp only [Expr.init]; rw [hw, Outcome.ok_bind, hu]; rfl
  | _, .or a b, h, s, hd => by
    obtain ⟨w, hw, tw⟩ := init_tracks red m0 hbox a h.1 s fun c hc => ⟨(hd c hc).1.1, (hd c hc).2.1⟩
    obtain ⟨u, hu, tu⟩ := init_tracks red m0 hbox b h.2 s fun c hc => ⟨(hd c hc).1.2, (hd c hc).2.2⟩
    refine ⟨.or w u, ?_, tracks_or tw tu⟩
    simp only [Expr.init]; rw [hw, Outcome.ok_bind, hu]; rfl
  | _, .cond t a b, h, s, hd => by
    obtain ⟨q, hq, tq⟩ := init_tracks red m0 hbox t h.1 s fun c hc => ⟨(hd c hc).1.1, (hd c hc).2.1⟩
    obtain ⟨w, hw, tw⟩ := init_tracks red m0 hbox a h.2.1 s fun c hc => ⟨(hd c hc).1.2.1, (hd c hc).2.2.1⟩
    obtain ⟨u, hu, tu⟩ := init_tracks red m0 hbox b h.2.2 s fun c hc => ⟨(hd c hc).1.2.2, (hd c hc).2.2.2⟩
    refine ⟨.cond q w u, ?_, tracks_cond tq tw tu⟩
    simp only [Expr.init]; rw [hq, Outcome.ok_bind, hw, Outcome.ok_bind, hu]; rfl
  | _, .stencil pts a, h, s, hd => by
    obtain ⟨w, hw, tw⟩ := pts_construct (e := n + minus + plus)
      (fun pc : IntVec × V => a.init red m0 minus plus (s + pc.1) >>= fun x =>
        .ok (.bin (s := .num) (t := .num) (· * ·) x (.const (t := .num) pc.2)))
      (fun m loc q => (a.value2 m0 m (loc - minus + (s + q.1)) * q.2 : V)) pts (by
        intro q hq
        obtain ⟨w, hw, tw⟩ := init_tracks red m0 hbox a h (s + q.1) fun c hc =>
          ⟨((hd c hc).1 q hq).1, by rw [← add_assoc_iv]; exact ((hd c hc).2 q hq).2⟩
        refine ⟨_, by rw [hw]; rfl, ?_⟩
        exact tracks_bin (s := .num) (t := .num) (· * ·) tw (tracks_const (t := .num) _ q.2))
    refine ⟨w, hw, ?_⟩
    intro k loc hk m
    rw [tw k loc hk m]
    simp only [Expr.value2]
    congr 2
    funext q
    rw [add_assoc_iv]
  | _, .sumStencil pts a, h, s, hd => by
    obtain ⟨w, hw, tw⟩ := pts_construct (e := n + minus + plus)
      (fun p : IntVec => a.init red m0 minus plus (s + p))
      (fun m loc q => (a.value2 m0 m (loc - minus + (s + q)) : V)) pts (by
        intro q hq
        exact init_tracks red m0 hbox a h (s + q) fun c hc =>
          ⟨((hd c hc).1 q hq).1, by rw [← add_assoc_iv]; exact ((hd c hc).2 q hq).2⟩)
    refine ⟨w, hw, ?_⟩
    intro k loc hk m
    rw [tw k loc hk m]
    simp only [Expr.value2]
    congr 2
    funext q
    rw [add_assoc_iv]

theorem pts_sum_congr {V α : Type} [Add V] {f g : α → V} (pts : Pts α)
    (h : pts.All fun a => f a = g a) : pts.sum f = pts.sum g := by
  induction pts with
  | one a => exact (Pts.all_one (P := fun a => f a = g a)).1 h
  | more e a ih =>
    obtain ⟨h1, h2⟩ := Pts.all_more.1 h
    simp only [Pts.sum]
    rw [ih h1, h2]

/-- Evaluating during the assignment gives the value of the memory before it, if
only the cell being assigned may be read from the destination's memory. -/
theorem value2_eq {V : Type} [Add V] [Mul V] {m0 m : Mem V} {l : FieldObj} {c : IntVec}
    (hm : ∀ blk a, (some blk ≠ l.values ∨ a = cellAddr l.geo c) → m blk a = m0 blk a) {n : IntVec} :
    {t : Ty} → (e : Expr V t) → e.Wf n → (s : IntVec) → e.Independent l s →
      e.value2 m0 m (c + s) = e.value m0 (c + s)
  | _, .scalar _, _, _, _ => rfl
  | _, .single _, _, _, _ => rfl
  | _, .mask _, _, _, _ => rfl
  | _, .field f, hw, s, h => by
    obtain ⟨b, hb⟩ := Option.ne_none_iff_exists'.1 hw.2
    simp only [Expr.value2, Expr.value, hb, Option.getD_some]
    apply hm
    rcases h with h | ⟨h1, h2, h3⟩
    · left; rw [← hb]; exact h
    · right
      unfold cellAddr
      rw [h1, h2, h3]
      congr 1
      ext <;> simp
  | _, .maskShift p a, hw, s, h => by
    have := value2_eq hm a hw (s + p) h
    simp only [Expr.value2, Expr.value]
    rw [add_assoc_iv]; exact this
  | _, .un _ a, hw, s, h => by
    simp only [Expr.value2, Expr.value]; rw [value2_eq hm a hw s h]
  | _, .bin _ a b, hw, s, h => by
    simp only [Expr.value2, Expr.value]; rw [value2_eq hm a hw.1 s h.1, value2_eq hm b hw.2 s h.2]
  | _, .and a b, hw, s, h => by
    simp only [Expr.value2, Expr.value]; rw [value2_eq hm a hw.1 s h.1, value2_eq hm b hw.2 s h.2]
  | _, .or a b, hw, s, h => by
    simp only [Expr.value2, Expr.value]; rw [value2_eq hm a hw.1 s h.1, value2_eq hm b hw.2 s h.2]
  | _, .cond t a b, hw, s, h => by
    simp only [Expr.value2, Expr.value]
    rw [value2_eq hm t hw.1 s h.1, value2_eq hm a hw.2.1 s h.2.1, value2_eq hm b hw.2.2 s h.2.2]
  | _, .stencil pts a, hw, s, h => by
    simp only [Expr.value2, Expr.value]
    apply pts_sum_congr
    intro q hq
    have := value2_eq hm a hw (s + q.1) (h q hq)
    rw [add_assoc_iv, this]
  | _, .sumStencil pts a, hw, s, h => by
    simp only [Expr.value2, Expr.value]
    apply pts_sum_congr
    intro q hq
    have := value2_eq hm a hw (s + q) (h q hq)
    rw [add_assoc_iv, this]

end Nebo
end SpatialOps
