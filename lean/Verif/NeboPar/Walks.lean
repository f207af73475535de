import Verif.NeboPar.Race
import Verif.Nebo.Assign
import Verif.Index.Props

/-!
# Lemmas: what the task of one location reads and writes
-/

namespace SpatialOps
namespace Nebo

/-- Evaluating `w` with memory `m` reads only elements in `P` and gives `x`. -/
def ReadsTo {V : Type} {t : Ty} (w : Walk V t) (P : Nat → Int → Prop) (m : Mem V) (x : t.den V) : Prop :=
  ∀ (W All : Nat → Int → Prop), (∀ b a, P b a → W b a ∨ ¬ All b a) → ∀ (K : t.den V → Act V) n v',
    Act.Runs W All m (K x) n v' → ∃ n', Act.Runs W All m (w.acts K) n' v'

/-- `w` evaluates to `v` at every cell of a region walked from its first cell, reading
only elements in `P`. -/
def TracksA {V : Type} {t : Ty} (e : IntVec) (w : Walk V t) (P : IntVec → Nat → Int → Prop)
    (v : Mem V → IntVec → t.den V) : Prop :=
  ∀ (k : Nat) (loc : IntVec), IsNthCell e k loc → ∀ m, ReadsTo (w.nextN k) (P loc) m (v m loc)

theorem tracksA_const {V : Type} {t : Ty} (e : IntVec) (P : IntVec → Nat → Int → Prop) (v : t.den V) :
    TracksA e (Walk.const (V := V) v) P fun _ _ => v := by
  intro k loc _ m W All _ K n v' h
  rw [nextN_const]
  exact ⟨n, h⟩

theorem tracksA_field {V : Type} {w : Window} (hw : w.Fits) (hn : w.Nonempty) (b : Nat) (e : Option It)
    {P : IntVec → Nat → Int → Prop}
    (hP : ∀ loc, InBlock w.extent loc → P loc b (fortranPos w.npts (w.offset + loc))) :
    TracksA w.extent (Walk.field (V := V) (some b) w.globNpts (It.start 0 w) e) P
      fun m loc => m b (fortranPos w.npts (w.offset + loc)) := by
  intro k loc hk m W All hWA K n v' h
  rw [nextN_field]
  unfold Walk.acts
  obtain ⟨h1, h2⟩ := nth_deref hw hn hk
  rw [h1]
  dsimp only
  unfold elemAt
  dsimp only
  rw [Outcome.ubUnless_true (p := _ ∧ _ < w.globNpts) (fortranPos_bound h2)]
  exact ⟨n + 1, .read (hWA _ _ (hP loc hk.1)) h⟩

theorem tracksA_mask {V : Type} {w : Window} (hw : w.Fits) (hn : w.Nonempty) (bits : BitField)
    (hs : bits.size = roundToInt w.globNpts) (e : Option MaskIt) (P : IntVec → Nat → Int → Prop) :
    TracksA w.extent (Walk.mask (V := V) bits (MaskIt.start w) e) P
      fun _ loc => bitAt bits.words (fortranPos w.npts (w.offset + loc)) := by
  intro k loc hk m W All _ K n v' h
  rw [nextN_mask]
  have hlt : (k : Int) < w.localNpts := isNth_lt hk
  obtain ⟨it, r, hv, -⟩ := MaskIt.run_deref bits.words hw hn (List.replicate k It.Op.inc)
    (staysIn_replicate_inc (n := w.localNpts) k (k := 0) (by omega) (by omega))
  rw [mask_run_inc] at r
  injection r with r
  subst r
  rw [endPos_replicate_inc, Int.zero_add] at hv
  obtain ⟨loc', hl, hd, b1, b2⟩ := hv hlt
  have := nthCell_unique hl hk
  subst this
  unfold Walk.acts
  rw [hd]
  dsimp only
  rw [if_pos (by rw [hs]; exact b2)]
  exact ⟨n, h⟩

theorem tracksA_un {V : Type} {s t : Ty} {e : IntVec} {a : Walk V s} {P : IntVec → Nat → Int → Prop}
    {v : Mem V → IntVec → s.den V} (op : s.den V → t.den V) (h : TracksA e a P v) :
    TracksA e (.un op a) P fun m l => op (v m l) := by
  intro k loc hk m W All hWA K n v' hr
  rw [nextN_un]
  unfold Walk.acts
  exact h k loc hk m W All hWA (fun x => K (op x)) n v' hr

theorem tracksA_bin {V : Type} {s t : Ty} {e : IntVec} {a b : Walk V s} {P : IntVec → Nat → Int → Prop}
    {v u : Mem V → IntVec → s.den V}
    (op : s.den V → s.den V → t.den V) (h : TracksA e a P v) (h' : TracksA e b P u) :
    TracksA e (.bin op a b) P fun m l => op (v m l) (u m l) := by
  intro k loc hk m W All hWA K n v' hr
  rw [nextN_bin]
  unfold Walk.acts
  obtain ⟨n', h1⟩ := h' k loc hk m W All hWA (fun y => K (op (v m loc) y)) n v' hr
  exact h k loc hk m W All hWA (fun x => (b.nextN k).acts fun y => K (op x y)) n' v' h1

theorem tracksA_and {V : Type} {e : IntVec} {a b : Walk V .bool} {P : IntVec → Nat → Int → Prop}
    {v u : Mem V → IntVec → Bool} (h : TracksA (t := .bool) e a P v) (h' : TracksA (t := .bool) e b P u) :
    TracksA (t := .bool) e (.and a b) P fun m l => v m l && u m l := by
  intro k loc hk m W All hWA K n v' hr
  rw [nextN_and]
  unfold Walk.acts
  have : ∃ n', Act.Runs W All m ((fun x => if x = true then (b.nextN k).acts K else K false) (v m loc)) n' v' := by
    dsimp only at hr ⊢
    cases hv : v m loc with
    | true =>
      rw [if_pos rfl]
      rw [hv, Bool.true_and] at hr
      exact h' k loc hk m W All hWA K n v' hr
    | false =>
      rw [if_neg (by simp)]
      rw [hv, Bool.false_and] at hr
      exact ⟨n, hr⟩
  obtain ⟨n', h1⟩ := this
  exact h k loc hk m W All hWA _ n' v' h1

theorem tracksA_or {V : Type} {e : IntVec} {a b : Walk V .bool} {P : IntVec → Nat → Int → Prop}
    {v u : Mem V → IntVec → Bool} (h : TracksA (t := .bool) e a P v) (h' : TracksA (t := .bool) e b P u) :
    TracksA (t := .bool) e (.or a b) P fun m l => v m l || u m l := by
  intro k loc hk m W All hWA K n v' hr
  rw [nextN_or]
  unfold Walk.acts
  have : ∃ n', Act.Runs W All m ((fun x => if x = true then K true else (b.nextN k).acts K) (v m loc)) n' v' := by
    dsimp only at hr ⊢
    cases hv : v m loc with
    | true =>
      rw [if_pos rfl]
      rw [hv, Bool.true_or] at hr
      exact ⟨n, hr⟩
    | false =>
      rw [if_neg (by simp)]
      rw [hv, Bool.false_or] at hr
      exact h' k loc hk m W All hWA K n v' hr
  obtain ⟨n', h1⟩ := this
  exact h k loc hk m W All hWA _ n' v' h1

theorem tracksA_cond {V : Type} {e : IntVec} {c : Walk V .bool} {a b : Walk V .num}
    {P : IntVec → Nat → Int → Prop} {q : Mem V → IntVec → Bool} {v u : Mem V → IntVec → V}
    (hc : TracksA (t := .bool) e c P q) (h : TracksA (t := .num) e a P v) (h' : TracksA (t := .num) e b P u) :
    TracksA (t := .num) e (.cond c a b) P fun m l => if q m l then v m l else u m l := by
  intro k loc hk m W All hWA K n v' hr
  rw [nextN_cond]
  unfold Walk.acts
  have : ∃ n', Act.Runs W All m
      ((fun x => if x = true then (a.nextN k).acts K else (b.nextN k).acts K) (q m loc)) n' v' := by
    dsimp only at hr ⊢
    cases hv : q m loc with
    | true =>
      rw [if_pos rfl]
      rw [hv, if_pos rfl] at hr
      exact h k loc hk m W All hWA K n v' hr
    | false =>
      rw [if_neg (by simp)]
      rw [hv, if_neg (by simp)] at hr
      exact h' k loc hk m W All hWA K n v' hr
  obtain ⟨n', h1⟩ := this
  exact hc k loc hk m W All hWA _ n' v' h1

theorem ptsA_construct {V α : Type} [Add V] {e : IntVec} {P : IntVec → Nat → Int → Prop}
    (f : α → Outcome (Walk V .num)) (v : Mem V → IntVec → α → V) (pts : Pts α)
    (h : pts.All fun a => ∃ w, f a = .ok w ∧ TracksA (t := .num) e w P fun m l => v m l a) :
    ∃ w, pts.construct f = .ok w ∧ TracksA (t := .num) e w P fun m l => pts.sum (v m l) := by
  induction pts with
  | one a =>
    exact (Pts.all_one (P := fun a => ∃ w, f a = .ok w ∧ TracksA (t := .num) e w P fun m l => v m l a)).1 h
  | more e' a ih =>
    obtain ⟨h1, h2⟩ := Pts.all_more.1 h
    obtain ⟨w, hw, tw⟩ := ih h1
    obtain ⟨u, hu, tu⟩ := h2
    refine ⟨.bin (s := .num) (t := .num) (· + ·) w u, ?_, ?_⟩
    · simp only [Pts.construct]
      rw [hw, Outcome.ok_bind, hu]
      rfl
    · exact tracksA_bin (s := .num) (t := .num) (· + ·) tw tu

/-! ## The parts -/

/-- First cell of the part at `loc`, counted from the first cell of the region. -/
def partOfs (e split loc : IntVec) : IntVec :=
  ⟨Window.refineOffset1 0 e.x split.x loc.x, Window.refineOffset1 0 e.y split.y loc.y,
   Window.refineOffset1 0 e.z split.z loc.z⟩

/-- Dimensions of the part at `loc`. -/
def partExt (e split loc : IntVec) : IntVec :=
  ⟨Window.refineExtent1 e.x split.x loc.x, Window.refineExtent1 e.y split.y loc.y,
   Window.refineExtent1 e.z split.z loc.z⟩

theorem part_bounds {e split loc : IntVec} (hs : IntVec.Lt 0 split ∧ IntVec.Le split e) (hl : InBlock split loc) :
    IntVec.Le 0 (partOfs e split loc) ∧ IntVec.Lt 0 (partExt e split loc) ∧
      IntVec.Le (partOfs e split loc + partExt e split loc) e := by
  obtain ⟨⟨s1, s2, s3⟩, ⟨t1, t2, t3⟩⟩ := hs
  obtain ⟨⟨l1, l2, l3⟩, ⟨m1, m2, m3⟩⟩ := hl
  simp only [IntVec.zero_x, IntVec.zero_y, IntVec.zero_z] at *
  have X := Window.refine1_pos (offset := 0) s1 t1 l1 m1
  have Y := Window.refine1_pos (offset := 0) s2 t2 l2 m2
  have Z := Window.refine1_pos (offset := 0) s3 t3 l3 m3
  unfold partOfs partExt
  iv_omega

theorem refine_part {w : Window} (hw : w.Fits) {split loc : IntVec}
    (hs : IntVec.Lt 0 split ∧ IntVec.Le split w.extent) (hl : InBlock split loc) :
    w.refine split loc = .ok ⟨w.npts, w.offset + partOfs w.extent split loc, partExt w.extent split loc⟩ := by
  rw [refine_eq_ok hw hs hl]
  congr 2
  unfold partOfs Window.refineOffset1
  ext <;> simp <;> omega

/-- Each cell of the region is in exactly one part. -/
theorem part_unique {e split : IntVec} (hs : IntVec.Lt 0 split ∧ IntVec.Le split e) {c : IntVec}
    (hc : InBlock e c) : ∃ loc, InBlock split loc ∧ InBlock (partExt e split loc) (c - partOfs e split loc) ∧
      ∀ l', InBlock split l' → InBlock (partExt e split l') (c - partOfs e split l') → l' = loc := by
  have hw : (⟨e, 0, e⟩ : Window).Fits := by
    refine ⟨?_, ?_, ?_, ?_⟩ <;> iv_omega
  obtain ⟨-, h2⟩ := C03_refine_tiles ⟨e, 0, e⟩ hw split hs
  obtain ⟨loc, ⟨l1, v, l2, l3⟩, l4⟩ := h2 c (by unfold Window.Covers; iv_omega)
  rw [refine_part hw hs l1] at l2
  injection l2 with l2
  subst l2
  refine ⟨loc, l1, ?_, ?_⟩
  · dsimp only at l3; iv_omega
  · intro l' h1 h3
    refine l4 l' ⟨h1, _, refine_part hw hs h1, ?_⟩
    dsimp only
    iv_omega

/-- The window of the leaf `f` for the part at `loc`, displaced by `s`. -/
theorem leaf_part {n : IntVec} {f g : FieldGeo} (hf : OnMesh n f) {minus plus s split loc : IntVec}
    (hg : g.ghosts = f.ghosts)
    (hgw : g.window = ⟨f.window.npts, origin f - minus, n + minus + plus⟩) (hfit : g.window.Fits)
    (hs : IntVec.Lt 0 split ∧ IntVec.Le split (n + minus + plus)) (hl : InBlock split loc)
    (hd : ∀ c, InBox n minus plus c → HasCell f (c + s)) :
    ∃ g1 g2, partGeo g split loc = .ok g1 ∧ shiftWindow g1 s = .ok g2 ∧
      g2.window = ⟨f.window.npts, origin f - minus + partOfs (n + minus + plus) split loc + s,
        partExt (n + minus + plus) split loc⟩ ∧ g2.window.Fits ∧ g2.window.Nonempty := by
  obtain ⟨b1, b2, b3⟩ := part_bounds hs hl
  have hsw : IntVec.Lt 0 split ∧ IntVec.Le split g.window.extent := by rw [hgw]; exact hs
  have hp := refine_part hfit hsw hl
  rw [hgw] at hp
  dsimp only at hp
  have hF := hf.fits
  rw [hgw] at hfit
  obtain ⟨g1, r1, r2, r3, -, -⟩ := windowCopy_ok (f := g) (by rw [hg]; exact hf.ghosts)
    (w := ⟨f.window.npts, origin f - minus + partOfs (n + minus + plus) split loc,
      partExt (n + minus + plus) split loc⟩) (by
        generalize partOfs (n + minus + plus) split loc = o at *
        generalize partExt (n + minus + plus) split loc = x at *
        generalize origin f = og at *
        refine ⟨hF.1, ?_, ?_, ?_⟩ <;> iv_omega)
    (by exact b2) (by rw [hgw])
  have eE : partExt (n + minus + plus) split loc + 0 = partExt (n + minus + plus) split loc := by ext <;> simp
  have hfs : Window.Fits ⟨f.window.npts, origin f - minus + partOfs (n + minus + plus) split loc + s,
      partExt (n + minus + plus) split loc⟩ := by
    have h1 := hd (partOfs (n + minus + plus) split loc - minus) (by
      generalize partOfs (n + minus + plus) split loc = o at *
      generalize partExt (n + minus + plus) split loc = x at *
      unfold InBox; iv_omega)
    have h2 := hd (partOfs (n + minus + plus) split loc + partExt (n + minus + plus) split loc - ⟨1, 1, 1⟩ - minus) (by
      generalize partOfs (n + minus + plus) split loc = o at *
      generalize partExt (n + minus + plus) split loc = x at *
      unfold InBox; iv_omega)
    unfold HasCell at h1 h2
    generalize partOfs (n + minus + plus) split loc = o at *
    generalize partExt (n + minus + plus) split loc = x at *
    generalize origin f = og at *
    refine ⟨hF.1, ?_, ?_, ?_⟩ <;> iv_omega
  obtain ⟨g2, q1, q2, -⟩ := reshape_ok (f := g1) (by rw [r3, hg]; exact hf.ghosts) (em := 0) (sh := s)
    (by rw [r2]; dsimp only; rw [eE]; exact hfs) (by rw [r2]; dsimp only; rw [eE]; exact b2)
  rw [r2] at q2
  dsimp only at q2
  rw [eE] at q2
  refine ⟨g1, g2, ?_, q1, q2, by rw [q2]; exact hfs, by rw [q2]; exact b2⟩
  unfold partGeo
  rw [hgw, hp, Outcome.ok_bind, r1]

/-- Cutting a leaf to the region. -/
theorem leaf_resize {n : IntVec} {f : FieldGeo} (hf : OnMesh n f) {minus plus : IntVec}
    (hbox : IntVec.Lt 0 (n + minus + plus)) (hd : ∀ c, InBox n minus plus c → HasCell f c) :
    ∃ g, resizeGhost f minus (plus - f.bc.hasExtra) = .ok g ∧ g.ghosts = f.ghosts ∧
      g.window = ⟨f.window.npts, origin f - minus, n + minus + plus⟩ ∧ g.window.Fits := by
  have h1 := hd (-minus) (by unfold InBox; iv_omega)
  have h2 := hd (n + plus - ⟨1, 1, 1⟩) (by unfold InBox; iv_omega)
  have hs := hf.size
  have hF := hf.fits
  have hE : f.window.extent + (minus + (plus - f.bc.hasExtra) - f.validGhosts.minus - f.validGhosts.plus) =
      n + minus + plus := by rw [hs]; ext <;> simp <;> omega
  have hB0 : f.window.offset + (f.validGhosts.minus - minus) = origin f - minus := by
    unfold origin; ext <;> simp <;> omega
  have hfit : Window.Fits ⟨f.window.npts, origin f - minus, n + minus + plus⟩ := by
    unfold HasCell at h1 h2
    iv_omega
  obtain ⟨g, r1, r2, r3, r4, r5⟩ := reshape_ok (f := f) hf.ghosts
    (em := minus + (plus - f.bc.hasExtra) - f.validGhosts.minus - f.validGhosts.plus)
    (sh := f.validGhosts.minus - minus) (by rw [hB0, hE]; exact hfit) (by rw [hB0, hE]; exact hbox)
  rw [hB0, hE] at r2
  exact ⟨g, r1, r3, r2, by rw [r2]; exact hfit⟩

end Nebo
end SpatialOps
