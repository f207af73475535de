import Verif.NeboPar.Walks

/-!
# Lemmas: the task of one location computes its part of the assignment
-/

namespace SpatialOps
namespace Nebo

/-- The elements that may be read while mesh cell `c` of `l` is computed: the
memory of other fields, and the element of `c` itself. -/
def MayRead (l : FieldObj) (c : IntVec) (blk : Nat) (a : Int) : Prop :=
  some blk ≠ l.values ∨ a = cellAddr l.geo c

/-- `resize` succeeds on a region where the expression has values, and afterwards
the walker of every part evaluates the expression at the part's cells, displaced by
`s`. -/
theorem resize_tracks {V : Type} [Add V] [Mul V] (m0 : Mem V) {n minus plus : IntVec}
    (hbox : IntVec.Lt 0 (n + minus + plus)) (l : FieldObj) : {t : Ty} → (e : Expr V t) → e.Wf n →
    (∀ c, InBox n minus plus c → e.DefinedAt n c) →
    ∃ e', e.resize m0 minus plus = .ok e' ∧
      ∀ split loc s, IntVec.Lt 0 split ∧ IntVec.Le split (n + minus + plus) → InBlock split loc →
        (∀ c, InBox n minus plus c → e.DefinedAt n (c + s)) → e.Independent l s →
        ∃ w, e'.partInit split loc s = .ok w ∧
          TracksA (partExt (n + minus + plus) split loc) w
            (fun x => MayRead l (x + partOfs (n + minus + plus) split loc - minus))
            fun m x => e.value2 m0 m (x + partOfs (n + minus + plus) split loc - minus + s)
  | _, .scalar v, _, _ => ⟨_, rfl, fun _ _ _ _ _ _ _ => ⟨_, rfl, tracksA_const _ _ v⟩⟩
  | _, .single f, h, _ => by
    obtain ⟨b, hb⟩ := Option.ne_none_iff_exists'.1 h.1
    refine ⟨.scalar (t := .num) (m0 b 0), ?_, fun _ _ _ _ _ _ _ => ⟨_, rfl, ?_⟩⟩
    · simp only [Expr.resize]
      unfold singleValue FieldObj.fieldValuesC
      dsimp only
      rw [if_neg h.1, Outcome.ok_bind, hb]
      unfold elemAt
      dsimp only
      rw [Outcome.ubUnless_true ⟨le_refl _, h.2⟩]
      rfl
    · simp only [Expr.value2, hb, Option.getD_some]
      exact tracksA_const _ _ _
  | _, .field f, h, hd => by
    obtain ⟨g, g1, g2, g3, g4⟩ := leaf_resize h.1 hbox hd
    obtain ⟨b, hb⟩ := Option.ne_none_iff_exists'.1 h.2
    refine ⟨.field { f with geo := g }, by simp only [Expr.resize]; rw [g1]; rfl, ?_⟩
    intro split loc s hs hl hds hi
    obtain ⟨p1, p2, q1, q2, q3, q4, q5⟩ := leaf_part h.1 g2 g3 g4 hs hl hds
    obtain ⟨e, e1, -⟩ := fieldWalk_ok (V := V) false { f with geo := p2 } hb q5
    refine ⟨.field (some b) p2.window.globNpts (It.start 0 p2.window) e, ?_, ?_⟩
    · simp only [Expr.partInit]
      rw [q1, Outcome.ok_bind, q2, Outcome.ok_bind, e1]
    · have haddr : ∀ x : IntVec, fortranPos p2.window.npts (p2.window.offset + x) =
          cellAddr f.geo (x + partOfs (n + minus + plus) split loc - minus + s) := by
        intro x
        rw [q3]
        unfold cellAddr
        congr 1
        ext <;> simp <;> omega
      have := tracksA_field (V := V) q4 q5 b e
        (P := fun x => MayRead l (x + partOfs (n + minus + plus) split loc - minus)) (by
          intro x _
          rw [haddr]
          rcases hi with hi | ⟨h1, h2, h3⟩
          · left; rw [← hb]; exact hi
          · right
            unfold cellAddr
            rw [h1, h2, h3]
            congr 1
            ext <;> simp)
      rw [show p2.window.extent = partExt (n + minus + plus) split loc by rw [q3]] at this
      intro k x hk m
      have h2 := this k x hk m
      dsimp only at h2
      rw [haddr] at h2
      simp only [Expr.value2, hb, Option.getD_some]
      exact h2
  | _, .mask k, h, hd => by
    obtain ⟨g, g1, g2, g3, g4⟩ := leaf_resize h.1 hbox hd
    refine ⟨.mask { k with geo := g }, by simp only [Expr.resize]; rw [g1]; rfl, ?_⟩
    intro split loc s hs hl hds hi
    obtain ⟨p1, p2, q1, q2, q3, q4, q5⟩ := leaf_part h.1 g2 g3 g4 hs hl hds
    have hsz : k.bits.size = roundToInt p2.window.globNpts := by rw [h.2, q3]; rfl
    refine ⟨.mask k.bits (MaskIt.start p2.window) none, ?_, ?_⟩
    · simp only [Expr.partInit]
      rw [q1, Outcome.ok_bind, q2, Outcome.ok_bind]
      rfl
    · have haddr : ∀ x : IntVec, fortranPos p2.window.npts (p2.window.offset + x) =
          cellAddr k.geo (x + partOfs (n + minus + plus) split loc - minus + s) := by
        intro x
        rw [q3]
        unfold cellAddr
        congr 1
        ext <;> simp <;> omega
      have := tracksA_mask (V := V) q4 q5 k.bits hsz none
        (fun x => MayRead l (x + partOfs (n + minus + plus) split loc - minus))
      rw [show p2.window.extent = partExt (n + minus + plus) split loc by rw [q3]] at this
      intro j x hk m
      have h2 := this j x hk m
      dsimp only at h2
      rw [haddr] at h2
      simp only [Expr.value2]
      exact h2
  | _, .maskShift p a, h, hd => by
    obtain ⟨e', r, hr⟩ := resize_tracks m0 hbox l a h fun c hc => (hd c hc).1
    refine ⟨.maskShift p e', by simp only [Expr.resize]; rw [r]; rfl, ?_⟩
    intro split loc s hs hl hds hi
    obtain ⟨w, hw, tw⟩ := hr split loc (s + p) hs hl
      (fun c hc => by rw [← add_assoc_iv]; exact (hds c hc).2) hi
    refine ⟨w, hw, ?_⟩
    intro k x hk m
    have := tw k x hk m
    dsimp only at this
    rw [← add_assoc_iv] at this
    exact this
  | _, .un op a, h, hd => by
    obtain ⟨e', r, hr⟩ := resize_tracks m0 hbox l a h hd
    refine ⟨.un op e', by simp only [Expr.resize]; rw [r]; rfl, ?_⟩
    intro split loc s hs hl hds hi
    obtain ⟨w, hw, tw⟩ := hr split loc s hs hl hds hi
    exact ⟨.un op w, by simp only [Expr.partInit]; rw [hw]; rfl, tracksA_un op tw⟩
  | _, .bin op a b, h, hd => by
    obtain ⟨e', r, hr⟩ := resize_tracks m0 hbox l a h.1 fun c hc => (hd c hc).1
    obtain ⟨e2, r2, hr2⟩ := resize_tracks m0 hbox l b h.2 fun c hc => (hd c hc).2
    refine ⟨.bin op e' e2, by simp only [Expr.resize]; rw [r, Outcome.ok_bind, r2]; rfl, ?_⟩
    intro split loc s hs hl hds hi
    obtain ⟨w, hw, tw⟩ := hr split loc s hs hl (fun c hc => (hds c hc).1) hi.1
    obtain ⟨u, hu, tu⟩ := hr2 split loc s hs hl (fun c hc => (hds c hc).2) hi.2
    exact ⟨.bin op w u, by simp only [Expr.partInit]; rw [hw, Outcome.ok_bind, hu]; rfl, tracksA_bin op tw tu⟩
  | _, .and a b, h, hd => by
    obtain ⟨e', r, hr⟩ := resize_tracks m0 hbox l a h.1 fun c hc => (hd c hc).1
    obtain ⟨e2, r2, hr2⟩ := resize_tracks m0 hbox l b h.2 fun c hc => (hd c hc).2
    refine ⟨.and e' e2, by simp only [Expr.resize]; rw [r, Outcome.ok_bind, r2]; rfl, ?_⟩
    intro split loc s hs hl hds hi
    obtain ⟨w, hw, tw⟩ := hr split loc s hs hl (fun c hc => (hds c hc).1) hi.1
    obtain ⟨u, hu, tu⟩ := hr2 split loc s hs hl (fun c hc => (hds c hc).2) hi.2
    exact ⟨.and w u, by simp only [Expr.partInit]; rw [hw, Outcome.ok_bind, hu]; rfl, tracksA_and tw tu⟩
  | _, .or a b, h, hd => by
    obtain ⟨e', r, hr⟩ := resize_tracks m0 hbox l a h.1 fun c hc => (hd c hc).1
    obtain ⟨e2, r2, hr2⟩ := resize_tracks m0 hbox l b h.2 fun c hc => (hd c hc).2
    refine ⟨.or e' e2, by simp only [Expr.resize]; rw [r, Outcome.ok_bind, r2]; rfl, ?_⟩
    intro split loc s hs hl hds hi
    obtain ⟨w, hw, tw⟩ := hr split loc s hs hl (fun c hc => (hds c hc).1) hi.1
    obtain ⟨u, hu, tu⟩ := hr2 split loc s hs hl (fun c hc => (hds c hc).2) hi.2
    exact ⟨.or w u, by simp only [Expr.partInit]; rw [hw, Outcome.ok_bind, hu]; rfl, tracksA_or tw tu⟩
  | _, .cond t a b, h, hd => by
    obtain ⟨e0, r0, hr0⟩ := resize_tracks m0 hbox l t h.1 fun c hc => (hd c hc).1
    obtain ⟨e', r, hr⟩ := resize_tracks m0 hbox l a h.2.1 fun c hc => (hd c hc).2.1
    obtain ⟨e2, r2, hr2⟩ := resize_tracks m0 hbox l b h.2.2 fun c hc => (hd c hc).2.2
    refine ⟨.cond e0 e' e2, by
      simp only [Expr.resize]; rw [r0, Outcome.ok_bind, r, Outcome.ok_bind, r2]; rfl, ?_⟩
    intro split loc s hs hl hds hi
    obtain ⟨q, hq, tq⟩ := hr0 split loc s hs hl (fun c hc => (hds c hc).1) hi.1
    obtain ⟨w, hw, tw⟩ := hr split loc s hs hl (fun c hc => (hds c hc).2.1) hi.2.1
    obtain ⟨u, hu, tu⟩ := hr2 split loc s hs hl (fun c hc => (hds c hc).2.2) hi.2.2
    exact ⟨.cond q w u, by
      simp only [Expr.partInit]; rw [hq, Outcome.ok_bind, hw, Outcome.ok_bind, hu]; rfl, tracksA_cond tq tw tu⟩
  | _, .stencil pts a, h, hd => by
    obtain ⟨e', r, hr⟩ := resize_tracks m0 hbox l a h fun c hc => pts_all_left (hd c hc)
    refine ⟨.stencil pts e', by simp only [Expr.resize]; rw [r]; rfl, ?_⟩
    intro split loc s hs hl hds hi
    obtain ⟨w, hw, tw⟩ := ptsA_construct (e := partExt (n + minus + plus) split loc)
      (P := fun x => MayRead l (x + partOfs (n + minus + plus) split loc - minus))
      (fun pc : IntVec × V => e'.partInit split loc (s + pc.1) >>= fun x =>
        .ok (.bin (s := .num) (t := .num) (· * ·) x (.const (t := .num) pc.2)))
      (fun m x q => (a.value2 m0 m (x + partOfs (n + minus + plus) split loc - minus + (s + q.1)) * q.2 : V)) pts (by
        intro q hq
        obtain ⟨w, hw, tw⟩ := hr split loc (s + q.1) hs hl
          (fun c hc => by rw [← add_assoc_iv]; exact ((hds c hc) q hq).2) (hi q hq)
        refine ⟨_, by rw [hw]; rfl, ?_⟩
        exact tracksA_bin (s := .num) (t := .num) (· * ·) tw (tracksA_const (t := .num) _ _ q.2))
    refine ⟨w, hw, ?_⟩
    intro k x hk m
    have := tw k x hk m
    simp only [← add_assoc_iv] at this
    exact this
  | _, .sumStencil pts a, h, hd => by
    obtain ⟨e', r, hr⟩ := resize_tracks m0 hbox l a h fun c hc => pts_all_left (hd c hc)
    refine ⟨.sumStencil pts e', by simp only [Expr.resize]; rw [r]; rfl, ?_⟩
    intro split loc s hs hl hds hi
    obtain ⟨w, hw, tw⟩ := ptsA_construct (e := partExt (n + minus + plus) split loc)
      (P := fun x => MayRead l (x + partOfs (n + minus + plus) split loc - minus))
      (fun p : IntVec => e'.partInit split loc (s + p))
      (fun m x q => (a.value2 m0 m (x + partOfs (n + minus + plus) split loc - minus + (s + q)) : V)) pts (by
        intro q hq
        exact hr split loc (s + q) hs hl
          (fun c hc => by rw [← add_assoc_iv]; exact ((hds c hc) q hq).2) (hi q hq))
    refine ⟨w, hw, ?_⟩
    intro k x hk m
    have := tw k x hk m
    simp only [← add_assoc_iv] at this
    exact this

/-! ## The loop of a task -/

/-- The memory a task has produced, alone, after `k` cells. -/
def viewN {V : Type} (w : Window) (b : Nat) (val : IntVec → V) (m0 : Mem V) : Nat → Mem V
  | 0 => m0
  | k + 1 => (viewN w b val m0 k).write b (winAddr w (nthLoc w k)) (val (nthLoc w k))

theorem viewN_other {V : Type} {w : Window} {b : Nat} {val : IntVec → V} {m0 : Mem V} (k : Nat) (blk : Nat)
    (a : Int) (h : blk ≠ b ∨ ∀ j < k, winAddr w (nthLoc w j) ≠ a) : viewN w b val m0 k blk a = m0 blk a := by
  induction k with
  | zero => rfl
  | succ k ih =>
    unfold viewN Mem.write
    rw [if_neg, ih]
    · rcases h with h | h
      · exact .inl h
      · exact .inr fun j hj => h j (by omega)
    · rintro ⟨rfl, rfl⟩
      rcases h with h | h
      · exact h rfl
      · exact h k (by omega) rfl

theorem nthLoc_inj {w : Window} (hw : w.Fits) (hn : w.Nonempty) {j k : Nat} (hj : (j : Int) < w.localNpts)
    (hk : (k : Int) < w.localNpts) (h : winAddr w (nthLoc w j) = winAddr w (nthLoc w k)) : j = k := by
  have h1 := nthLoc_spec hw hn hj
  have h2 := nthLoc_spec hw hn hk
  have := winAddr_inj hw h1.1 h2.1 h
  have e1 := h1.2
  rw [this, h2.2] at e1
  omega

theorem viewN_val {V : Type} {w : Window} (hw : w.Fits) (hn : w.Nonempty) {b : Nat} {val : IntVec → V}
    {m0 : Mem V} (k : Nat) (hk : (k : Int) ≤ w.localNpts) (j : Nat) (hj : j < k) :
    viewN w b val m0 k b (winAddr w (nthLoc w j)) = val (nthLoc w j) := by
  induction k with
  | zero => omega
  | succ k ih =>
    unfold viewN Mem.write
    by_cases h : j = k
    · subst h; rw [if_pos ⟨rfl, rfl⟩]
    · rw [if_neg]
      · exact ih (by omega) (by omega)
      · rintro ⟨-, h2⟩
        exact h (nthLoc_inj hw hn (by omega) (by omega) h2)

/-- The loop of a task, alone, stores the values at its cells. -/
theorem loop_runs {V : Type} {w : Window} (hw : w.Fits) (hn : w.Nonempty) {b : Nat} {u : Walk V .num}
    {P : IntVec → Nat → Int → Prop} {v : Mem V → IntVec → V} {val : IntVec → V} (m0 : Mem V)
    (ht : TracksA (t := .num) w.extent u P v)
    (hval : ∀ loc, InBlock w.extent loc → ∀ m : Mem V,
      (∀ blk a, (blk ≠ b ∨ a = winAddr w loc) → m blk a = m0 blk a) → v m loc = val loc)
    (W All : Nat → Int → Prop) (hP : ∀ loc, InBlock w.extent loc → ∀ blk a, P loc blk a → W blk a ∨ ¬ All blk a)
    (hW : ∀ loc, InBlock w.extent loc → W b (winAddr w loc)) (fuel k : Nat)
    (hk : (k : Int) + fuel = w.localNpts) :
    ∃ c, Act.Runs W All (viewN w b val m0 k)
      (loopActs (some b) w.globNpts fuel (It.nth 0 w k) (It.nth 0 w w.localNpts.toNat) (u.nextN k)) c
      (viewN w b val m0 w.localNpts.toNat) := by
  induction fuel generalizing k with
  | zero =>
    have : k = w.localNpts.toNat := by omega
    subst this
    unfold loopActs
    rw [if_pos (by unfold It.eqOp; simp)]
    exact ⟨0, .done⟩
  | succ fuel ih =>
    obtain ⟨c, hc⟩ := ih (k + 1) (by omega)
    have hkN : (k : Int) < w.localNpts := by omega
    have hloc := nthLoc_spec hw hn hkN
    have hne : ¬ (It.nth 0 w k).eqOp (It.nth 0 w w.localNpts.toNat) = true := by
      have := It.nth_ne_end hw hn 0 hkN
      simpa using this
    unfold loopActs
    rw [if_neg hne]
    dsimp only
    have hv : v (viewN w b val m0 k) (nthLoc w k) = val (nthLoc w k) := by
      apply hval _ hloc.1
      intro blk a ha
      apply viewN_other
      rcases ha with ha | ha
      · exact .inl ha
      · refine .inr fun j hj h2 => ?_
        rw [ha] at h2
        have := nthLoc_inj hw hn (by omega) hkN h2
        omega
    apply ht k _ hloc (viewN w b val m0 k) W All (hP _ hloc.1) _ (c + 1)
    rw [hv]
    obtain ⟨h1, h2⟩ := nth_deref hw hn hloc
    rw [h1]
    dsimp only
    unfold elemAt
    dsimp only
    rw [Outcome.ubUnless_true (p := _ ∧ _ < w.globNpts) (fortranPos_bound h2)]
    exact .write (hW _ hloc.1) hc

theorem walkActs_runs {V : Type} {l : FieldObj} {b : Nat} (hv : l.values = some b)
    (hc : l.memType = .localRam) (hr : l.readOnly = false) (hw : l.geo.window.Fits)
    (hn : l.geo.window.Nonempty) {u : Walk V .num} {P : IntVec → Nat → Int → Prop}
    {v : Mem V → IntVec → V} {val : IntVec → V} (m0 : Mem V)
    (ht : TracksA (t := .num) l.geo.window.extent u P v)
    (hval : ∀ loc, InBlock l.geo.window.extent loc → ∀ m : Mem V,
      (∀ blk a, (blk ≠ b ∨ a = winAddr l.geo.window loc) → m blk a = m0 blk a) → v m loc = val loc)
    (W All : Nat → Int → Prop)
    (hP : ∀ loc, InBlock l.geo.window.extent loc → ∀ blk a, P loc blk a → W blk a ∨ ¬ All blk a)
    (hW : ∀ loc, InBlock l.geo.window.extent loc → W b (winAddr l.geo.window loc)) :
    ∃ c m', Act.Runs W All m0 (walkActs l u) c m' ∧
      ∀ loc, InBlock l.geo.window.extent loc → m' b (winAddr l.geo.window loc) = val loc := by
  have hN := It.localNpts_nonneg hn
  obtain ⟨c, h⟩ := loop_runs hw hn m0 ht hval W All hP hW l.geo.window.localNpts.toNat 0 (by omega)
  refine ⟨c, viewN l.geo.window b val m0 l.geo.window.localNpts.toNat, ?_, ?_⟩
  · unfold walkActs FieldObj.beginM FieldObj.endM
    rw [Outcome.throwIf_false (by simp [hc]), Outcome.ok_bind, Outcome.throwIf_false (by simp [hr]),
      Outcome.ok_bind, Outcome.pure_eq, Outcome.throwIf_false (by simp [hc]),
      Outcome.ok_bind, It.finish_eq_nth hn, Outcome.ok_bind, Outcome.pure_eq]
    dsimp only
    rw [hv]
    exact h
  · intro loc hloc
    obtain ⟨k, hk, rfl⟩ := nthLoc_surj hw hn hloc
    exact viewN_val hw hn _ (by omega) k (by omega)

end Nebo
end SpatialOps
