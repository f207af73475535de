import Verif.Mask.Spec
import Verif.Iter.Props
import Verif.Ghost.Props
import Mathlib.Tactic.Linarith
import Mathlib.Tactic.Ring

/-!
# Helper lemmas for masks
-/

namespace SpatialOps

theorem bit_test (w : BitVec 32) (n : Nat) (hn : n < 32) :
    decide (w &&& ((1 : BitVec 32) <<< n) ≠ 0) = w.getLsbD n := by
  have key : (w &&& ((1 : BitVec 32) <<< n)) = 0 ↔ w.getLsbD n = false := by
    constructor
    · intro h
      have := congrArg (fun v => BitVec.getLsbD v n) h
      simpa [hn] using this
    · intro h
      apply BitVec.eq_of_getLsbD_eq
      intro i hi
      by_cases e : i = n
      · subst e; simp [h]
      · have : ¬ (i - n = 0 ∧ n ≤ i) := by omega
        by_cases c : i < n
        · simp [c]
        · have h1 : i - n ≠ 0 := by omega
          simp [BitVec.getLsbD_one, h1]
  by_cases h : w.getLsbD n = true
  · rw [h]
    simp only [decide_eq_true_eq, ne_eq, key, h]; decide
  · have h' : w.getLsbD n = false := by simpa using h
    rw [h']
    simp only [decide_eq_false_iff_not, ne_eq, not_not, key, h']

theorem bit_set (w : BitVec 32) (n i : Nat) (hn : n < 32) (hi : i < 32) :
    (w ||| ((1 : BitVec 32) <<< n)).getLsbD i = (w.getLsbD i || decide (i = n)) := by
  by_cases e : i = n
  · subst e; simp [hi]
  · by_cases c : i < n
    · simp [c, e]
    · have h1 : i - n ≠ 0 := by omega
      simp [BitVec.getLsbD_one, h1, e]

/-- Value of the mask bit at a (non-negative) flat position. -/
def bitAt (words : Int → BitVec 32) (flat : Int) : Bool :=
  (words (flat.tdiv 32)).getLsbD (flat.tmod 32).toNat

theorem flat_split {a b : Int} (ha : 0 ≤ a) (hb : 0 ≤ b) :
    (a.tdiv 32 = b.tdiv 32 ∧ (a.tmod 32).toNat = (b.tmod 32).toNat) ↔ a = b := by
  rw [Int.tdiv_eq_ediv_of_nonneg ha, Int.tdiv_eq_ediv_of_nonneg hb,
    Int.tmod_eq_emod_of_nonneg ha, Int.tmod_eq_emod_of_nonneg hb]
  omega

theorem roundToInt_bound {n a : Int} (ha : 0 ≤ a) (h : a < n) :
    0 ≤ a.tdiv 32 ∧ a.tdiv 32 < roundToInt n ∧ 0 ≤ a.tmod 32 ∧ a.tmod 32 < 32 := by
  unfold roundToInt
  rw [Int.tdiv_eq_ediv_of_nonneg ha, Int.tmod_eq_emod_of_nonneg ha,
    Int.tdiv_eq_ediv_of_nonneg (by omega)]
  omega

namespace BitField

/-- Block cell of the mask point `p`. -/
def cellOf (w : Window) (p : IntVec) : IntVec := w.offset + p

theorem cell_inBlock {w : Window} {g : GhostData} (hf : GhostedFits w g) {p : IntVec}
    (hp : InGhosted w g p) : InBlock w.npts (cellOf w p) := by
  unfold GhostedFits InGhosted GhostData.Valid cellOf at *; iv_omega

theorem findPosition_ok {m : BitField} {p : IntVec} (hp : InGhosted m.window m.ghosts p) :
    m.findPosition p = .ok (fortranPos m.window.npts (cellOf m.window p)) := by
  unfold findPosition
  unfold InGhosted at hp
  rw [Outcome.assert_true (by iv_omega), Outcome.ok_bind, Outcome.assert_true (by iv_omega),
    Outcome.ok_bind, Outcome.assert_true (by iv_omega), Outcome.ok_bind,
    Outcome.assert_true (by iv_omega), Outcome.ok_bind, Outcome.assert_true (by iv_omega),
    Outcome.ok_bind, Outcome.assert_true (by iv_omega), Outcome.ok_bind]
  rfl

theorem findPosition_abort {m : BitField} {p : IntVec} (hp : ¬ InGhosted m.window m.ghosts p) :
    m.findPosition p = .abort := by
  unfold findPosition Outcome.assert
  by_cases c1 : -m.ghosts.minus.x ≤ p.x
  swap
  · rw [if_neg c1]; rfl
  by_cases c2 : p.x < m.window.extent.x + m.ghosts.plus.x
  swap
  · rw [if_pos c1, if_neg c2]; rfl
  by_cases c3 : -m.ghosts.minus.y ≤ p.y
  swap
  · rw [if_pos c1, if_pos c2, if_neg c3]; rfl
  by_cases c4 : p.y < m.window.extent.y + m.ghosts.plus.y
  swap
  · rw [if_pos c1, if_pos c2, if_pos c3, if_neg c4]; rfl
  by_cases c5 : -m.ghosts.minus.z ≤ p.z
  swap
  · rw [if_pos c1, if_pos c2, if_pos c3, if_pos c4, if_neg c5]; rfl
  by_cases c6 : p.z < m.window.extent.z + m.ghosts.plus.z
  swap
  · rw [if_pos c1, if_pos c2, if_pos c3, if_pos c4, if_pos c5, if_neg c6]; rfl
  exact absurd (by unfold InGhosted; iv_omega) hp

/-- The invariant of a bit field under construction. -/
structure Wf (m : BitField) (w : Window) (g : GhostData) : Prop where
  win : m.window = w
  gh : m.ghosts = g
  sz : m.size = roundToInt w.globNpts

theorem locate_ok {m : BitField} {w : Window} {g : GhostData} (hm : m.Wf w g) {c : IntVec}
    (hc : InBlock w.npts c) :
    m.locate (fortranPos w.npts c) =
      .ok ((fortranPos w.npts c).tdiv 32, ((fortranPos w.npts c).tmod 32).toNat) := by
  have hb := fortranPos_bound hc
  have := roundToInt_bound (n := w.globNpts) hb.1 hb.2
  unfold locate
  rw [hm.sz, Outcome.ubUnless_true ⟨this.1, this.2.1, this.2.2.1⟩]
  rfl

theorem query_eq {m : BitField} {w : Window} {g : GhostData} (hm : m.Wf w g)
    (hf : GhostedFits w g) {p : IntVec} (hp : InGhosted w g p) :
    m.query p = .ok (bitAt m.words (fortranPos w.npts (cellOf w p))) := by
  have hc := cell_inBlock hf hp
  have hb := fortranPos_bound hc
  have hr := roundToInt_bound (n := w.globNpts) hb.1 hb.2
  unfold query
  rw [findPosition_ok (by rw [hm.win, hm.gh]; exact hp), Outcome.ok_bind, hm.win, locate_ok hm hc,
    Outcome.ok_bind]
  simp only [Outcome.pure_eq]
  rw [bit_test _ _ (by omega)]
  rfl

theorem addPoint_eq {m : BitField} {w : Window} {g : GhostData} (hm : m.Wf w g)
    (hf : GhostedFits w g) {p : IntVec} (hp : InGhosted w g p) :
    ∃ m', m.addPoint p = .ok m' ∧ m'.Wf w g ∧
      ∀ a, 0 ≤ a → bitAt m'.words a =
        (bitAt m.words a || decide (a = fortranPos w.npts (cellOf w p))) := by
  have hc := cell_inBlock hf hp
  have hb := fortranPos_bound hc
  have hr := roundToInt_bound (n := w.globNpts) hb.1 hb.2
  let ws : Int → BitVec 32 := fun k =>
    if k = (fortranPos w.npts (cellOf w p)).tdiv 32 then
      m.words k ||| ((1 : BitVec 32) <<< ((fortranPos w.npts (cellOf w p)).tmod 32).toNat)
    else m.words k
  refine ⟨{ m with words := ws }, ?_, ⟨hm.win, hm.gh, hm.sz⟩, ?_⟩
  · unfold addPoint
    rw [findPosition_ok (by rw [hm.win, hm.gh]; exact hp), Outcome.ok_bind, hm.win, locate_ok hm hc,
      Outcome.ok_bind]
    rfl
  · intro a ha
    have hs := flat_split ha hb.1
    unfold bitAt
    dsimp only [ws]
    by_cases e : a.tdiv 32 = (fortranPos w.npts (cellOf w p)).tdiv 32
    · rw [if_pos e, bit_set _ _ _ (by omega) ?_]
      · congr 1
        rw [decide_eq_decide, ← hs]
        exact ⟨fun h => ⟨e, h⟩, fun h => h.2⟩
      · rw [Int.tmod_eq_emod_of_nonneg ha]; omega
    · rw [if_neg e]
      have : ¬ a = fortranPos w.npts (cellOf w p) := fun h => e (hs.2 h).1
      simp [this]

theorem addPoints_eq {w : Window} {g : GhostData} (hf : GhostedFits w g) (ps : List IntVec) :
    ∀ {m : BitField}, m.Wf w g → (∀ p ∈ ps, InGhosted w g p) →
    ∃ m', m.addPoints ps = .ok m' ∧ m'.Wf w g ∧
      ∀ a, 0 ≤ a → bitAt m'.words a =
        (bitAt m.words a || decide (∃ p ∈ ps, a = fortranPos w.npts (cellOf w p))) := by
  induction ps with
  | nil => intro m hm _; exact ⟨m, rfl, hm, fun a _ => by simp⟩
  | cons p ps ih =>
    intro m hm hin
    obtain ⟨m1, e1, hm1, b1⟩ := addPoint_eq hm hf (hin p (by simp))
    obtain ⟨m2, e2, hm2, b2⟩ := ih hm1 (fun q hq => hin q (by simp [hq]))
    refine ⟨m2, ?_, hm2, fun a ha => ?_⟩
    · unfold addPoints; rw [e1, Outcome.ok_bind, e2]
    · rw [b2 a ha, b1 a ha, Bool.or_assoc]
      congr 1
      simp [Bool.decide_or]

theorem addPoints_abort {w : Window} {g : GhostData} (hf : GhostedFits w g) (ps : List IntVec) :
    ∀ {m : BitField}, m.Wf w g → (∃ p ∈ ps, ¬ InGhosted w g p) → m.addPoints ps = .abort := by
  induction ps with
  | nil => intro m _ h; simp at h
  | cons p ps ih =>
    intro m hm h
    unfold addPoints
    by_cases c : InGhosted w g p
    · obtain ⟨m1, e1, hm1, _⟩ := addPoint_eq hm hf c
      rw [e1, Outcome.ok_bind]
      apply ih hm1
      obtain ⟨q, hq, hn⟩ := h
      rcases List.mem_cons.1 hq with rfl | hq
      · exact absurd c hn
      · exact ⟨q, hq, hn⟩
    · unfold addPoint
      rw [findPosition_abort (by rw [hm.win, hm.gh]; exact c)]
      rfl

theorem build_wf (w : Window) (g : GhostData) :
    (BitField.mk w g (roundToInt w.globNpts) (fun _ => 0)).Wf w g := ⟨rfl, rfl, rfl⟩

theorem build_eq {w : Window} {g : GhostData} (hf : GhostedFits w g) (ps : List IntVec)
    (hin : ∀ p ∈ ps, InGhosted w g p) :
    ∃ m, build ps w g = .ok m ∧ m.Wf w g ∧
      ∀ a, 0 ≤ a → bitAt m.words a = decide (∃ p ∈ ps, a = fortranPos w.npts (cellOf w p)) := by
  obtain ⟨m, e, hm, hb⟩ := addPoints_eq hf ps (build_wf w g) hin
  refine ⟨m, ?_, hm, fun a ha => ?_⟩
  · unfold build; rw [GhostData.copy_ok hf.2.2.2]; exact e
  · rw [hb a ha]; simp [bitAt]

end BitField

namespace MaskIt

/-- The field iterator a mask iterator corresponds to: same indices, address is
the flat bit position. -/
def toIt (i : MaskIt) : It where
  current := i.block * 32 + i.bit
  count := i.count
  xIndex := i.xIndex
  yIndex := i.yIndex
  zIndex := i.zIndex
  yStep := i.yStep
  zStep := i.zStep
  xExtent := i.xExtent
  yExtent := i.yExtent
  zExtent := i.zExtent
  xyExtent := i.xyExtent

/-- The bit position is normalised unless the flat position is negative. -/
def Norm (i : MaskIt) : Prop := (0 ≤ i.bit ∧ i.bit < 32) ∨ i.toIt.current < 0

theorem toIt_update (i : MaskIt) : i.updatePositions.toIt = i.toIt := by
  unfold updatePositions
  split
  · unfold toIt
    simp only [It.mk.injEq, and_true]
    have := Int.mul_tdiv_add_tmod (i.block * 32 + i.bit) 32
    omega
  · rfl

theorem norm_update (i : MaskIt) : i.updatePositions.Norm := by
  unfold Norm
  rw [toIt_update]
  unfold updatePositions
  split
  · dsimp only
    by_cases h : i.toIt.current < 0
    · exact Or.inr h
    · left
      have h' : 0 ≤ i.block * 32 + i.bit := by unfold toIt at h; simp only at h; omega
      rw [Int.tmod_eq_emod_of_nonneg h']
      omega
  · left; omega

theorem size_update (i : MaskIt) : i.updatePositions.size = i.size := by
  unfold updatePositions; split <;> rfl

theorem toIt_inc (i : MaskIt) : i.inc.toIt = i.toIt.inc := by
  unfold inc It.inc
  rw [toIt_update]
  unfold toIt
  dsimp only
  split
  · split
    · simp only [It.mk.injEq, and_true]; ring
    · simp only [It.mk.injEq, and_true]; ring
  · simp only [It.mk.injEq, and_true]; ring

theorem toIt_dec (i : MaskIt) : i.dec.toIt = i.toIt.dec := by
  unfold dec It.dec
  rw [toIt_update]
  unfold toIt
  dsimp only
  split
  · split
    · simp only [It.mk.injEq, and_true]; ring
    · simp only [It.mk.injEq, and_true]; ring
  · simp only [It.mk.injEq, and_true]; ring

theorem toIt_add (i : MaskIt) (n : Int) {j : It} (h : i.toIt.addAssign n = .ok j) :
    ∃ k, i.addAssign n = .ok k ∧ k.toIt = j ∧ k.Norm ∧ k.size = i.size := by
  unfold It.addAssign at h
  unfold addAssign
  by_cases c : (0 < n ∧ n < i.xExtent - i.xIndex) ∨ (n < 0 ∧ -n < i.xIndex)
  · rw [if_pos c]
    rw [if_pos (by exact c)] at h
    injection h with h
    refine ⟨_, rfl, ?_, norm_update _, size_update _⟩
    rw [toIt_update, ← h]
    unfold toIt
    simp only [It.mk.injEq, and_true]; ring
  · rw [if_neg c]
    rw [if_neg (by exact c)] at h
    by_cases d : i.xExtent ≠ 0 ∧ i.xyExtent ≠ 0
    · rw [Outcome.ubUnless_true (by exact d), Outcome.ok_bind] at h
      rw [Outcome.ubUnless_true d, Outcome.ok_bind]
      injection h with h
      refine ⟨_, rfl, ?_, norm_update _, size_update _⟩
      rw [toIt_update, ← h]
      unfold toIt
      simp only [It.mk.injEq, and_true]; ring
    · rw [Outcome.ubUnless_false (by exact d)] at h; cases h

theorem toIt_step (i : MaskIt) (o : It.Op) {j : It} (h : i.toIt.step o = .ok j) :
    ∃ k, i.step o = .ok k ∧ k.toIt = j ∧ k.Norm ∧ k.size = i.size := by
  cases o with
  | inc =>
    injection h with h
    exact ⟨_, rfl, by rw [toIt_inc, h], norm_update _, by
      unfold inc; rw [size_update]; dsimp only; split <;> (try split) <;> rfl⟩
  | dec =>
    injection h with h
    exact ⟨_, rfl, by rw [toIt_dec, h], norm_update _, by
      unfold dec; rw [size_update]; dsimp only; split <;> (try split) <;> rfl⟩
  | add n => exact toIt_add i n h
  | sub n => exact toIt_add i (-n) h

theorem toIt_run (ops : List It.Op) : ∀ (i : MaskIt) {j : It}, i.Norm → i.toIt.run ops = .ok j →
    ∃ k, i.run ops = .ok k ∧ k.toIt = j ∧ k.Norm ∧ k.size = i.size := by
  induction ops with
  | nil => intro i j hn h; injection h with h; exact ⟨i, rfl, h, hn, rfl⟩
  | cons o os ih =>
    intro i j _ h
    simp only [It.run] at h
    cases hs : i.toIt.step o with
    | ok j1 =>
      rw [hs, Outcome.ok_bind] at h
      obtain ⟨k1, e1, t1, n1, s1⟩ := toIt_step i o hs
      rw [← t1] at h
      obtain ⟨k, e, t, n, s⟩ := ih k1 n1 h
      exact ⟨k, by simp only [run]; rw [e1, Outcome.ok_bind, e], t, n, by rw [s, s1]⟩
    | abort => rw [hs] at h; cases h
    | throws => rw [hs] at h; cases h
    | ub => rw [hs] at h; cases h

theorem toIt_start (w : Window) : (start w).toIt = It.start 0 w := by
  unfold start toIt It.start
  simp only [It.mk.injEq, and_true]
  have := Int.mul_tdiv_add_tmod (w.offset.x + w.npts.x * (w.offset.y + w.npts.y * w.offset.z)) 32
  have e : w.offset.x + w.npts.x * (w.offset.y + w.npts.y * w.offset.z) =
    w.offset.x + w.offset.y * w.npts.x + w.offset.z * w.npts.x * w.npts.y := by ring
  omega

theorem norm_start {w : Window} (hw : w.Fits) : (start w).Norm := by
  left
  unfold start
  have h : 0 ≤ w.offset.x + w.npts.x * (w.offset.y + w.npts.y * w.offset.z) := by
    obtain ⟨⟨h1, h2, h3⟩, ⟨h4, h5, h6⟩, -, -⟩ := hw
    simp only [IntVec.zero_x, IntVec.zero_y, IntVec.zero_z] at *
    positivity
  simp only
  rw [Int.tmod_eq_emod_of_nonneg h]
  omega

end MaskIt
end SpatialOps
