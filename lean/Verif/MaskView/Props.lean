import Verif.MaskView.Lemmas

/-!
# Property C92: views of masks
-/

namespace SpatialOps.MaskView
open SpatialOps SpatialOps.Nebo

theorem of_assert_ok {p : Prop} [Decidable p] {u : Unit} (h : Outcome.assert p = .ok u) : p := by
  by_cases c : p
  · exact c
  · rw [Outcome.assert_false c] at h; cases h

/-- C92 (acceptance). A mask can be reshaped exactly to the windows that lie in its block and begin
before its end; any other request fails an assertion. This is the rule for its prototype field too,
and the two reshaped windows are the same. -/
theorem _root_.SpatialOps.C92_accepted (f : FieldGeo) (hf : GoodField f) (points : List IntVec)
    (hin : ∀ p ∈ points, InGhosted f.interior f.validGhosts p) (e s : IntVec) :
    ∃ m, SMask.make f points = .ok m ∧
      ((∃ v, m.reshape e s = .ok v) ↔ Inside ⟨f.window.npts, f.window.offset + s, f.window.extent + e⟩) ∧
      ((∃ v, m.reshape e s = .ok v) ↔ ∃ r, f.reshape false e s = .ok r) ∧
      (∀ v r, m.reshape e s = .ok v → f.reshape false e s = .ok r → v.window = r.window) ∧
      ((¬ ∃ v, m.reshape e s = .ok v) → m.reshape e s = .abort) := by
  obtain ⟨b, hb, hwf, hm⟩ := make_eq hf points hin
  refine ⟨_, hm, ?_⟩
  have h := reshape_eq (m := ⟨f.window, f.interior, f.bc, f.ghosts, f.validGhosts, points, b⟩) hf.all
    (by rw [hwf.gh]; exact hf.valid) e s
  have hs : shifted f.window [(e, s)] = ⟨f.window.npts, f.window.offset + s, f.window.extent + e⟩ := by
    simp only [shifted, List.map_cons, List.map_nil, List.sum_cons, List.sum_nil]
    congr 1 <;> (ext <;> simp)
  simp only [hs] at h
  have hfld : (Inside ⟨f.window.npts, f.window.offset + s, f.window.extent + e⟩ →
      ∃ r, f.reshape false e s = .ok r ∧
        r.window = ⟨f.window.npts, f.window.offset + s, f.window.extent + e⟩) ∧
      (¬ Inside ⟨f.window.npts, f.window.offset + s, f.window.extent + e⟩ → ¬ ∃ r, f.reshape false e s = .ok r) := by
    unfold FieldGeo.reshape FieldGeo.windowCopy FieldGeo.singleValueCheck
    rw [GhostData.copy_ok hf.all]
    constructor
    · intro hi
      rw [Window.make_ok (by unfold Inside at hi; unfold Window.sanityCheck; iv_omega)]
      simp only [Outcome.ok_bind]
      rw [Outcome.throwIf_false (by simp), Outcome.ok_bind, Outcome.throwIf_false (by simp), Outcome.ok_bind,
        Outcome.assert_true (by unfold Inside at hi; unfold Window.sanityCheck; iv_omega), Outcome.ok_bind,
        Outcome.assert_true (by unfold Inside at hi; iv_omega), Outcome.ok_bind,
        Outcome.assert_true (by unfold Inside at hi; iv_omega), Outcome.ok_bind,
        Outcome.assert_true (by unfold Inside at hi; iv_omega), Outcome.ok_bind]
      exact ⟨_, rfl, rfl⟩
    · rintro hi ⟨r, hr⟩
      apply hi
      simp only [Outcome.bind_eq_ok] at hr
      obtain ⟨w, hw, g, hg, _, _, _, h1, _, h2, _, h3, _, h4, _⟩ := hr
      have hwe : w = ⟨f.window.npts, f.window.offset + s, f.window.extent + e⟩ ∧
          Window.sanityCheck ⟨f.window.npts, f.window.offset + s, f.window.extent + e⟩ := by
        by_cases c : Window.sanityCheck ⟨f.window.npts, f.window.offset + s, f.window.extent + e⟩
        · rw [Window.make_ok c] at hw
          injection hw with hw
          exact ⟨hw.symm, c⟩
        · rw [Window.make_abort c] at hw; cases hw
      obtain ⟨rfl, hc⟩ := hwe
      have k2 := of_assert_ok h2
      have k3 := of_assert_ok h3
      have k4 := of_assert_ok h4
      unfold Inside
      unfold Window.sanityCheck at hc
      iv_omega
  by_cases hi : Inside ⟨f.window.npts, f.window.offset + s, f.window.extent + e⟩
  · obtain ⟨r, hr, hrw⟩ := hfld.1 hi
    refine ⟨⟨fun _ => hi, fun _ => ⟨_, h.1 hi⟩⟩, ⟨fun _ => ⟨r, hr⟩, fun _ => ⟨_, h.1 hi⟩⟩, ?_, fun hn => absurd ⟨_, h.1 hi⟩ hn⟩
    intro v r' hv hr'
    rw [h.1 hi] at hv
    rw [hr] at hr'
    injection hv with hv
    injection hr' with hr'
    subst hv; subst hr'
    exact hrw.symm
  · have hab := h.2 hi
    refine ⟨⟨fun ⟨v, hv⟩ => ?_, fun h => absurd h hi⟩, ⟨fun ⟨v, hv⟩ => ?_, fun h => absurd h (hfld.2 hi)⟩, ?_, fun _ => hab⟩
    · rw [hab] at hv; cases hv
    · rw [hab] at hv; cases hv
    · intro v r hv; rw [hab] at hv; cases hv

/-- C92 (contents). However often a mask is reshaped, the view has the window moved by the sum of the
shifts and enlarged by the sum of the modifications. Traversing it from `begin()` to `end()` reads one
value for every cell, in order, and the value is true exactly if the cell, counted from the interior of
the field the mask was made for, is one of the points the mask was made of. -/
theorem _root_.SpatialOps.C92_contents (f : FieldGeo) (hf : GoodField f) (points : List IntVec)
    (hin : ∀ p ∈ points, InGhosted f.interior f.validGhosts p) (rs : List (IntVec × IntVec)) :
    ∃ m, SMask.make f points = .ok m ∧ ∀ v, m.reshapes rs = .ok v →
      v.window = ⟨f.window.npts, f.window.offset + (rs.map Prod.snd).sum, f.window.extent + (rs.map Prod.fst).sum⟩ ∧
      v.window.Fits ∧
      (v.window.Nonempty → ∃ fin l, v.end' = .ok fin ∧ fin.diff v.begin' = v.window.localNpts ∧
        v.traverse fin v.window.localNpts.toNat v.begin' = .ok (l, true) ∧
        (l.length : Int) = v.window.localNpts ∧
        ∀ (k : Nat) (loc : IntVec), IsNthCell v.window.extent k loc →
          l[k]? = some (decide (v.window.offset + loc - f.interior.offset ∈ points))) := by
  obtain ⟨b, hb, hwf, hm⟩ := make_eq hf points hin
  refine ⟨_, hm, fun v hv => ?_⟩
  obtain ⟨hview, hwin, hins⟩ := reshapes_inv rs
    (m := ⟨f.window, f.interior, f.bc, f.ghosts, f.validGhosts, points, b⟩) hf.all
    (by rw [hwf.gh]; exact hf.valid) hv
  have hfits : v.window.Fits := by
    by_cases hr : rs = []
    · subst hr
      injection hv with hv
      subst hv
      exact hf.fits
    · exact (hins hr).1.1
  refine ⟨hwin, hfits, fun hne => ?_⟩
  have hnp : v.window.npts = f.window.npts := hview.npts
  have hN0 : 0 ≤ v.window.localNpts := by
    obtain ⟨e0, e1, e2⟩ := hne
    simp only [IntVec.zero_x, IntVec.zero_y, IntVec.zero_z] at e0 e1 e2
    unfold Window.localNpts; positivity
  obtain ⟨N, hN⟩ := Int.eq_ofNat_of_zero_le hN0
  obtain ⟨it0, fin, r0, -, hfin, -, hdiff⟩ := C12_history_independent v.window hfits hne [] trivial
  have hit0 : MaskIt.start v.window = it0 := by injection r0
  have hend : ∀ k ≤ N, ∀ it, (MaskIt.start v.window).run (List.replicate k .inc) = .ok it →
      (it.eqOp fin = true ↔ k = N) := by
    intro k hk it hr
    obtain ⟨it', fin', r1, -, hf', hq, -⟩ := C12_history_independent v.window hfits hne (List.replicate k .inc)
      (staysIn_replicate_inc (n := v.window.localNpts) k (k := 0) (by omega) (by omega))
    rw [hr] at r1
    rw [hfin] at hf'
    injection r1 with r1
    injection hf' with hf'
    subst r1; subst hf'
    rw [hq, endPos_replicate_inc]
    omega
  have hbits : v.bits = b := hview.bits
  have hval : ∀ k < N, ∃ bv, ∀ it, (MaskIt.start v.window).run (List.replicate k .inc) = .ok it →
      v.deref it = .ok bv ∧ ∃ loc, IsNthCell v.window.extent k loc ∧
        bv = decide (v.window.offset + loc - f.interior.offset ∈ points) := by
    intro k hk
    obtain ⟨it, hr, h⟩ := view_reads hf hin hb hfits hnp hne k (by omega)
    obtain ⟨loc, hl, hd⟩ := h (by omega)
    refine ⟨decide (v.window.offset + loc - f.interior.offset ∈ points), fun it' hr' => ?_⟩
    rw [hr] at hr'
    injection hr' with hr'
    subst hr'
    unfold SMask.deref
    rw [hbits]
    exact ⟨hd, loc, hl, rfl⟩
  choose! val hval using hval
  refine ⟨fin, (List.range' 0 N).map val, hfin, ?_, ?_, ?_, ?_⟩
  · rw [← show it0 = v.begin' from hit0.symm, hdiff]; simp [It.endPos]
  · rw [hN]
    exact traverse_from hend (fun k hk it hr => (hval k hk it hr).1) N 0 v.begin' (by omega) rfl
  · simp [hN]
  · intro k loc hl
    have hk : (k : Int) < v.window.localNpts := by rw [← hl.2]; exact (fortranPos_bound hl.1).2
    obtain ⟨it, hr, -⟩ := view_reads hf hin hb hfits hnp hne k (by omega)
    obtain ⟨-, loc', hl', hv'⟩ := hval k (by omega) it hr
    have hll : loc' = loc := fortranPos_inj hl'.1 hl.1 (hl'.2.trans hl.2.symm)
    subst hll
    rw [List.getElem?_map, List.getElem?_range' (by omega)]
    simp [hv']

/-- C92 (indexing). A view and a copy answer for an index exactly what the mask answers, and their
interior is traversed as that of the mask: indices are counted from the interior of the original
field, not from the beginning of the view. -/
theorem _root_.SpatialOps.C92_indexing (f : FieldGeo) (hf : GoodField f) (points : List IntVec)
    (hin : ∀ p ∈ points, InGhosted f.interior f.validGhosts p) (rs : List (IntVec × IntVec)) :
    ∃ m c, SMask.make f points = .ok m ∧ m.copy = .ok c ∧ ∀ v, (v = c ∨ m.reshapes rs = .ok v) →
      (∀ p, InGhosted f.interior f.validGhosts p → v.at' p = .ok (decide (p ∈ points))) ∧
      (∀ p, ¬ InGhosted f.interior f.validGhosts p → v.at' p = .abort) ∧
      v.interiorBegin = m.interiorBegin ∧ v.interiorEnd = m.interiorEnd ∧ (∀ it, v.deref it = m.deref it) := by
  obtain ⟨b, hb, hwf, hm⟩ := make_eq hf points hin
  have hbg : b.ghosts.Valid := by rw [hwf.gh]; exact hf.valid
  have hc : SMask.copy ⟨f.window, f.interior, f.bc, f.ghosts, f.validGhosts, points, b⟩ =
      .ok ⟨f.window, f.interior, f.bc, f.ghosts, f.validGhosts, points, b⟩ := by
    unfold SMask.copy
    rw [GhostData.copy_ok hf.all, Outcome.ok_bind, GhostData.copy_ok hf.valid, Outcome.ok_bind,
      GhostData.copy_ok hbg, Outcome.ok_bind]
    rfl
  refine ⟨_, _, hm, hc, fun v hv => ?_⟩
  have hview : IsView ⟨f.window, f.interior, f.bc, f.ghosts, f.validGhosts, points, b⟩ v := by
    rcases hv with rfl | hv
    · exact .refl _
    · exact (reshapes_inv rs (by exact hf.all) (by exact hbg) hv).1
  have hr := C11_field_mask_region f hf.fits hf.grown hf.valid
  obtain ⟨m', e', h1, h2⟩ := C11_mask_is_point_list f.interior f.validGhosts hr points hin
  rw [hb] at e'
  injection e' with e'
  subst e'
  have hbits : v.bits = b := hview.bits
  have hint : v.interior = f.interior := hview.interior
  refine ⟨fun p hp => ?_, fun p hp => ?_, ?_, ?_, fun it => ?_⟩
  · unfold SMask.at'; rw [hbits]; exact h1 p hp
  · unfold SMask.at'; rw [hbits]; exact h2 p hp
  · unfold SMask.interiorBegin; rw [hint]
  · unfold SMask.interiorEnd; rw [hint]
  · unfold SMask.deref; rw [hbits]

theorem trunc_toInt (n : Int) (h : -2147483648 ≤ n ∧ n < 2147483648) :
    (((BitVec.ofInt 64 n).truncate 32).toInt) = n := by
  rw [BitVec.truncate_eq_setWidth, BitVec.toInt_setWidth, BitVec.toNat_ofInt]
  simp only [Int.bmod]
  omega

/-- C92 (indices given as unsigned numbers). The form of `operator()` with three unsigned 64-bit
arguments gives for an `int` converted to its argument type, negative or not, what the form with an
`IntVec` gives; so the ghost cells of negative faces can be addressed with it too. -/
theorem _root_.SpatialOps.C92_unsigned_index (m : SMask) (p : IntVec)
    (hx : -2147483648 ≤ p.x ∧ p.x < 2147483648) (hy : -2147483648 ≤ p.y ∧ p.y < 2147483648)
    (hz : -2147483648 ≤ p.z ∧ p.z < 2147483648) :
    m.at3 (BitVec.ofInt 64 p.x) (BitVec.ofInt 64 p.y) (BitVec.ofInt 64 p.z) = m.at' p := by
  unfold SMask.at3
  rw [trunc_toInt _ hx, trunc_toInt _ hy, trunc_toInt _ hz]

/-- C92 (composition). Two reshapes in turn are one by the sums, where both are accepted. -/
theorem _root_.SpatialOps.C92_composition (f : FieldGeo) (hf : GoodField f) (points : List IntVec)
    (hin : ∀ p ∈ points, InGhosted f.interior f.validGhosts p) (e₁ s₁ e₂ s₂ : IntVec) :
    ∃ m, SMask.make f points = .ok m ∧ ∀ v u, m.reshape e₁ s₁ = .ok v → v.reshape e₂ s₂ = .ok u →
      m.reshape (e₁ + e₂) (s₁ + s₂) = .ok u := by
  obtain ⟨b, hb, hwf, hm⟩ := make_eq hf points hin
  have hbg : b.ghosts.Valid := by rw [hwf.gh]; exact hf.valid
  refine ⟨_, hm, fun v u hv hu => ?_⟩
  have h1 := reshape_eq (m := ⟨f.window, f.interior, f.bc, f.ghosts, f.validGhosts, points, b⟩) hf.all hbg e₁ s₁
  by_cases hi : Inside (shifted f.window [(e₁, s₁)])
  swap
  · rw [h1.2 hi] at hv; cases hv
  rw [h1.1 hi] at hv
  injection hv with hv
  subst hv
  have h2 := reshape_eq (m := ⟨shifted f.window [(e₁, s₁)], f.interior, f.bc, f.ghosts, f.ghosts, points, b⟩) hf.all hbg e₂ s₂
  by_cases hi2 : Inside (shifted (shifted f.window [(e₁, s₁)]) [(e₂, s₂)])
  swap
  · rw [h2.2 hi2] at hu; cases hu
  rw [h2.1 hi2] at hu
  injection hu with hu
  subst hu
  have h3 := reshape_eq (m := ⟨f.window, f.interior, f.bc, f.ghosts, f.validGhosts, points, b⟩) hf.all hbg
    (e₁ + e₂) (s₁ + s₂)
  have hsh : shifted f.window [(e₁ + e₂, s₁ + s₂)] = shifted (shifted f.window [(e₁, s₁)]) [(e₂, s₂)] := by
    simp only [shifted, List.map_cons, List.map_nil, List.sum_cons, List.sum_nil]
    congr 1 <;> (ext <;> simp <;> omega)
  rw [← hsh] at hi2 ⊢
  exact h3.1 hi2

/-- C92 (the expression library). Where an expression reshapes a mask, the model of expressions used
for C21 to C26 takes the same window and words as the mask's own `reshape`. -/
theorem _root_.SpatialOps.C92_expressions (f : FieldGeo) (hf : GoodField f) (points : List IntVec)
    (hin : ∀ p ∈ points, InGhosted f.interior f.validGhosts p) (e s : IntVec) :
    ∃ m, SMask.make f points = .ok m ∧
      ((∃ v, m.reshape e s = .ok v) ↔ ∃ g, m.toObj.geo.reshape false e s = .ok g) ∧
      ∀ v g, m.reshape e s = .ok v → m.toObj.geo.reshape false e s = .ok g →
        v.toObj = { m.toObj with geo := { g with disableInterior := false } } := by
  obtain ⟨b, hb, hwf, hm⟩ := make_eq hf points hin
  obtain ⟨m', hm', h1, h2, h3, h4⟩ := C92_accepted
    ⟨f.window, f.interior, f.bc, f.ghosts, f.validGhosts, false⟩
    ⟨hf.fits, hf.grown, hf.valid, hf.all⟩ points hin e s
  have : SMask.make ⟨f.window, f.interior, f.bc, f.ghosts, f.validGhosts, false⟩ points = SMask.make f points := rfl
  rw [this, hm] at hm'
  injection hm' with hm'
  subst hm'
  refine ⟨_, hm, h2, fun v g hv hg => ?_⟩
  have hw := h3 v g hv hg
  have hre := reshape_eq (m := ⟨f.window, f.interior, f.bc, f.ghosts, f.validGhosts, points, b⟩) hf.all
    (by rw [hwf.gh]; exact hf.valid) e s
  by_cases hi : Inside (shifted f.window [(e, s)])
  swap
  · rw [hre.2 hi] at hv; cases hv
  rw [hre.1 hi] at hv
  injection hv with hv
  subst hv
  unfold FieldGeo.reshape FieldGeo.windowCopy at hg
  simp only [Outcome.bind_eq_ok] at hg
  obtain ⟨w, _, g', hg', _, _, _, _, _, _, _, _, _, _, hlast⟩ := hg
  have hgg : g' = f.ghosts := by
    have : GhostData.copy f.ghosts = .ok g' := hg'
    rw [GhostData.copy_ok hf.all] at this
    injection this with this
    exact this.symm
  injection hlast with hlast
  subst hlast
  subst hgg
  simp only at hw
  subst hw
  rfl

/-- C92 (empty views). A view without cells in the first or second direction is accepted, but asking
for its `end()` divides by zero. -/
theorem _root_.SpatialOps.C92_empty_view (f : FieldGeo) (hf : GoodField f) (points : List IntVec)
    (hin : ∀ p ∈ points, InGhosted f.interior f.validGhosts p) (e s : IntVec)
    (hi : Inside ⟨f.window.npts, f.window.offset + s, f.window.extent + e⟩)
    (h0 : (f.window.extent + e).x = 0 ∨ (f.window.extent + e).y = 0) :
    ∃ m v, SMask.make f points = .ok m ∧ m.reshape e s = .ok v ∧ v.end' = .ub := by
  obtain ⟨b, hb, hwf, hm⟩ := make_eq hf points hin
  have hre := reshape_eq (m := ⟨f.window, f.interior, f.bc, f.ghosts, f.validGhosts, points, b⟩) hf.all
    (by rw [hwf.gh]; exact hf.valid) e s
  have hs : shifted f.window [(e, s)] = ⟨f.window.npts, f.window.offset + s, f.window.extent + e⟩ := by
    simp only [shifted, List.map_cons, List.map_nil, List.sum_cons, List.sum_nil]
    congr 1 <;> (ext <;> simp)
  refine ⟨_, _, hm, hre.1 (by rw [hs]; exact hi), ?_⟩
  unfold SMask.end' MaskIt.finish
  simp only [hs]
  have hz : (f.window.extent + e).x * (f.window.extent + e).y * (f.window.extent + e).z = 0 := by
    rcases h0 with h | h <;> simp only [h, Int.zero_mul, Int.mul_zero]
  rw [hz]
  unfold MaskIt.addAssign
  rw [if_neg (by omega), Outcome.ubUnless_false]
  · rfl
  · simp only [MaskIt.start]
    rcases h0 with h | h <;> simp [h]

/-- C92 (deviation). A view reports all ghosts of the original field as valid, even where the mask has
fewer and refuses the indices in question: reshaping by nothing changes the reported ghosts. -/
theorem _root_.SpatialOps.C92_valid_ghosts_reset (f : FieldGeo) (hf : GoodField f) (points : List IntVec)
    (hin : ∀ p ∈ points, InGhosted f.interior f.validGhosts p) (hi : IntVec.Lt f.window.offset f.window.npts) :
    ∃ m v, SMask.make f points = .ok m ∧ m.reshape 0 0 = .ok v ∧ v.window = m.window ∧
      m.validGhosts = f.validGhosts ∧ v.validGhosts = f.ghosts ∧
      (∀ p, InGhosted f.interior f.ghosts p → ¬ InGhosted f.interior f.validGhosts p → v.at' p = .abort) := by
  obtain ⟨b, hb, hwf, hm⟩ := make_eq hf points hin
  have hbg : b.ghosts.Valid := by rw [hwf.gh]; exact hf.valid
  have hre := reshape_eq (m := ⟨f.window, f.interior, f.bc, f.ghosts, f.validGhosts, points, b⟩) hf.all hbg 0 0
  have hs : shifted f.window [(0, 0)] = f.window := by
    simp only [shifted, List.map_cons, List.map_nil, List.sum_cons, List.sum_nil]
    cases hw : f.window with
    | mk a b c => congr 1 <;> (ext <;> simp)
  simp only [hs] at hre
  have hv := hre.1 ⟨hf.fits, hi⟩
  obtain ⟨m', c', hm', -, h⟩ := C92_indexing f hf points hin [(0, 0)]
  rw [hm] at hm'
  injection hm' with hm'
  subst hm'
  refine ⟨_, _, hm, hv, rfl, rfl, rfl, fun p _ hp => ?_⟩
  exact (h _ (.inr (by simp only [SMask.reshapes, hv, Outcome.ok_bind]))).2.1 p hp

/-! Hypotheses met: a 6 by 7 by 1 allocation of which only the minus ghosts of the first direction and
all of the second are valid, with three points, one of them a ghost cell; views of it. -/

/-- The field of the examples. -/
def exF : FieldGeo :=
  ⟨⟨⟨6, 7, 3⟩, ⟨1, 0, 0⟩, ⟨4, 7, 3⟩⟩, ⟨⟨6, 7, 3⟩, ⟨1, 1, 0⟩, ⟨4, 5, 3⟩⟩, BcInfo.build false false false 0,
    ⟨⟨1, 1, 0⟩, ⟨1, 1, 0⟩, false⟩, ⟨⟨0, 1, 0⟩, ⟨0, 1, 0⟩, false⟩, false⟩

theorem exF_good : GoodField exF := ⟨by decide, by unfold FieldGeo.GrownBy; decide, by decide, by decide⟩

example : (∀ p ∈ [(⟨0, -1, 0⟩ : IntVec), ⟨3, 5, 2⟩, ⟨2, 2, 1⟩], InGhosted exF.interior exF.validGhosts p) ∧
    Inside ⟨exF.window.npts, exF.window.offset + ⟨-1, 2, 1⟩, exF.window.extent + ⟨2, -3, -1⟩⟩ ∧
    ¬ Inside ⟨exF.window.npts, exF.window.offset + ⟨-1, 2, 1⟩, exF.window.extent + ⟨2, -1, -1⟩⟩ ∧
    Inside ⟨exF.window.npts, exF.window.offset + 0, exF.window.extent + ⟨-4, 0, 0⟩⟩ ∧
    IntVec.Lt exF.window.offset exF.window.npts ∧
    InGhosted exF.interior exF.ghosts ⟨-1, 0, 0⟩ ∧ ¬ InGhosted exF.interior exF.validGhosts ⟨-1, 0, 0⟩ := by decide

/-- A view of two reshapes reads its second and third points, in the expected places. -/
example : ∃ m v fin, SMask.make exF [⟨0, -1, 0⟩, ⟨3, 5, 2⟩, ⟨2, 2, 1⟩] = .ok m ∧
    m.reshapes [(⟨0, -4, -1⟩, ⟨0, 4, 1⟩), (⟨-2, 0, 0⟩, ⟨2, 0, 0⟩)] = .ok v ∧ v.end' = .ok fin ∧
    v.traverse fin 12 v.begin' =
      .ok ([false, false, false, false, false, false, false, false, false, false, false, true], true) := by
  refine ⟨_, _, _, rfl, rfl, rfl, ?_⟩
  decide

end SpatialOps.MaskView
