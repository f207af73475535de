import Verif.MaskView.Spec
import Verif.Mask.Props
import Verif.Geometry.Props

/-!
# Lemmas about views of masks
-/

namespace SpatialOps.MaskView
open SpatialOps SpatialOps.Nebo

/-- `v` is a view of the mask `m`: it shares everything but the window and the valid ghosts. -/
structure IsView (m v : SMask) : Prop where
  interior : v.interior = m.interior
  bc : v.bc = m.bc
  ghosts : v.ghosts = m.ghosts
  points : v.points = m.points
  bits : v.bits = m.bits
  npts : v.window.npts = m.window.npts

theorem IsView.refl (m : SMask) : IsView m m := ⟨rfl, rfl, rfl, rfl, rfl, rfl⟩

theorem IsView.trans {a b c : SMask} (h : IsView a b) (g : IsView b c) : IsView a c :=
  ⟨g.interior.trans h.interior, g.bc.trans h.bc, g.ghosts.trans h.ghosts, g.points.trans h.points,
    g.bits.trans h.bits, g.npts.trans h.npts⟩

/-- What the construction of a mask gives. -/
theorem make_eq {f : FieldGeo} (hf : GoodField f) (points : List IntVec)
    (hin : ∀ p ∈ points, InGhosted f.interior f.validGhosts p) :
    ∃ b, BitField.build points f.interior f.validGhosts = .ok b ∧ b.Wf f.interior f.validGhosts ∧
      SMask.make f points = .ok ⟨f.window, f.interior, f.bc, f.ghosts, f.validGhosts, points, b⟩ := by
  have hr := C11_field_mask_region f hf.fits hf.grown hf.valid
  obtain ⟨b, e, hb, -⟩ := BitField.build_eq hr points hin
  refine ⟨b, e, hb, ?_⟩
  unfold SMask.make
  rw [GhostData.copy_ok hf.all, Outcome.ok_bind, GhostData.copy_ok hf.valid, Outcome.ok_bind, e, Outcome.ok_bind]
  rfl

theorem windowCopy_eq {m : SMask} (hg : m.ghosts.Valid) (hb : m.bits.ghosts.Valid) (w : Window)
    (hn : w.npts = m.window.npts) :
    (Inside w → SMask.windowCopy w m = .ok { m with window := w, validGhosts := m.ghosts }) ∧
    (¬ Inside w → SMask.windowCopy w m = .abort) := by
  unfold SMask.windowCopy
  rw [GhostData.copy_ok hg, Outcome.ok_bind, Outcome.ok_bind, GhostData.copy_ok hb, Outcome.ok_bind, ← hn]
  constructor
  · intro h
    rw [Outcome.assert_true (by unfold Inside at h; unfold Window.sanityCheck; iv_omega), Outcome.ok_bind,
      Outcome.assert_true (by unfold Inside at h; iv_omega), Outcome.ok_bind,
      Outcome.assert_true (by unfold Inside at h; iv_omega), Outcome.ok_bind,
      Outcome.assert_true (by unfold Inside at h; iv_omega), Outcome.ok_bind,
      Outcome.assert_true (by unfold Inside at h; iv_omega), Outcome.ok_bind,
      Outcome.assert_true (by unfold Inside at h; iv_omega), Outcome.ok_bind,
      Outcome.assert_true (by unfold Inside at h; iv_omega), Outcome.ok_bind]
    rfl
  · intro h
    by_cases c0 : w.sanityCheck
    swap
    · rw [Outcome.assert_false c0]; rfl
    rw [Outcome.assert_true c0, Outcome.ok_bind]
    by_cases c1 : w.extent.x + w.offset.x ≤ w.npts.x
    swap
    · rw [Outcome.assert_false c1]; rfl
    rw [Outcome.assert_true c1, Outcome.ok_bind]
    by_cases c2 : w.offset.x < w.npts.x
    swap
    · rw [Outcome.assert_false c2]; rfl
    rw [Outcome.assert_true c2, Outcome.ok_bind]
    by_cases c3 : w.extent.y + w.offset.y ≤ w.npts.y
    swap
    · rw [Outcome.assert_false c3]; rfl
    rw [Outcome.assert_true c3, Outcome.ok_bind]
    by_cases c4 : w.offset.y < w.npts.y
    swap
    · rw [Outcome.assert_false c4]; rfl
    rw [Outcome.assert_true c4, Outcome.ok_bind]
    by_cases c5 : w.extent.z + w.offset.z ≤ w.npts.z
    swap
    · rw [Outcome.assert_false c5]; rfl
    rw [Outcome.assert_true c5, Outcome.ok_bind]
    by_cases c6 : w.offset.z < w.npts.z
    swap
    · rw [Outcome.assert_false c6]; rfl
    exfalso
    apply h
    unfold Inside
    unfold Window.sanityCheck at c0
    iv_omega

theorem reshape_eq {m : SMask} (hg : m.ghosts.Valid) (hb : m.bits.ghosts.Valid) (e s : IntVec) :
    (Inside (shifted m.window [(e, s)]) →
      m.reshape e s = .ok { m with window := shifted m.window [(e, s)], validGhosts := m.ghosts }) ∧
    (¬ Inside (shifted m.window [(e, s)]) → m.reshape e s = .abort) := by
  have hs : shifted m.window [(e, s)] = ⟨m.window.npts, m.window.offset + s, m.window.extent + e⟩ := by
    simp only [shifted, List.map_cons, List.map_nil, List.sum_cons, List.sum_nil]
    congr 1 <;> (ext <;> simp)
  rw [hs]
  have h := windowCopy_eq hg hb ⟨m.window.npts, m.window.offset + s, m.window.extent + e⟩ rfl
  unfold SMask.reshape
  constructor
  · intro hi
    rw [Window.make_ok (by unfold Inside at hi; unfold Window.sanityCheck; iv_omega), Outcome.ok_bind]
    exact h.1 hi
  · intro hi
    by_cases c : Window.sanityCheck ⟨m.window.npts, m.window.offset + s, m.window.extent + e⟩
    · rw [Window.make_ok c, Outcome.ok_bind]
      exact h.2 hi
    · rw [Window.make_abort c]; rfl

theorem shifted_cons (w : Window) (r : IntVec × IntVec) (rs : List (IntVec × IntVec)) :
    shifted w (r :: rs) = shifted (shifted w [r]) rs := by
  simp only [shifted, List.map_cons, List.map_nil, List.sum_cons, List.sum_nil]
  congr 1 <;> (ext <;> simp <;> omega)

/-- A chain of reshapes that is accepted is a view with the shifted window. -/
theorem reshapes_inv (rs : List (IntVec × IntVec)) : ∀ {m v : SMask}, m.ghosts.Valid → m.bits.ghosts.Valid →
    m.reshapes rs = .ok v → IsView m v ∧ v.window = shifted m.window rs ∧
      (rs ≠ [] → Inside v.window ∧ v.validGhosts = m.ghosts) := by
  induction rs with
  | nil =>
    intro m v _ _ h
    injection h with h
    subst h
    refine ⟨.refl _, ?_, fun h => absurd rfl h⟩
    simp only [shifted, List.map_nil, List.sum_nil]
    cases hw : m.window with
    | mk a b c => congr 1 <;> (ext <;> simp)
  | cons r rs ih =>
    intro m v hg hb h
    unfold SMask.reshapes at h
    have hr := reshape_eq (m := m) hg hb r.1 r.2
    by_cases hi : Inside (shifted m.window [(r.1, r.2)])
    · rw [hr.1 hi, Outcome.ok_bind] at h
      obtain ⟨h1, h2, h3⟩ := ih (m := { m with window := shifted m.window [(r.1, r.2)], validGhosts := m.ghosts })
        hg hb h
      refine ⟨⟨h1.interior, h1.bc, h1.ghosts, h1.points, h1.bits, h1.npts⟩, ?_, fun _ => ?_⟩
      · rw [h2, shifted_cons m.window r rs]
      · by_cases hrs : rs = []
        · subst hrs
          injection h with h
          subst h
          exact ⟨hi, rfl⟩
        · exact h3 hrs
    · rw [hr.2 hi] at h; cases h

/-- Reading a view by its iterator. -/
theorem view_reads {f : FieldGeo} (hf : GoodField f) {points : List IntVec}
    (hin : ∀ p ∈ points, InGhosted f.interior f.validGhosts p) {b : BitField}
    (hb : BitField.build points f.interior f.validGhosts = .ok b) {w : Window} (hw : w.Fits)
    (hn : w.npts = f.window.npts) (he : w.Nonempty) (k : Nat) (hk : (k : Int) ≤ w.localNpts) :
    ∃ it, (MaskIt.start w).run (List.replicate k .inc) = .ok it ∧
      ((k : Int) < w.localNpts → ∃ loc, IsNthCell w.extent k loc ∧
        it.deref b.words = .ok (decide (w.offset + loc - f.interior.offset ∈ points))) := by
  have hr := C11_field_mask_region f hf.fits hf.grown hf.valid
  have hs := staysIn_replicate_inc (n := w.localNpts) k (k := 0) (by omega) (by omega)
  obtain ⟨m, it, e, r, hval, -⟩ :=
    C12_iteration_values f.interior f.validGhosts hr points hin w hw he (hn.trans hf.grown.1) _ hs
  rw [hb] at e
  injection e with e
  subst e
  rw [endPos_replicate_inc, Int.zero_add] at hval
  refine ⟨it, r, fun hlt => ?_⟩
  obtain ⟨loc, hl, hd⟩ := hval hlt
  refine ⟨loc, hl, ?_⟩
  rw [hd]
  congr 1
  rw [decide_eq_decide]
  have hsub : ∀ p : IntVec, f.interior.offset + p = w.offset + loc ↔
      p = w.offset + loc - f.interior.offset := by
    intro p
    constructor
    · intro h; rw [← h]; ext <;> simp
    · intro h; rw [h]; ext <;> simp
  constructor
  · rintro ⟨p, hp, h⟩; rw [← (hsub p).1 h]; exact hp
  · intro h; exact ⟨_, h, (hsub _).2 rfl⟩

theorem run_append (i : MaskIt) (a b : List It.Op) : i.run (a ++ b) = i.run a >>= fun j => j.run b := by
  induction a generalizing i with
  | nil => rfl
  | cons o os ih =>
    simp only [List.cons_append, MaskIt.run]
    cases i.step o with
    | ok j => simp only [Outcome.ok_bind]; exact ih j
    | abort => rfl
    | throws => rfl
    | ub => rfl

theorem run_succ {w : Window} {k : Nat} {it : MaskIt}
    (h : (MaskIt.start w).run (List.replicate k .inc) = .ok it) :
    (MaskIt.start w).run (List.replicate (k + 1) .inc) = .ok it.inc := by
  rw [List.replicate_succ', run_append, h]
  rfl

/-- The loop over a window from position `k` on, by the cells still to come. -/
theorem traverse_from {m : SMask} {w : Window} {N : Nat} {last : MaskIt}
    {val : Nat → Bool}
    (hend : ∀ k ≤ N, ∀ it, (MaskIt.start w).run (List.replicate k .inc) = .ok it → (it.eqOp last = true ↔ k = N))
    (hval : ∀ k < N, ∀ it, (MaskIt.start w).run (List.replicate k .inc) = .ok it → m.deref it = .ok (val k)) :
    ∀ (n k : Nat) (it : MaskIt), k + n = N → (MaskIt.start w).run (List.replicate k .inc) = .ok it →
      m.traverse last n it = .ok ((List.range' k n).map val, true) := by
  intro n
  induction n with
  | zero =>
    intro k it hk hr
    have := (hend k (by omega) it hr).2 (by omega)
    simp [SMask.traverse, this]
  | succ n ih =>
    intro k it hk hr
    have h1 : it.eqOp last = false := by
      cases hq : it.eqOp last with
      | false => rfl
      | true => have := (hend k (by omega) it hr).1 hq; omega
    unfold SMask.traverse
    rw [h1, hval k (by omega) it hr, Outcome.ok_bind, ih (k + 1) it.inc (by omega) (run_succ hr), Outcome.ok_bind]
    simp [List.range'_succ]

end SpatialOps.MaskView
