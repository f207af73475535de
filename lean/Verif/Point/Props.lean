import Verif.Point.Spec
import Verif.Nebo.Assign

/-!
# Property C44: point operators
-/

namespace SpatialOps
namespace Point
open Nebo

section
variable {V : Type}

/-- Address of point `k`. -/
def pt (f : FieldObj) (k : Nat) : Int := winAddr f.geo.window (nthLoc f.geo.window k)

theorem pt_at {f : FieldObj} {b : Nat} (h : Usable f b) {k : Nat} (hk : (k : Int) < f.geo.window.localNpts) :
    PointAt f k (pt f k) := by
  have := nthLoc_spec h.fits h.nonempty hk
  exact ⟨_, this.1, this.2, (Window.flatIndex_eq_ok h.fits this.1).1⟩

theorem at_pt {f : FieldObj} {b : Nat} (h : Usable f b) {k : Nat} {a : Int} (ha : PointAt f k a) :
    (k : Int) < f.geo.window.localNpts ∧ a = pt f k := by
  obtain ⟨loc, h1, h2, h3⟩ := ha
  have hb := fortranPos_bound h1
  have hk : (k : Int) < f.geo.window.localNpts := by unfold Window.localNpts; omega
  refine ⟨hk, ?_⟩
  have := nthCell_unique (nthLoc_spec h.fits h.nonempty hk) ⟨h1, h2⟩
  unfold pt
  rw [this]
  rw [(Window.flatIndex_eq_ok h.fits h1).1] at h3
  injection h3 with h3
  exact h3.symm

theorem pt_inj {f : FieldObj} {b : Nat} (h : Usable f b) {j k : Nat} (hj : (j : Int) < f.geo.window.localNpts)
    (hk : (k : Int) < f.geo.window.localNpts) (he : pt f j = pt f k) : j = k := by
  have h1 := nthLoc_spec h.fits h.nonempty hj
  have h2 := nthLoc_spec h.fits h.nonempty hk
  have := winAddr_inj h.fits h1.1 h2.1 he
  rw [this] at h1
  have a := h1.2
  have b := h2.2
  omega

theorem deref_pt {f : FieldObj} {b : Nat} (h : Usable f b) {k : Nat} (hk : (k : Int) < f.geo.window.localNpts) :
    (It.nth 0 f.geo.window k).deref = .ok (pt f k) :=
  (nth_deref h.fits h.nonempty (nthLoc_spec h.fits h.nonempty hk)).1

theorem beginC_ok {f : FieldObj} {b : Nat} (h : Usable f b) : f.beginC = .ok ⟨some b, It.start 0 f.geo.window⟩ := by
  unfold FieldObj.beginC
  rw [Outcome.throwIf_false (by simp [h.ram]), Outcome.ok_bind, h.block]
  rfl

theorem endC_ok {f : FieldObj} {b : Nat} (h : Usable f b) :
    f.endC = .ok ⟨some b, It.nth 0 f.geo.window f.geo.window.localNpts.toNat⟩ := by
  unfold FieldObj.endC
  rw [Outcome.throwIf_false (by simp [h.ram]), Outcome.ok_bind, It.finish_eq_nth h.nonempty, h.block]
  rfl

theorem beginM_ok {f : FieldObj} {b : Nat} (h : Usable f b) (hr : f.readOnly = false) :
    f.beginM = .ok ⟨some b, It.start 0 f.geo.window⟩ := by
  unfold FieldObj.beginM
  rw [Outcome.throwIf_false (by simp [h.ram]), Outcome.ok_bind, Outcome.throwIf_false (by simp [hr]), Outcome.ok_bind, h.block]
  rfl

theorem endM_ok {f : FieldObj} {b : Nat} (h : Usable f b) :
    f.endM = .ok ⟨some b, It.nth 0 f.geo.window f.geo.window.localNpts.toNat⟩ := by
  unfold FieldObj.endM
  rw [Outcome.throwIf_false (by simp [h.ram]), Outcome.ok_bind, It.finish_eq_nth h.nonempty, h.block]
  rfl

theorem subscriptM_ok {f : FieldObj} {b : Nat} (h : Usable f b) (hr : f.readOnly = false) (k : Int) :
    f.subscriptM k = .ok (b, k) := by
  unfold FieldObj.subscriptM
  rw [Outcome.throwIf_false (by simp [hr]), Outcome.ok_bind, Outcome.throwIf_false (by simp [h.ram]), Outcome.ok_bind, h.block]
  rfl

theorem subscriptC_ok {f : FieldObj} {b : Nat} (h : Usable f b) (k : Int) : f.subscriptC k = .ok (b, k) := by
  unfold FieldObj.subscriptC
  rw [if_neg (by simp [h.ram, h.block]), h.block]

/-! ## Putting points into a field -/

theorem put_fold (idx : List Nat) (bp bf : Nat) (hb : bp ≠ bf) (addr : Nat → Int) (body : Nat → Mem V × Nat → Outcome (Mem V × Nat))
    (n : Nat) (hn : n ≤ idx.length)
    (hbody : ∀ j (hj : j < n) (mm : Mem V), body j (mm, j) = .ok (mm.write bf (idx[j]) (mm bp (addr j)), j + 1)) (m : Mem V) :
    ∃ m', foldO body (List.range n) (m, 0) = .ok (m', n) ∧
      (∀ b a, (b ≠ bf ∨ ∀ j (_ : j < n), ((idx[j] : Nat) : Int) ≠ a) → m' b a = m b a) ∧
      (idx.Nodup → ∀ j (_ : j < n), m' bf (idx[j] : Nat) = m bp (addr j)) ∧
      ((∀ j (_ : j < n), m bp (addr j) = m bf (idx[j] : Nat)) → ∀ b a, m' b a = m b a) := by
  induction n with
  | zero => exact ⟨m, rfl, fun _ _ _ => rfl, fun _ _ h => by omega, fun _ _ _ => rfl⟩
  | succ n ih =>
    obtain ⟨m', h1, h2, h3, h4⟩ := ih (by omega) (fun j hj mm => hbody j (by omega) mm)
    refine ⟨m'.write bf (idx[n] : Nat) (m' bp (addr n)), ?_, ?_, ?_, ?_⟩
    · rw [List.range_succ, foldO_append, h1, Outcome.ok_bind]
      unfold foldO
      rw [hbody n (by omega), Outcome.ok_bind]
      rfl
    · intro b a h
      unfold Mem.write
      rw [if_neg, h2]
      · rcases h with h | h
        · exact Or.inl h
        · exact Or.inr fun j hj => h j (by omega)
      · rintro ⟨q1, q2⟩
        rcases h with h | h
        · exact h q1
        · exact h n (by omega) q2.symm
    · intro hnd j hj
      unfold Mem.write
      by_cases hjn : j = n
      · subst hjn
        rw [if_pos ⟨rfl, rfl⟩, h2 bp _ (Or.inl hb)]
      · rw [if_neg, h3 hnd j (by omega)]
        rintro ⟨-, q⟩
        exact hjn ((List.Nodup.getElem_inj_iff hnd).1 (by exact_mod_cast q))
    · intro hsame b a
      have hold := h4 fun j hj => hsame j (by omega)
      unfold Mem.write
      split_ifs with hq
      · obtain ⟨rfl, rfl⟩ := hq
        rw [hold, hsame n (by omega)]
      · exact hold b a

theorem put_ok {p f : FieldObj} {bp bf : Nat} (hp : Usable p bp) (hf : Usable f bf) (hr : f.readOnly = false) (hb : bp ≠ bf)
    {idx : List Nat} (hi : Matches idx p f) (m : Mem V) :
    ∃ m', pointToField idx p f m = .ok m' ∧
      (∀ b a, (b ≠ bf ∨ ∀ k ∈ idx, (k : Int) ≠ a) → m' b a = m b a) ∧
      (idx.Nodup → ∀ j (_ : j < idx.length), m' bf (idx[j] : Nat) = m bp (pt p j)) ∧
      ((∀ j (_ : j < idx.length), m bp (pt p j) = m bf (idx[j] : Nat)) → ∀ b a, m' b a = m b a) := by
  have hlen : p.geo.window.localNpts.toNat = idx.length := by have := hi.length; omega
  obtain ⟨m', h1, h2, h3, h4⟩ := put_fold idx bp bf hb (pt p) (fun k => (fun i (s : Mem V × Nat) => do
      let k ← indexAt idx s.2
      let d ← f.subscriptM k
      room f k
      let a ← i.deref
      return (s.1.write d.1 d.2 (s.1 bp a), s.2 + 1)) (It.nth 0 p.geo.window k)) idx.length (le_refl _) (by
    intro j hj mm
    dsimp only
    have e1 : indexAt idx j = .ok idx[j] := by
      unfold indexAt
      rw [List.getElem?_eq_getElem hj]
    rw [e1, Outcome.ok_bind, subscriptM_ok hf hr, Outcome.ok_bind]
    unfold room
    rw [Outcome.ubUnless_true (hi.inside _ (List.getElem_mem hj)), Outcome.ok_bind,
      deref_pt hp (by have := hi.length; omega), Outcome.ok_bind]
    rfl) m
  refine ⟨m', ?_, ?_, h3, h4⟩
  · unfold pointToField
    rw [beginC_ok hp, Outcome.ok_bind, endC_ok hp, Outcome.ok_bind]
    dsimp only
    rw [It.forIt_eq hp.fits hp.nonempty, hlen, h1, Outcome.ok_bind, Outcome.assert_true rfl, Outcome.ok_bind]
    rfl
  · intro b a h
    apply h2
    rcases h with h | h
    · exact Or.inl h
    · exact Or.inr fun j hj => h _ (List.getElem_mem hj)

/-- C44. Putting points into a field: every element named by the list (without repetitions) gets
the value of the point with its number; nothing else changes. -/
theorem _root_.SpatialOps.C44_put_points (p f : FieldObj) (bp bf : Nat) (hp : Usable p bp) (hf : Usable f bf)
    (hr : f.readOnly = false) (hb : bp ≠ bf) (idx : List Nat) (hi : Matches idx p f) (hn : idx.Nodup) (m : Mem V) :
    ∃ m', pointToField idx p f m = .ok m' ∧
      (∀ k a i, PointAt p k a → idx[k]? = some i → m' bf i = m bp a) ∧
      (∀ b a, (b ≠ bf ∨ ∀ k ∈ idx, (k : Int) ≠ a) → m' b a = m b a) := by
  obtain ⟨m', h1, h2, h3, -⟩ := put_ok hp hf hr hb hi m
  refine ⟨m', h1, ?_, h2⟩
  intro k a i ha hk
  obtain ⟨hk', rfl⟩ := List.getElem?_eq_some_iff.1 hk
  obtain ⟨_, rfl⟩ := at_pt hp ha
  exact h3 hn k hk'

/-! ## Extracting points from a field -/

theorem get_fold (idx : List Nat) (bp bf : Nat) (hb : bp ≠ bf) (addr : Nat → Int) (body : Nat → Mem V × Nat → Outcome (Mem V × Nat))
    (n : Nat) (hn : n ≤ idx.length) (hinj : ∀ i j, i < n → j < n → addr i = addr j → i = j)
    (hbody : ∀ j (hj : j < n) (mm : Mem V), body j (mm, j) = .ok (mm.write bp (addr j) (mm bf (idx[j] : Nat)), j + 1)) (m : Mem V) :
    ∃ m', foldO body (List.range n) (m, 0) = .ok (m', n) ∧
      (∀ b a, (b ≠ bp ∨ ∀ j < n, addr j ≠ a) → m' b a = m b a) ∧
      (∀ j (_ : j < n), m' bp (addr j) = m bf (idx[j] : Nat)) := by
  induction n with
  | zero => exact ⟨m, rfl, fun _ _ _ => rfl, fun _ h => by omega⟩
  | succ n ih =>
    obtain ⟨m', h1, h2, h3⟩ := ih (by omega) (fun i j hi hj => hinj i j (by omega) (by omega))
      (fun j hj mm => hbody j (by omega) mm)
    refine ⟨m'.write bp (addr n) (m' bf (idx[n] : Nat)), ?_, ?_, ?_⟩
    · rw [List.range_succ, foldO_append, h1, Outcome.ok_bind]
      unfold foldO
      rw [hbody n (by omega), Outcome.ok_bind]
      rfl
    · intro b a h
      unfold Mem.write
      rw [if_neg, h2]
      · rcases h with h | h
        · exact Or.inl h
        · exact Or.inr fun j hj => h j (by omega)
      · rintro ⟨q1, q2⟩
        rcases h with h | h
        · exact h q1
        · exact h n (by omega) q2.symm
    · intro j hj
      unfold Mem.write
      by_cases hjn : j = n
      · subst hjn
        rw [if_pos ⟨rfl, rfl⟩, h2 bf _ (Or.inl hb.symm)]
      · rw [if_neg, h3 j (by omega)]
        rintro ⟨-, q⟩
        exact hjn (hinj j n (by omega) (by omega) q)

/-- C44. Extracting points: every point gets the value of the element its entry names; nothing
else changes. Repeated entries are allowed. -/
theorem _root_.SpatialOps.C44_extract_points (p f : FieldObj) (bp bf : Nat) (hp : Usable p bp) (hf : Usable f bf)
    (hr : p.readOnly = false) (hb : bp ≠ bf) (idx : List Nat) (hi : Matches idx p f) (m : Mem V) :
    ∃ m', fieldToPoint idx f p m = .ok m' ∧
      (∀ k a i, PointAt p k a → idx[k]? = some i → m' bp a = m bf i) ∧
      (∀ b a, (b ≠ bp ∨ ∀ k, ¬ PointAt p k a) → m' b a = m b a) := by
  have hlen : p.geo.window.localNpts.toNat = idx.length := by have := hi.length; omega
  obtain ⟨m', h1, h2, h3⟩ := get_fold idx bp bf hb (pt p) (fun k => (fun i (s : Mem V × Nat) => do
      let k ← indexAt idx s.2
      let d ← f.subscriptC k
      room f k
      let a ← i.deref
      return (s.1.write bp a (s.1 d.1 d.2), s.2 + 1)) (It.nth 0 p.geo.window k)) idx.length (le_refl _)
    (fun i j h1 h2 => pt_inj hp (by have := hi.length; omega) (by have := hi.length; omega)) (by
    intro j hj mm
    dsimp only
    have e1 : indexAt idx j = .ok idx[j] := by
      unfold indexAt
      rw [List.getElem?_eq_getElem hj]
    rw [e1, Outcome.ok_bind, subscriptC_ok hf, Outcome.ok_bind]
    unfold room
    rw [Outcome.ubUnless_true (hi.inside _ (List.getElem_mem hj)), Outcome.ok_bind,
      deref_pt hp (by have := hi.length; omega), Outcome.ok_bind]
    rfl) m
  refine ⟨m', ?_, ?_, ?_⟩
  · unfold fieldToPoint
    rw [beginM_ok hp hr, Outcome.ok_bind, endM_ok hp, Outcome.ok_bind]
    dsimp only
    rw [It.forIt_eq hp.fits hp.nonempty, hlen, h1, Outcome.ok_bind, Outcome.assert_true rfl, Outcome.ok_bind]
    rfl
  · intro k a i ha hk
    obtain ⟨hk', rfl⟩ := List.getElem?_eq_some_iff.1 hk
    obtain ⟨_, rfl⟩ := at_pt hp ha
    exact h3 k hk'
  · intro b a h
    apply h2
    rcases h with h | h
    · exact Or.inl h
    · refine Or.inr fun j hj he => h j ?_
      rw [← he]
      exact pt_at hp (by have := hi.length; omega)

/-! ## Round trips -/

/-- C44. Extracting points and putting them back leaves the field, and everything but the point
field, as it was; repeated entries included. -/
theorem _root_.SpatialOps.C44_extract_put (p f : FieldObj) (bp bf : Nat) (hp : Usable p bp) (hf : Usable f bf)
    (hrp : p.readOnly = false) (hrf : f.readOnly = false) (hb : bp ≠ bf) (idx : List Nat) (hi : Matches idx p f) (m : Mem V) :
    ∃ m', (fieldToPoint idx f p m >>= pointToField idx p f) = .ok m' ∧ ∀ b a, b ≠ bp → m' b a = m b a := by
  obtain ⟨m1, h1, h2, h3⟩ := C44_extract_points p f bp bf hp hf hrp hb idx hi m
  obtain ⟨m2, h4, h5, -, h6⟩ := put_ok hp hf hrf hb hi m1
  refine ⟨m2, by rw [h1, Outcome.ok_bind, h4], ?_⟩
  intro b a hba
  rw [h6, h3 b a (Or.inl hba)]
  intro j hj
  rw [h2 j (pt p j) idx[j] (pt_at hp (by have := hi.length; omega)) (List.getElem?_eq_getElem hj),
    h3 bf _ (Or.inl hb.symm)]

/-- C44. Putting points into a field and extracting them again returns the points: memory is as
after putting them. -/
theorem _root_.SpatialOps.C44_put_extract (p f : FieldObj) (bp bf : Nat) (hp : Usable p bp) (hf : Usable f bf)
    (hrp : p.readOnly = false) (hrf : f.readOnly = false) (hb : bp ≠ bf) (idx : List Nat) (hi : Matches idx p f) (hn : idx.Nodup)
    (m : Mem V) :
    ∃ m1 m2, pointToField idx p f m = .ok m1 ∧ fieldToPoint idx f p m1 = .ok m2 ∧ (∀ b a, m2 b a = m1 b a) ∧
      ∀ a, m2 bp a = m bp a := by
  obtain ⟨m1, h1, h2, h3⟩ := C44_put_points p f bp bf hp hf hrf hb idx hi hn m
  obtain ⟨m2, h4, h5, h6⟩ := C44_extract_points p f bp bf hp hf hrp hb idx hi m1
  have key : ∀ b a, m2 b a = m1 b a := by
    intro b a
    by_cases hc : b ≠ bp ∨ ∀ k, ¬ PointAt p k a
    · exact h6 b a hc
    · simp only [ne_eq, not_or, not_not, not_forall] at hc
      obtain ⟨rfl, k, hk⟩ := hc
      have hk' := (at_pt hp hk).1
      have hlt : k < idx.length := by have := hi.length; omega
      rw [h5 k a idx[k] hk (List.getElem?_eq_getElem hlt), h2 k a idx[k] hk (List.getElem?_eq_getElem hlt),
        h3 b a (Or.inl hb)]
  refine ⟨m1, m2, h1, h4, key, ?_⟩
  intro a
  rw [key, h3 bp a (Or.inl hb)]

/-! ## Marker fields -/

theorem marker_fold (mark : Nat → Bool) (body : Nat → List Nat × Nat → Outcome (List Nat × Nat)) (n : Nat)
    (hbody : ∀ j < n, ∀ l, body j (l, j) = .ok (if mark j then l ++ [j] else l, j + 1)) :
    foldO body (List.range n) ([], 0) = .ok ((List.range n).filter mark, n) := by
  induction n with
  | zero => rfl
  | succ n ih =>
    rw [List.range_succ, foldO_append, ih fun j hj => hbody j (by omega), Outcome.ok_bind]
    unfold foldO
    rw [hbody n (by omega), Outcome.ok_bind, List.filter_append]
    unfold foldO
    by_cases h : mark n <;> simp [h]

/-- What the constructor computes on any window: the numbers, in the window's own count, of the
marked cells, in order. -/
theorem _root_.SpatialOps.C44_marker_numbers (nz : V → Bool) (f : FieldObj) (b : Nat) (hf : Usable f b) (m : Mem V) :
    ∃ idx, markers nz m f = .ok idx ∧ idx.Pairwise (· < ·) ∧
      ∀ k, k ∈ idx ↔ ∃ a, PointAt f k a ∧ nz (m b a) = true := by
  refine ⟨(List.range f.geo.window.localNpts.toNat).filter fun k => nz (m b (pt f k)), ?_, ?_, ?_⟩
  · unfold markers
    rw [beginC_ok hf, Outcome.ok_bind, endC_ok hf, Outcome.ok_bind]
    dsimp only
    rw [It.forIt_eq hf.fits hf.nonempty, marker_fold (fun k => nz (m b (pt f k)))]
    · rfl
    · intro j hj l
      dsimp only
      rw [deref_pt hf (by omega), Outcome.ok_bind]
      rfl
  · exact List.Pairwise.filter _ List.pairwise_lt_range
  · intro k
    rw [List.mem_filter, List.mem_range]
    constructor
    · rintro ⟨h1, h2⟩
      exact ⟨_, pt_at hf (by omega), h2⟩
    · rintro ⟨a, h1, h2⟩
      obtain ⟨h3, rfl⟩ := at_pt hf h1
      exact ⟨by omega, h2⟩

/-- C44. If the marker field's window is all of its memory, the list built from it names exactly
the marked elements, each once and in order. (For other windows see
`C44_marker_window_differs`.) -/
theorem _root_.SpatialOps.C44_marker_list_partial (nz : V → Bool) (f : FieldObj) (b : Nat) (hf : Usable f b)
    (hw : Whole f.geo.window) (m : Mem V) :
    ∃ idx, markers nz m f = .ok idx ∧ idx.Pairwise (· < ·) ∧
      ∀ k : Nat, k ∈ idx ↔ (k : Int) < f.geo.window.globNpts ∧ nz (m b k) = true := by
  obtain ⟨idx, h1, h2, h3⟩ := C44_marker_numbers nz f b hf m
  refine ⟨idx, h1, h2, fun k => (h3 k).trans ?_⟩
  have key : ∀ a, PointAt f k a → a = k := by
    rintro a ⟨loc, q1, q2, q3⟩
    rw [(Window.flatIndex_eq_ok hf.fits q1).1] at q3
    injection q3 with q3
    rw [← q3, ← q2, hw.1, hw.2]
    congr 1
    ext <;> simp
  have hl : f.geo.window.localNpts = f.geo.window.globNpts := by
    unfold Window.localNpts Window.globNpts
    rw [hw.2]
  constructor
  · rintro ⟨a, ha, hm⟩
    have := (at_pt hf ha).1
    rw [key a ha] at hm
    exact ⟨by omega, hm⟩
  · rintro ⟨h1, h2⟩
    have := pt_at hf (k := k) (by omega)
    exact ⟨_, this, by rw [key _ this]; exact h2⟩

/-! ## Lists of the wrong length -/

/-- C44. A list that is too long fails the assertion of `PointToField`, after the points have been
copied; one that is too short is read past its end (undefined). -/
theorem _root_.SpatialOps.C44_wrong_length (p f : FieldObj) (bp bf : Nat) (hp : Usable p bp) (hf : Usable f bf)
    (hr : f.readOnly = false) (hb : bp ≠ bf) (idx : List Nat) (hi : ∀ k ∈ idx, (k : Int) < f.geo.window.globNpts) (m : Mem V) :
    (p.geo.window.localNpts < idx.length → pointToField idx p f m = .abort) ∧
    ((idx.length : Int) < p.geo.window.localNpts → pointToField idx p f m = .ub) := by
  have hN := It.localNpts_nonneg hp.nonempty
  have hfold : ∀ n ≤ idx.length, (n : Int) ≤ p.geo.window.localNpts →
      ∃ m', foldO (fun k => (fun i (s : Mem V × Nat) => do
        let k ← indexAt idx s.2
        let d ← f.subscriptM k
        room f k
        let a ← i.deref
        return (s.1.write d.1 d.2 (s.1 bp a), s.2 + 1)) (It.nth 0 p.geo.window k)) (List.range n) (m, 0) = .ok (m', n) := by
    intro n hn hn'
    obtain ⟨m', h1, -⟩ := put_fold idx bp bf hb (pt p) (fun k => (fun i (s : Mem V × Nat) => do
      let k ← indexAt idx s.2
      let d ← f.subscriptM k
      room f k
      let a ← i.deref
      return (s.1.write d.1 d.2 (s.1 bp a), s.2 + 1)) (It.nth 0 p.geo.window k)) n hn (by
      intro j hj mm
      dsimp only
      have e1 : indexAt idx j = .ok idx[j] := by
        unfold indexAt
        rw [List.getElem?_eq_getElem (by omega)]
      rw [e1, Outcome.ok_bind, subscriptM_ok hf hr, Outcome.ok_bind]
      unfold room
      rw [Outcome.ubUnless_true (hi _ (List.getElem_mem _)), Outcome.ok_bind, deref_pt hp (by omega), Outcome.ok_bind]
      rfl) m
    exact ⟨m', h1⟩
  constructor
  · intro hl
    obtain ⟨m', h1⟩ := hfold p.geo.window.localNpts.toNat (by omega) (by omega)
    unfold pointToField
    rw [beginC_ok hp, Outcome.ok_bind, endC_ok hp, Outcome.ok_bind]
    dsimp only
    rw [It.forIt_eq hp.fits hp.nonempty, h1, Outcome.ok_bind, Outcome.assert_false (by dsimp only; omega)]
    rfl
  · intro hl
    obtain ⟨m', h1⟩ := hfold idx.length (le_refl _) (by omega)
    obtain ⟨d, hd⟩ : ∃ d, p.geo.window.localNpts.toNat = idx.length + (d + 1) :=
      ⟨p.geo.window.localNpts.toNat - idx.length - 1, by omega⟩
    unfold pointToField
    rw [beginC_ok hp, Outcome.ok_bind, endC_ok hp, Outcome.ok_bind]
    dsimp only
    rw [It.forIt_eq hp.fits hp.nonempty, hd, List.range_add, foldO_append, h1, Outcome.ok_bind, List.range_succ_eq_map]
    rw [List.map_cons]
    unfold foldO
    dsimp only
    have e1 : indexAt idx idx.length = .ub := by
      unfold indexAt
      rw [List.getElem?_eq_none (le_refl _)]
    rw [e1]
    rfl

end

namespace Ex

/-- A field of `n` elements in block `b`, seen through a window. -/
def fld (n o e : Int) (b : Nat) : FieldObj :=
  ⟨⟨⟨⟨n, 1, 1⟩, ⟨o, 0, 0⟩, ⟨e, 1, 1⟩⟩, ⟨⟨n, 1, 1⟩, ⟨o, 0, 0⟩, ⟨e, 1, 1⟩⟩, BcInfo.build false false false 0, ⟨0, 0, false⟩, ⟨0, 0, false⟩, false⟩,
    some b, none, true, .localRam, 0, false, [], [], false, n⟩

theorem usable (n o e : Int) (b : Nat) (hn : 0 ≤ o ∧ 0 < e ∧ o + e ≤ n) : Usable (fld n o e b) b := by
  refine ⟨?_, ?_, rfl, rfl⟩
  · unfold fld Window.Fits
    iv_omega
  · unfold fld Window.Nonempty
    iv_omega

end Ex

example : Matches [1, 4] (Ex.fld 2 0 2 0) (Ex.fld 6 0 6 1) ∧ [1, 4].Nodup ∧ Usable (Ex.fld 2 0 2 0) 0 ∧ Usable (Ex.fld 6 0 6 1) 1 :=
  ⟨⟨by decide, by decide⟩, by decide, Ex.usable _ _ _ _ (by decide), Ex.usable _ _ _ _ (by decide)⟩

example : Whole (Ex.fld 6 0 6 1).geo.window := ⟨rfl, rfl⟩

/-- C44, deviation. If the marker field's window is not all of its memory, the numbers the
constructor collects are counted in the window, but used as positions in memory: with the second
of six elements marked, through a window that begins there, the list names the first element. -/
theorem _root_.SpatialOps.C44_marker_window_differs :
    ∃ (f : FieldObj) (m : Mem Bool), Usable f 0 ∧ (∀ a, m 0 a = true ↔ a = 1) ∧ markers id m f = .ok [0] :=
  ⟨Ex.fld 6 1 5 0, fun _ a => a = 1, Ex.usable _ _ _ _ (by decide), by simp, by decide +kernel⟩

end Point
end SpatialOps
