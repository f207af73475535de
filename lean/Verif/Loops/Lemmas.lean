import Verif.Loops.Spec
import Verif.Conserve.Lemmas

/-!
# Lemmas: the loop
-/

namespace SpatialOps
namespace Loops

open Nebo Stencil

theorem element_eq (w : Window) (loc : IntVec) : element w loc = winAddr w loc := rfl

/-- The iterator of a source after `k` increments. -/
def curAt (s : Nat × Window) (k : Nat) : Cur := ⟨⟨some s.1, It.nth 0 s.2 k⟩, s.2.globNpts⟩

theorem curAt_inc (s : Nat × Window) (k : Nat) : (curAt s k).inc = curAt s (k + 1) := rfl

section
variable {V : Type}

theorem get_ok {s : Nat × Window} (hs : Proper s.2) {k : Nat} (hk : (k : Int) < s.2.localNpts) (m : Mem V) :
    (curAt s k).get m = .ok (m s.1 (winAddr s.2 (nthLoc s.2 k))) := by
  obtain ⟨h1, h2⟩ := nth_deref hs.1 hs.2 (nthLoc_spec hs.1 hs.2 hk)
  unfold Cur.get curAt
  dsimp only
  rw [h1, Outcome.ok_bind]
  unfold elemAt
  dsimp only
  rw [Outcome.ubUnless_true (p := _ ∧ _ < s.2.globNpts) (fortranPos_bound h2)]
  rfl

theorem get_end {s : Nat × Window} (hs : Proper s.2) {k : Nat} (hk : (k : Int) = s.2.localNpts) (m : Mem V) :
    (curAt s k).get m = .throws := by
  obtain ⟨fin, h1, h2, h3⟩ := C04_reaches_end s.2 hs.2 0
  rw [It.finish_eq_nth hs.2] at h1
  injection h1 with h1
  have : k = s.2.localNpts.toNat := by omega
  unfold Cur.get curAt
  dsimp only
  rw [this, h1, h3]
  rfl

theorem getAll_ok {srcs : List (Nat × Window)} (hs : ∀ s ∈ srcs, Proper s.2) {k : Nat}
    (hk : ∀ s ∈ srcs, (k : Int) < s.2.localNpts) (m : Mem V) :
    getAll (srcs.map (curAt · k)) m = .ok (srcs.map fun s => m s.1 (winAddr s.2 (nthLoc s.2 k))) := by
  induction srcs with
  | nil => rfl
  | cons s ss ih =>
    simp only [List.map_cons, getAll]
    rw [get_ok (hs s (by simp)) (hk s (by simp)), Outcome.ok_bind, ih (fun t ht => hs t (by simp [ht])) fun t ht => hk t (by simp [ht])]
    rfl

theorem getAll_short {srcs : List (Nat × Window)} (hs : ∀ s ∈ srcs, Proper s.2) {k : Nat}
    (hk : ∀ s ∈ srcs, (k : Int) ≤ s.2.localNpts) (he : ∃ s ∈ srcs, (k : Int) = s.2.localNpts) (m : Mem V) :
    getAll (srcs.map (curAt · k)) m = .throws := by
  induction srcs with
  | nil => obtain ⟨s, h, -⟩ := he; cases h
  | cons s ss ih =>
    simp only [List.map_cons, getAll]
    rcases lt_or_eq_of_le (hk s (by simp)) with h | h
    · rw [get_ok (hs s (by simp)) h, Outcome.ok_bind, ih (fun t ht => hs t (by simp [ht])) (fun t ht => hk t (by simp [ht]))]
      · rfl
      · obtain ⟨t, ht, e⟩ := he
        rcases List.mem_cons.1 ht with rfl | ht
        · omega
        · exact ⟨t, ht, e⟩
    · rw [get_end (hs s (by simp)) h]
      rfl

/-- The first `N` trips of the loop. -/
theorem trips {f : List V → V} {b : Nat} {wd : Window} {srcs : List (Nat × Window)} (hd : Proper wd)
    (hs : ∀ s ∈ srcs, Proper s.2) (ha : Apart b wd srcs) (m0 : Mem V) (N : Nat) (hN : (N : Int) ≤ wd.localNpts)
    (hNs : ∀ s ∈ srcs, (N : Int) ≤ s.2.localNpts) :
    ∃ m', foldO (fun k => loopBody f (some b) wd.globNpts (It.nth 0 wd k)) (List.range N) (m0, srcs.map (curAt · 0)) =
        .ok (m', srcs.map (curAt · N)) ∧
      (∀ k < N, m' b (winAddr wd (nthLoc wd k)) = f (srcs.map fun s => m0 s.1 (winAddr s.2 (nthLoc s.2 k)))) ∧
      (∀ blk a, (blk ≠ b ∨ ∀ k < N, winAddr wd (nthLoc wd k) ≠ a) → m' blk a = m0 blk a) := by
  induction N with
  | zero => exact ⟨m0, rfl, fun k hk => absurd hk (by omega), fun _ _ _ => rfl⟩
  | succ N ih =>
    obtain ⟨m', h1, h2, h3⟩ := ih (by omega) fun s hs => by have := hNs s hs; omega
    have hN' : (N : Int) < wd.localNpts := by omega
    have hloc := nthLoc_spec hd.1 hd.2 hN'
    have hdist : ∀ k < N, winAddr wd (nthLoc wd k) ≠ winAddr wd (nthLoc wd N) := by
      intro k hk he
      have hk' := nthLoc_spec hd.1 hd.2 (k := k) (by omega)
      have := winAddr_inj hd.1 hk'.1 hloc.1 he
      have e1 := hk'.2
      rw [this, hloc.2] at e1
      omega
    have hread : (srcs.map fun s => m' s.1 (winAddr s.2 (nthLoc s.2 N))) =
        srcs.map fun s => m0 s.1 (winAddr s.2 (nthLoc s.2 N)) := by
      refine List.map_congr_left fun s hs' => h3 _ _ ?_
      rcases ha s hs' with h | h
      · exact .inl h
      · right
        rw [h]
        exact hdist
    refine ⟨m'.write b (winAddr wd (nthLoc wd N)) (f (srcs.map fun s => m0 s.1 (winAddr s.2 (nthLoc s.2 N)))), ?_, ?_, ?_⟩
    · rw [List.range_succ, foldO_append, h1, Outcome.ok_bind]
      simp only [foldO]
      unfold loopBody
      dsimp only
      rw [getAll_ok hs (fun s hs => by have := hNs s hs; omega), Outcome.ok_bind, hread, store_ok hd.1 hd.2 hloc,
        Outcome.ok_bind, List.map_map]
      rfl
    · intro k hk
      unfold Mem.write
      by_cases hkN : k = N
      · subst hkN
        rw [if_pos ⟨rfl, rfl⟩]
      · rw [if_neg fun h => hdist k (by omega) h.2]
        exact h2 k (by omega)
    · intro blk a hb
      unfold Mem.write
      rw [if_neg, h3 blk a]
      · rcases hb with hb | hb
        · exact .inl hb
        · exact .inr fun k hk => hb k (by omega)
      · rintro ⟨rfl, rfl⟩
        rcases hb with hb | hb
        · exact hb rfl
        · exact hb N (by omega) rfl

/-- The loop over iterators of windows. -/
theorem forIt_ok {f : List V → V} {b : Nat} {wd : Window} {srcs : List (Nat × Window)} (hd : Proper wd)
    (hs : ∀ s ∈ srcs, Proper s.2) (ha : Apart b wd srcs) (hl : ∀ s ∈ srcs, wd.localNpts ≤ s.2.localNpts) (m : Mem V) :
    ∃ m' cs, forIt (loopBody f (some b) wd.globNpts) wd.localNpts.toNat (It.start 0 wd) (It.nth 0 wd wd.localNpts.toNat)
        (m, srcs.map (curAt · 0)) = .ok (m', cs) ∧
      (∀ k : Nat, (k : Int) < wd.localNpts → m' b (winAddr wd (nthLoc wd k)) =
        f (srcs.map fun s => m s.1 (winAddr s.2 (nthLoc s.2 k)))) ∧
      (∀ blk a, (blk ≠ b ∨ ∀ loc, InBlock wd.extent loc → winAddr wd loc ≠ a) → m' blk a = m blk a) := by
  have h0 := It.localNpts_nonneg hd.2
  obtain ⟨m', h1, h2, h3⟩ := trips hd hs ha m (f := f) wd.localNpts.toNat (by omega) fun s hs => by have := hl s hs; omega
  refine ⟨m', srcs.map (curAt · wd.localNpts.toNat), ?_, fun k hk => h2 k (by omega), fun blk a hb => h3 blk a ?_⟩
  · rw [It.forIt_eq hd.1 hd.2]; exact h1
  · rcases hb with hb | hb
    · exact .inl hb
    · exact .inr fun k hk => hb _ (nthLoc_spec hd.1 hd.2 (by omega)).1

theorem forIt_short {f : List V → V} {b : Nat} {wd : Window} {srcs : List (Nat × Window)} (hd : Proper wd)
    (hs : ∀ s ∈ srcs, Proper s.2) (ha : Apart b wd srcs) (hl : ∃ s ∈ srcs, s.2.localNpts < wd.localNpts) (m : Mem V) :
    forIt (loopBody f (some b) wd.globNpts) wd.localNpts.toNat (It.start 0 wd) (It.nth 0 wd wd.localNpts.toNat)
        (m, srcs.map (curAt · 0)) = .throws := by
  classical
  obtain ⟨s0, hs0, hlt⟩ := hl
  have hex : ∃ K : Nat, ∃ s ∈ srcs, (K : Int) = s.2.localNpts :=
    ⟨s0.2.localNpts.toNat, s0, hs0, by have := It.localNpts_nonneg (hs s0 hs0).2; omega⟩
  have hmin : ∀ s ∈ srcs, (Nat.find hex : Int) ≤ s.2.localNpts := by
    intro s h
    have h0 := It.localNpts_nonneg (hs s h).2
    have := Nat.find_le (h := hex) (n := s.2.localNpts.toNat) ⟨s, h, by omega⟩
    omega
  have hK := Nat.find_spec hex
  generalize Nat.find hex = K at hmin hK
  have hKd : (K : Int) < wd.localNpts := by have := hmin s0 hs0; omega
  obtain ⟨m', h1, -, -⟩ := trips hd hs ha m (f := f) K (by omega) hmin
  rw [It.forIt_eq hd.1 hd.2]
  have hr : List.range wd.localNpts.toNat = List.range K ++ (K :: List.range' (K + 1) (wd.localNpts.toNat - K - 1)) := by
    have := List.range'_append_1 (s := 0) (m := K) (n := wd.localNpts.toNat - K - 1 + 1)
    rw [Nat.zero_add] at this
    rw [List.range_eq_range', List.range_eq_range', ← List.range'_succ, this]
    congr 1
    omega
  rw [hr, foldO_append, h1, Outcome.ok_bind]
  simp only [foldO]
  unfold loopBody
  dsimp only
  rw [getAll_short hs hmin hK]
  rfl

/-! ## Loops over fields -/

theorem begins_ok {srcs : List FieldObj} (h : ∀ s ∈ srcs, s.values ≠ none) :
    begins srcs = .ok ((srcs.map whole).map (curAt · 0)) := by
  induction srcs with
  | nil => rfl
  | cons s ss ih =>
    unfold begins FieldObj.beginC
    obtain ⟨v, hv⟩ := Option.ne_none_iff_exists'.1 (h s (by simp))
    rw [Outcome.throwIf_false (by simp [hv]), ih fun t ht => h t (by simp [ht])]
    simp only [Outcome.ok_bind, Outcome.pure_eq, List.map_cons]
    unfold curAt whole
    rw [hv]
    rfl

theorem beginsM_ok {srcs : List FieldObj} (h : ∀ s ∈ srcs, s.values ≠ none ∧ s.memType = .localRam ∧ s.readOnly = false) :
    beginsM srcs = .ok ((srcs.map whole).map (curAt · 0)) := by
  induction srcs with
  | nil => rfl
  | cons s ss ih =>
    unfold beginsM FieldObj.beginM
    obtain ⟨h1, h2, h3⟩ := h s (by simp)
    obtain ⟨v, hv⟩ := Option.ne_none_iff_exists'.1 h1
    rw [Outcome.throwIf_false (by simp [h2]), Outcome.ok_bind, Outcome.throwIf_false (by simp [h3]), ih fun t ht => h t (by simp [ht])]
    simp only [Outcome.ok_bind, Outcome.pure_eq, List.map_cons]
    unfold curAt whole
    rw [hv]
    rfl

theorem interiorBegins_ok {srcs : List FieldObj} (h : ∀ s ∈ srcs, s.values ≠ none ∧ s.geo.disableInterior = false ∧
      s.geo.interior.npts = s.geo.window.npts) :
    interiorBegins srcs = .ok ((srcs.map inside).map (curAt · 0)) := by
  induction srcs with
  | nil => rfl
  | cons s ss ih =>
    unfold interiorBegins FieldObj.interiorBeginC
    obtain ⟨h1, h2, h3⟩ := h s (by simp)
    obtain ⟨v, hv⟩ := Option.ne_none_iff_exists'.1 h1
    rw [Outcome.throwIf_false (by simp [h2]), Outcome.ok_bind, Outcome.throwIf_false (by simp [hv]), ih fun t ht => h t (by simp [ht])]
    simp only [Outcome.ok_bind, Outcome.pure_eq, List.map_cons]
    unfold curAt inside Window.globNpts
    dsimp only
    rw [hv, h3]
    rfl

theorem loop_eq {f : List V → V} {d : FieldObj} {b : Nat} (h : Dest d b) (hn : d.geo.window.Nonempty) (cs : List Cur) (m : Mem V) :
    loop f d cs m = (forIt (loopBody f (some b) d.geo.window.globNpts) d.geo.window.localNpts.toNat (It.start 0 d.geo.window)
      (It.nth 0 d.geo.window d.geo.window.localNpts.toNat) (m, cs) >>= fun r => .ok r.1) := by
  unfold loop FieldObj.beginM FieldObj.endM
  rw [Outcome.throwIf_false (by simp [h.cpu]), Outcome.ok_bind, Outcome.throwIf_false (by simp [h.writable]),
    Outcome.ok_bind, Outcome.pure_eq, Outcome.ok_bind, Outcome.throwIf_false (by simp [h.cpu]),
    Outcome.ok_bind, It.finish_eq_nth hn, Outcome.ok_bind, Outcome.pure_eq, Outcome.ok_bind]
  dsimp only
  rw [h.mem]
  rfl

theorem interiorLoop_eq {f : List V → V} {d : FieldObj} {b : Nat} (h : Dest d b) (hi : d.geo.disableInterior = false)
    (hg : d.geo.interior.npts = d.geo.window.npts) (hn : d.geo.interior.Nonempty) (cs : List Cur) (m : Mem V) :
    interiorLoop f d cs m = (forIt (loopBody f (some b) d.geo.interior.globNpts) d.geo.interior.localNpts.toNat
      (It.start 0 d.geo.interior) (It.nth 0 d.geo.interior d.geo.interior.localNpts.toNat) (m, cs) >>= fun r => .ok r.1) := by
  have e1 : d.interiorBeginM = .ok ⟨d.values, It.start 0 d.geo.interior⟩ := by
    unfold FieldObj.interiorBeginM
    rw [Outcome.throwIf_false (by simp [hi]), Outcome.ok_bind, Outcome.throwIf_false (by simp [h.cpu]), Outcome.ok_bind,
      Outcome.throwIf_false (by simp [h.writable]), Outcome.ok_bind, Outcome.pure_eq]
  have e2 : d.interiorEndM = .ok ⟨d.values, It.nth 0 d.geo.interior d.geo.interior.localNpts.toNat⟩ := by
    unfold FieldObj.interiorEndM
    rw [Outcome.throwIf_false (by simp [hi]), Outcome.ok_bind, Outcome.throwIf_false (by simp [h.writable]), Outcome.ok_bind,
      Outcome.throwIf_false (by simp [h.cpu]), Outcome.ok_bind, It.finish_eq_nth hn, Outcome.ok_bind, Outcome.pure_eq]
  unfold interiorLoop
  rw [e1, Outcome.ok_bind, e2, Outcome.ok_bind]
  dsimp only
  rw [h.mem]
  unfold Window.globNpts
  rw [hg]
  rfl

/-- With windows of equal extents, cells are paired by their place in the windows. -/
theorem same_extent {f : List V → V} {b : Nat} {wd : Window} {srcs : List (Nat × Window)} (hd : Proper wd)
    (hs : ∀ s ∈ srcs, Proper s.2) (ha : Apart b wd srcs) (hl : ∀ s ∈ srcs, s.2.extent = wd.extent) (m : Mem V) :
    ∃ m' cs, forIt (loopBody f (some b) wd.globNpts) wd.localNpts.toNat (It.start 0 wd) (It.nth 0 wd wd.localNpts.toNat)
        (m, srcs.map (curAt · 0)) = .ok (m', cs) ∧ Written b wd (fun loc => f (inputs m srcs loc)) m m' := by
  obtain ⟨m', cs, h1, h2, h3⟩ := forIt_ok hd hs ha (f := f)
    (fun s h => by unfold Window.localNpts; rw [hl s h]) m
  refine ⟨m', cs, h1, fun loc hloc => ?_, h3⟩
  obtain ⟨k, hk, rfl⟩ := nthLoc_surj hd.1 hd.2 hloc
  rw [element_eq, h2 k hk]
  unfold inputs
  congr 1
  refine List.map_congr_left fun s h => ?_
  have h5 : (k : Int) < s.2.localNpts := by unfold Window.localNpts at hk ⊢; rw [hl s h]; exact hk
  have h6 := nthLoc_spec (hs s h).1 (hs s h).2 h5
  rw [hl s h] at h6
  rw [nthCell_unique h6 (nthLoc_spec hd.1 hd.2 hk)]
  rfl

end
end Loops
end SpatialOps
