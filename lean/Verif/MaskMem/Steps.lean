import Verif.MaskMem.Lemmas

/-! # Every operation keeps the account and the contents of mask memory -/

namespace SpatialOps
namespace MaskWorld

theorem mask_eq {w : MaskWorld} {h : Nat} {m : BitMask} (hm : w.masks[h]? = some (some m)) : w.mask h = .ok m := by
  unfold mask; rw [hm]

theorem fill_base {w : MaskWorld} (hb : Base w) (b : Nat) (n : Int) (v) : Base (w.fill b n v) :=
  ⟨hb.reach, hb.perm, hb.mis⟩

theorem base_masks {w : MaskWorld} (hb : Base w) (ms) : Base { w with masks := ms } := ⟨hb.reach, hb.perm, hb.mis⟩

/-- The blocks of other masks keep their words when mask number `masks.length` is built. -/
theorem cInv_append {cuda : Bool} {w w' : MaskWorld} (hi : OInv cuda w) (hc : CInv w) {m : BitMask} {a : Nat} {k : MemKind}
    (hms : w'.masks = w.masks ++ [some m])
    (ho : w'.own = (fun k' => if k' = k then (a, w.masks.length) :: w.own k else w.own k'))
    (hf : ∀ k' h', (a, h') ∉ w.own k') (hmem : ∀ b, b ≠ a → w'.mem b = w.mem b) (hh : w'.Holds m a) : CInv w' := by
  intro k' x h' m' hx hm'
  rw [hms, get_append] at hm'
  have hx' : (k' = k ∧ x = a ∧ h' = w.masks.length) ∨ (x, h') ∈ w.own k' := by
    rw [ho] at hx
    by_cases hk : k' = k
    · subst hk
      simp only [if_true, List.mem_cons, Prod.mk.injEq] at hx
      tauto
    · simp only [if_neg hk] at hx; exact Or.inr hx
  rcases hx' with ⟨_, rfl, rfl⟩ | hx'
  · rw [if_pos rfl] at hm'
    injection hm' with hm'; injection hm' with hm'; subst hm'
    exact hh
  · rw [if_neg (by have := own_lt hi hx'; omega)] at hm'
    have hxa : x ≠ a := by rintro rfl; exact hf k' h' hx'
    exact holds_congr (SameMask.refl m') (hmem x hxa) (hc k' x h' m' hx' hm')

theorem create_good {cuda : Bool} {w : MaskWorld} (hi : OInv cuda w) {points win g mt dev fresh}
    (hl : w.Legal (.create points win g mt dev fresh)) :
    ∃ w' b, w.create cuda points win g mt dev fresh = .ok (w', b) ∧ OInv cuda w' ∧ (CInv w → CInv w') := by
  obtain ⟨hg, hp, hgp, hf⟩ := hl
  have hgv := hg.2.2.2
  obtain ⟨bf, eb, hwf, _⟩ := BitField.build_eq hg points hp
  unfold create
  rw [GhostData.copy_ok hgv, Outcome.ok_bind]
  cases mt with
  | other => exact ⟨w, true, rfl, hi, id⟩
  | localRam =>
    dsimp only
    obtain ⟨w1, a, e1, b1, ms1, me1, o1, f1⟩ := poolGet_spec hi.base w.masks.length .cpu
      (BitMask.size ⟨points, win, g, none, none, true, .localRam, dev, false, [], []⟩).toNat fresh hf
    rw [e1, Outcome.ok_bind]
    dsimp only
    rw [eb, Outcome.ok_bind]
    refine ⟨_, _, rfl, ?_, fun hc => ?_⟩
    · refine oInv_append hi (base_masks (fill_base b1 _ _ _) _) (m := ⟨points, win, g, some a, none, true, .localRam, dev, false, [], []⟩)
        (by simp [fill, ms1]) ?_ ?_
      · refine ⟨?_, Or.inl ⟨rfl, rfl⟩, by simp, by simp, by simp, ⟨bf, eb, hwf.sz⟩, hgv, hg, hp, by simp⟩
        intro k; cases k <;> simp [owned]
      · intro k x h'
        simp only [fill, o1]
        cases k <;> simp [owned]
        tauto
    · refine cInv_append hi hc (m := ⟨points, win, g, some a, none, true, .localRam, dev, false, [], []⟩) (a := a) (k := .cpu)
        (by simp [fill, ms1]) (by simp [fill, o1]) f1 ?_ ?_
      · intro b hb; have := fill_other (w := w1) (n := roundToInt win.globNpts) (v := bf.words) hb
        rw [← me1]; exact this
      · refine ⟨bf, eb, hwf.sz, fun i h0 h1 => ?_⟩
        simp only [fill, true_and, BitMask.size] at h1 ⊢
        rw [if_pos ⟨h0, h1⟩]
  | gpu =>
    dsimp only
    cases cuda with
    | false => exact ⟨w, true, rfl, hi, id⟩
    | true =>
      have hpe := hgp rfl
      subst hpe
      simp only [if_true]
      obtain ⟨w1, a, e1, b1, ms1, me1, o1, f1⟩ := poolGet_spec hi.base w.masks.length .gpu
        (BitMask.size ⟨[], win, g, none, none, true, .gpu, dev, false, [], []⟩).toNat fresh hf
      rw [e1, Outcome.ok_bind]
      refine ⟨_, _, rfl, ?_, fun hc => ?_⟩
      · refine oInv_append hi (base_masks (fill_base b1 _ _ _) _) (m := ⟨[], win, g, none, some a, true, .gpu, dev, false, [], []⟩)
          (by simp [fill, ms1]) ?_ ?_
        · refine ⟨?_, Or.inr ⟨rfl, rfl, rfl⟩, by simp, by simp, by simp, ⟨bf, eb, hwf.sz⟩, hgv, hg, hp, by simp⟩
          intro k; cases k <;> simp [owned]
        · intro k x h'
          simp only [fill, o1]
          cases k <;> simp [owned]
          tauto
      · refine cInv_append hi hc (m := ⟨[], win, g, none, some a, true, .gpu, dev, false, [], []⟩) (a := a) (k := .gpu)
          (by simp [fill, ms1]) (by simp [fill, o1]) f1 ?_ ?_
        · intro b hb; have := fill_other (w := w1) (n := roundToInt win.globNpts) (v := fun _ => 0) hb
          rw [← me1]; exact this
        · refine ⟨bf, eb, hwf.sz, fun i h0 h1 => ?_⟩
          simp only [fill, true_and, BitMask.size] at h1 ⊢
          rw [if_pos ⟨h0, h1⟩]
          unfold BitField.build BitField.addPoints at eb
          rw [GhostData.copy_ok hgv, Outcome.ok_bind] at eb
          injection eb with eb
          rw [← eb]

theorem copy_good {cuda : Bool} {w : MaskWorld} (hi : OInv cuda w) {h : Nat} (hl : w.Alive h) :
    ∃ w' b, w.step cuda (.copy h) = .ok (w', b) ∧ OInv cuda w' ∧ (CInv w → CInv w') := by
  obtain ⟨m, hm⟩ := hl
  have hk := hi.mok h m hm
  refine ⟨{ w with masks := w.masks ++ [some m.copyOf] }, false, ?_, ?_, fun hc => ?_⟩
  · unfold step; dsimp only
    rw [mask_eq hm, Outcome.ok_bind, GhostData.copy_ok hk.gv, Outcome.ok_bind]; rfl
  · refine oInv_append hi (base_masks hi.base _) rfl ?_ ?_
    · refine ⟨?_, hk.prim, by simp [BitMask.copyOf], by simp [BitMask.copyOf], hk.cons, hk.good, hk.gv, hk.gf, hk.pin, by simp [BitMask.copyOf]⟩
      intro k; cases k <;> simp [owned, BitMask.copyOf]
    · intro k a h'
      cases k <;> simp [owned, BitMask.copyOf]
  · intro k a h' m' ha hm'
    rw [get_append, if_neg (by have := own_lt hi ha; omega)] at hm'
    exact hc k a h' m' ha hm'

/-- Replacing mask `h` by an equal one, giving blocks back. -/
theorem cInv_less {w w' : MaskWorld} (hc : CInv w) {h : Nat} {m : BitMask} (hm : w.masks[h]? = some (some m))
    {o : Option BitMask} (hms : w'.masks = w.masks.set h o) (hs : ∀ m', o = some m' → SameMask m m')
    (ho : ∀ k x, x ∈ w'.own k → x ∈ w.own k) (hmem : w'.mem = w.mem) : CInv w' := by
  intro k a h' m' ha hm'
  rw [hms, get_set (lt_of_get hm)] at hm'
  by_cases hc' : h' = h
  · subst hc'
    rw [if_pos rfl] at hm'; injection hm' with hm'
    exact holds_congr (hs m' hm') (by rw [hmem]) (hc k a h' m (ho _ _ ha) hm)
  · rw [if_neg hc'] at hm'
    exact holds_congr (SameMask.refl _) (by rw [hmem]) (hc k a h' m' (ho _ _ ha) hm')

theorem removeConsumers_good {cuda : Bool} {w : MaskWorld} (hi : OInv cuda w) {h : Nat} {m : BitMask}
    (hm : w.masks[h]? = some (some m)) :
    ∃ w' b, w.removeConsumers cuda h m = .ok (w', b) ∧ OInv cuda w' ∧ (CInv w → CInv w') := by
  have hk := hi.mok h m hm
  have hlt := lt_of_get hm
  unfold removeConsumers
  cases cuda with
  | false => exact ⟨w, false, rfl, hi, id⟩
  | true =>
    simp only [if_true]
    have hg := hk.nodup .gpu
    have hown : ∀ k a, a ∈ owned k m → (a, h) ∈ w.own k := fun k a ha => (hi.cown k a h).2 ⟨m, hm, ha⟩
    have hown' : ∀ k a, (a, h) ∈ w.own k → a ∈ owned k m := by
      intro k a ha
      obtain ⟨m', hm', ha'⟩ := (hi.cown k a h).1 ha
      rw [hm] at hm'; injection hm' with hm'; injection hm' with hm'; subst hm'; exact ha'
    have hdis : ∀ x, x ∈ m.mine.map Prod.snd → x ∉ (if m.built = true ∧ m.memType = .gpu then m.ext.toList else []) := by
      intro x hx hx'
      exact (List.nodup_append.1 hg).2.2 x hx x hx' rfl
    obtain ⟨w1, e1, b1, ms1, me1, oc, og⟩ := putAll_spec h m.mine hi.base (hg.of_append_left)
      (fun c hc => hown .gpu c.2 (List.mem_append_left _ (List.mem_map.2 ⟨c, hc, rfl⟩)))
    rw [e1, Outcome.ok_bind]
    have hogpu : ∀ x, x ∈ w1.own .gpu ↔ (if x.2 = h then x.1 ∈ (if m.built = true ∧ m.memType = .gpu then m.ext.toList else []) else x ∈ w.own .gpu) := by
      intro x
      obtain ⟨a, h'⟩ := x
      rw [og]
      by_cases hc : h' = h
      · subst hc
        simp only [if_true, true_and]
        constructor
        · rintro ⟨h1, h2⟩
          exact (List.mem_append.1 (hown' .gpu a h1)).resolve_left h2
        · intro h1
          exact ⟨hown .gpu a (List.mem_append_right _ h1), fun h2 => hdis a h2 h1⟩
      · simp [hc]
    by_cases hb : m.memType = .gpu ∧ m.builtCpu = true
    · rw [if_pos hb]
      obtain ⟨_, _, hbs⟩ := hk.cpuc hb.2
      obtain ⟨b, hbb⟩ := Option.isSome_iff_exists.1 hbs
      have hbo : (b, h) ∈ w1.own .cpu := by
        rw [oc]; exact hown .cpu b (by simp [owned, hb.2, hbb])
      obtain ⟨w2, e2, b2, ms2, me2, o2⟩ := poolPut_spec b1 hbo
      rw [hbb, e2, Outcome.ok_bind]
      refine ⟨_, _, rfl, ?_, fun hc => ?_⟩
      · refine oInv_set hi hlt (base_masks b2 _) (by simp only [ms2, ms1]; rfl) ?_ ?_
        · rintro m' hm'; injection hm' with hm'; subst hm'
          refine ⟨?_, ?_, by simp, by simp, by simp, hk.good, hk.gv, hk.gf, hk.pin, fun hb' => ⟨rfl, (hk.orig hb').2.1, by simp⟩⟩
          · intro k
            cases k
            · simp [owned]
            · simp only [owned, List.map_nil, List.nil_append]
              split
              · exact hg.of_append_right.sublist (by rw [if_pos ‹_›])
              · exact List.nodup_nil
          · rcases hk.prim with ⟨h1, _⟩ | h1
            · rw [hb.1] at h1; cases h1
            · exact Or.inr h1
        · intro k a h'
          cases k
          · rw [o2]; simp only [if_true]
            rw [(b1.nodup' .cpu).mem_erase_iff, oc]
            by_cases hc : h' = h
            · subst hc
              simp only [ne_eq, Prod.mk.injEq, and_true, if_true, Option.some.injEq, exists_eq_left']
              constructor
              · rintro ⟨h1, h2⟩
                have := hown' .cpu a h2
                simp [owned, hb.2, hbb] at this
                exact absurd this h1
              · intro h1
                simp [owned, hb.1] at h1
            · simp [hc]
          · rw [o2]
            simp only [reduceCtorEq, if_false]
            rw [hogpu]
            by_cases hc : h' = h
            · simp [hc, owned]
            · simp [hc]
      · refine cInv_less hc hm (o := some { m with bits := none, builtCpu := false, consumers := [], mine := [] }) (by simp only [ms2, ms1]) ?_ ?_ (by simp only [me2, me1])
        · rintro m' hm'; injection hm' with hm'; subst hm'; exact ⟨rfl, rfl, rfl⟩
        · intro k x hx
          simp only [o2] at hx
          cases k
          · simp only [if_true] at hx; have := List.mem_of_mem_erase hx; rwa [oc] at this
          · simp only [reduceCtorEq, if_false] at hx; exact ((og x).1 hx).1
    · rw [if_neg hb]
      refine ⟨_, _, rfl, ?_, fun hc => ?_⟩
      · refine oInv_set hi hlt (base_masks b1 _) (by simp only [ms1]; rfl) ?_ ?_
        · rintro m' hm'; injection hm' with hm'; subst hm'
          refine ⟨?_, hk.prim, hk.cpuc, by simp, by simp, hk.good, hk.gv, hk.gf, hk.pin, fun hb' => ⟨rfl, (hk.orig hb').2⟩⟩
          intro k
          cases k
          · exact hk.nodup .cpu
          · simp only [owned, List.map_nil, List.nil_append]
            exact hg.of_append_right
        · intro k a h'
          cases k
          · simp only [oc]
            by_cases hc : h' = h
            · subst hc
              simp only [if_true, Option.some.injEq, exists_eq_left']
              exact ⟨hown' .cpu a, hown .cpu a⟩
            · simp [hc]
          · simp only []
            rw [hogpu]
            by_cases hc : h' = h
            · simp [hc, owned]
            · simp [hc]
      · refine cInv_less hc hm (o := some { m with consumers := [], mine := [] }) (by simp only [ms1]) ?_ ?_ (by simp only [me1])
        · rintro m' hm'; injection hm' with hm'; subst hm'; exact ⟨rfl, rfl, rfl⟩
        · intro k x hx
          cases k
          · simp only [oc] at hx; exact hx
          · exact ((og x).1 hx).1

theorem destroy_good {cuda : Bool} {w : MaskWorld} (hi : OInv cuda w) {h : Nat} {m : BitMask}
    (hm : w.masks[h]? = some (some m)) (hng : ¬ (m.built = true ∧ m.memType = .gpu)) :
    ∃ w' b, w.destroy cuda h m = .ok (w', b) ∧ OInv cuda w' ∧ (CInv w → CInv w') := by
  have hk := hi.mok h m hm
  have hlt := lt_of_get hm
  have hown : ∀ k a, a ∈ owned k m → (a, h) ∈ w.own k := fun k a ha => (hi.cown k a h).2 ⟨m, hm, ha⟩
  have hown' : ∀ k a, (a, h) ∈ w.own k → a ∈ owned k m := by
    intro k a ha
    obtain ⟨m', hm', ha'⟩ := (hi.cown k a h).1 ha
    rw [hm] at hm'; injection hm' with hm'; injection hm' with hm'; subst hm'; exact ha'
  have hgo : owned .gpu m = m.mine.map Prod.snd := by simp only [owned]; rw [if_neg hng, List.append_nil]
  have hg := hk.nodup .gpu
  rw [hgo] at hg
  -- GPU blocks
  have h1 : ∃ w1, (if cuda then w.putAll h m.mine else .ok w : Outcome MaskWorld) = .ok w1 ∧ Base w1 ∧
      w1.masks = w.masks ∧ w1.mem = w.mem ∧ w1.own .cpu = w.own .cpu ∧
      ∀ x, x ∈ w1.own .gpu ↔ x ∈ w.own .gpu ∧ x.2 ≠ h := by
    have hx : ∀ (x : Nat × Nat), (x ∈ w.own .gpu ∧ ¬ (x.2 = h ∧ x.1 ∈ m.mine.map Prod.snd)) ↔ x ∈ w.own .gpu ∧ x.2 ≠ h := by
      intro ⟨a, h'⟩
      constructor
      · rintro ⟨c1, c2⟩
        refine ⟨c1, ?_⟩
        rintro rfl
        apply c2
        have := hown' .gpu a c1
        rw [hgo] at this
        exact ⟨rfl, this⟩
      · rintro ⟨c1, c2⟩; exact ⟨c1, fun c => c2 c.1⟩
    cases cuda with
    | false =>
      have := hk.mine rfl
      refine ⟨w, rfl, hi.base, rfl, rfl, rfl, fun x => ?_⟩
      rw [← hx, this]; simp
    | true =>
      obtain ⟨w1, e1, b1, ms1, me1, oc, og⟩ := putAll_spec h m.mine hi.base hg
        (fun c hc => hown .gpu c.2 (by rw [hgo]; exact List.mem_map.2 ⟨c, hc, rfl⟩))
      exact ⟨w1, e1, b1, ms1, me1, oc, fun x => by rw [og, hx]⟩
  obtain ⟨w1, e1, b1, ms1, me1, oc, og⟩ := h1
  -- one CPU block at most
  have h2 : ∃ w3, ((if cuda = true ∧ m.builtCpu = true then w1.poolPut h .cpu m.bits else .ok w1 : Outcome MaskWorld) >>= fun w2 =>
      w2.releaseBuilt cuda h m) = .ok w3 ∧ Base w3 ∧ w3.masks = w1.masks ∧ w3.mem = w1.mem ∧
      w3.own .gpu = w1.own .gpu ∧ ∀ x, x ∈ w3.own .cpu ↔ x ∈ w1.own .cpu ∧ x.2 ≠ h := by
    have hput : ∀ b, m.bits = some b → owned .cpu m = [b] → ∃ w3, w1.poolPut h .cpu m.bits = .ok w3 ∧ Base w3 ∧
        w3.masks = w1.masks ∧ w3.mem = w1.mem ∧ w3.own .gpu = w1.own .gpu ∧
        ∀ x, x ∈ w3.own .cpu ↔ x ∈ w1.own .cpu ∧ x.2 ≠ h := by
      intro b hb ho
      have hbo : (b, h) ∈ w1.own .cpu := by rw [oc]; exact hown .cpu b (by rw [ho]; simp)
      obtain ⟨w2, e2, b2, ms2, me2, o2⟩ := poolPut_spec b1 hbo
      refine ⟨w2, by rw [hb]; exact e2, b2, ms2, me2, by rw [o2]; simp, fun x => ?_⟩
      rw [o2]; simp only [if_true]
      rw [(b1.nodup' .cpu).mem_erase_iff, oc]
      obtain ⟨a, h'⟩ := x
      simp only [ne_eq, Prod.mk.injEq]
      constructor
      · rintro ⟨c1, c2⟩
        refine ⟨c2, ?_⟩
        rintro rfl
        have := hown' .cpu a c2
        rw [ho] at this; simp at this
        exact c1 ⟨this, rfl⟩
      · rintro ⟨c1, c2⟩; exact ⟨fun c => c2 c.2, c1⟩
    by_cases hb : m.builtCpu = true
    · obtain ⟨hcu, hg', hbs⟩ := hk.cpuc hb
      obtain ⟨b, hbb⟩ := Option.isSome_iff_exists.1 hbs
      have hnb : ¬ (m.built = true) := fun c => hng ⟨c, hg'⟩
      obtain ⟨w3, e3, r3⟩ := hput b hbb (by simp [owned, hb, hbb])
      rw [if_pos ⟨hcu, hb⟩, e3, Outcome.ok_bind]
      unfold releaseBuilt
      rw [if_neg hnb]
      exact ⟨w3, rfl, r3⟩
    · rw [if_neg (fun c => hb c.2), Outcome.ok_bind]
      unfold releaseBuilt
      by_cases hbu : m.built = true
      · rw [if_pos hbu]
        rcases hk.prim with ⟨c1, c2⟩ | ⟨_, c1, _⟩
        · obtain ⟨b, hbb⟩ := Option.isSome_iff_exists.1 c2
          obtain ⟨w3, e3, r3⟩ := hput b hbb (by simp [owned, hbu, c1, hbb])
          rw [c1]
          exact ⟨w3, e3, r3⟩
        · exact absurd ⟨hbu, c1⟩ hng
      · rw [if_neg hbu]
        refine ⟨w1, rfl, b1, rfl, rfl, rfl, fun ⟨a, h'⟩ => ?_⟩
        refine ⟨fun c => ⟨c, ?_⟩, fun c => c.1⟩
        rintro rfl
        rw [oc] at c
        have := hown' .cpu a c
        simp [owned, hb, hbu] at this
  obtain ⟨w3, e3, b3, ms3, me3, og3, oc3⟩ := h2
  simp only [Outcome.bind_eq_ok] at e3
  obtain ⟨w2, e2, e3⟩ := e3
  refine ⟨{ w3 with masks := w3.masks.set h none }, false, ?_, ?_, fun hc => ?_⟩
  · unfold destroy
    rw [e1, Outcome.ok_bind, e2, Outcome.ok_bind, e3, Outcome.ok_bind]; rfl
  · refine oInv_set hi hlt (o := none) (base_masks b3 _) (by simp only [ms3, ms1]) (fun _ h => by cases h) ?_
    intro k a h'
    cases k
    · simp only [oc3, oc]
      by_cases hc : h' = h <;> simp [hc]
    · simp only [og3, og]
      by_cases hc : h' = h <;> simp [hc]
  · refine cInv_less hc hm (o := none) (by simp only [ms3, ms1]) (by simp) ?_ (by simp only [me3, me1])
    intro k x hx
    cases k
    · have := ((oc3 x).1 hx).1; rwa [oc] at this
    · simp only [og3] at hx; exact ((og x).1 hx).1

/-- Contents after a consumer copy was made or refreshed through mask `h`. -/
theorem cInv_copyTo {cuda : Bool} {w w1 : MaskWorld} (hi : OInv cuda w) (hc : CInv w) {h : Nat} {m m1 : BitMask}
    (hm : w.masks[h]? = some (some m)) (hs : SameMask m m1) {d s : Nat} {k : MemKind}
    (hsrc : w.Holds m s) (hmem : w1.mem = w.mem)
    (hd : (w1.own = (fun k' => if k' = k then (d, h) :: w.own k else w.own k') ∧ (∀ k' h', (d, h') ∉ w.own k')) ∨
      (w1.own = w.own ∧ w.StillHeld m k d)) (ms : List (Option BitMask))
    (hset : ms = w.masks.set h (some m1)) :
    CInv { w1.fill d m1.size (w1.mem s) with masks := ms } := by
  subst hset
  have hsz : m1.size = m.size := by unfold BitMask.size; rw [hs.2.1]
  have hnew : (w1.fill d m1.size (w1.mem s)).Holds m d := by
    have : w1.Holds m s := holds_congr (SameMask.refl _) (by rw [hmem]) hsrc
    rw [hsz]; exact holds_fill this
  intro k' x h' m' hx hm'
  change (x, h') ∈ w1.own k' at hx
  change (w.masks.set h (some m1))[h']? = _ at hm'
  show (w1.fill d m1.size (w1.mem s)).Holds m' x
  rw [get_set (lt_of_get hm)] at hm'
  -- the mask that had number h' before
  have hold : ∃ m0, w.masks[h']? = some (some m0) ∧ SameMask m0 m' := by
    by_cases hh : h' = h
    · subst hh; rw [if_pos rfl] at hm'; injection hm' with hm'; injection hm' with hm'; subst hm'; exact ⟨m, hm, hs⟩
    · rw [if_neg hh] at hm'; exact ⟨m', hm', SameMask.refl _⟩
  obtain ⟨m0, hm0, hs0⟩ := hold
  by_cases hxd : x = d
  · subst hxd
    suffices hsm : SameMask m m0 from
      holds_congr ⟨hsm.1.trans hs0.1, hsm.2.1.trans hs0.2.1, hsm.2.2.trans hs0.2.2⟩ rfl hnew
    rcases hd with ⟨ho, hf⟩ | ⟨ho, h2, m2, hh1, hh2, hh3⟩
    · rw [ho] at hx
      by_cases hk : k' = k
      · subst hk
        simp only [if_true, List.mem_cons, Prod.mk.injEq, true_and] at hx
        rcases hx with rfl | hx
        · rw [hm] at hm0; injection hm0 with hm0; injection hm0 with hm0; subst hm0; exact SameMask.refl _
        · exact absurd hx (hf _ _)
      · simp only [if_neg hk] at hx; exact absurd hx (hf _ _)
    · rw [ho] at hx
      have hdi := DWorld.dInv_reach hi.base.reach
      have hkk : k' = k := by
        refine DWorld.addrs_apart hdi (a := x) ?_ ?_
        · exact DWorld.held_addrs hdi ((hi.base.perm k').mem_iff.2 (List.mem_map.2 ⟨_, hx, rfl⟩))
        · exact DWorld.held_addrs hdi ((hi.base.perm k).mem_iff.2 (List.mem_map.2 ⟨_, hh1, rfl⟩))
      subst hkk
      have := hi.base.unique hx hh1
      subst this
      rw [hh2] at hm0; injection hm0 with hm0; injection hm0 with hm0; subst hm0; exact hh3
  · have hx' : (x, h') ∈ w.own k' := by
      rcases hd with ⟨ho, _⟩ | ⟨ho, _⟩
      · rw [ho] at hx
        by_cases hk : k' = k
        · subst hk
          simp only [if_true, List.mem_cons, Prod.mk.injEq] at hx
          exact hx.resolve_left (fun c => hxd c.1)
        · simpa only [if_neg hk] using hx
      · rwa [ho] at hx
    refine holds_congr hs0 ?_ (hc k' x h' m0 hx' hm0)
    rw [fill_other hxd, hmem]

/-- Ownership after mask `h` obtained block `a` of type `k`. -/
theorem oInv_take {cuda : Bool} {w w1 w2 : MaskWorld} (hi : OInv cuda w) {h : Nat} {m m1 : BitMask}
    (hm : w.masks[h]? = some (some m)) {a : Nat} {k : MemKind} (hb : Base w2)
    (hms : w2.masks = w.masks.set h (some m1)) (hk1 : MOk cuda m1)
    (hw : w2.own = w1.own) (ho : w1.own = (fun k' => if k' = k then (a, h) :: w.own k else w.own k'))
    (h1 : ∀ x, x ∈ owned k m1 ↔ x = a ∨ x ∈ owned k m) (h2 : ∀ k', k' ≠ k → owned k' m1 = owned k' m) :
    OInv cuda w2 := by
  refine oInv_set hi (lt_of_get hm) hb hms (fun m' hm' => by injection hm' with hm'; subst hm'; exact hk1) ?_
  intro k' x h'
  have hown : ∀ k a, (a, h) ∈ w.own k ↔ a ∈ owned k m := by
    intro k a
    rw [hi.cown]
    constructor
    · rintro ⟨m', hm', ha'⟩
      rw [hm] at hm'; injection hm' with hm'; injection hm' with hm'; subst hm'; exact ha'
    · exact fun ha => ⟨m, hm, ha⟩
  rw [hw, ho]
  by_cases hk : k' = k
  · subst hk
    simp only [if_true, List.mem_cons, Prod.mk.injEq]
    by_cases hc : h' = h
    · subst hc; simp [h1, hown]
    · simp [hc]
  · simp only [if_neg hk]
    by_cases hc : h' = h
    · subst hc; simp [h2 k' hk, hown]
    · simp [hc]

theorem oInv_same {cuda : Bool} {w w2 : MaskWorld} (hi : OInv cuda w) {h : Nat} {m : BitMask}
    (hm : w.masks[h]? = some (some m)) (hb : Base w2)
    (hms : w2.masks = w.masks.set h (some m)) (hw : w2.own = w.own) : OInv cuda w2 := by
  have : w.masks.set h (some m) = w.masks := by
    apply List.ext_getElem?
    intro i
    rw [get_set (lt_of_get hm)]
    split
    · subst_vars; exact hm.symm
    · rfl
  refine ⟨hb, fun k a h' => ?_, fun h' m' hm' => ?_⟩
  · rw [hw, hms, this]; exact hi.cown k a h'
  · rw [hms, this] at hm'; exact hi.mok h' m' hm'

theorem cpuConsumer_good {w : MaskWorld} (hi : OInv true w) {h : Nat} {m : BitMask} {fresh}
    (hm : w.masks[h]? = some (some m)) (hmt : m.memType = .gpu) (hf : ∀ k, fresh ∉ w.pool.addrs k) :
    ∃ w' b, w.cpuConsumer h m fresh = .ok (w', b) ∧ OInv true w' ∧ (CInv w → w.Current m → CInv w') := by
  have hk := hi.mok h m hm
  have hext : ∃ e, m.ext = some e := by
    rcases hk.prim with ⟨c, _⟩ | ⟨_, _, c⟩
    · rw [hmt] at c; cases c
    · exact Option.isSome_iff_exists.1 c
  obtain ⟨e, he⟩ := hext
  unfold cpuConsumer
  by_cases hbn : m.bits = none
  · obtain ⟨w1, a, e1, b1, ms1, me1, o1, f1⟩ := poolGet_spec hi.base h .cpu m.size.toNat fresh hf
    have hnb : m.builtCpu = false := by
      by_contra hc
      have := (hk.cpuc (by simpa using hc)).2.2
      rw [hbn] at this; cases this
    rw [if_pos hbn, e1, Outcome.ok_bind]
    dsimp only [Outcome.pure_eq, Outcome.ok_bind, memcpy]
    rw [he]
    dsimp only [Outcome.pure_eq, Outcome.ok_bind]
    refine ⟨_, _, rfl, ?_, fun hc hcur => ?_⟩
    · refine oInv_take hi hm (m1 := { m with builtCpu := true, bits := some a }) (a := a) (k := .cpu) (base_masks (fill_base b1 _ _ _) _)
        (by simp only [fill, ms1]; rw [he]) ?_ rfl o1 ?_ ?_
      · refine ⟨?_, Or.inr ⟨rfl, hmt, by simp [he]⟩, fun _ => ⟨rfl, hmt, rfl⟩, hk.mine, hk.cons, hk.good, hk.gv, hk.gf, hk.pin,
          fun hb' => ⟨(hk.orig hb').1, (hk.orig hb').2.1, fun _ _ => rfl⟩⟩
        intro k; cases k
        · simp [owned]
        · exact hk.nodup .gpu
      · intro x; simp [owned, hbn]
      · intro k' hk'; cases k'
        · exact absurd rfl hk'
        · rfl
    · exact cInv_copyTo hi hc hm (m1 := { m with builtCpu := true, bits := some a }) ⟨rfl, rfl, rfl⟩ (stillHeld_holds hc (hcur.2.1 e he)) me1 (k := .cpu)
        (Or.inl ⟨o1, f1⟩) _ (by simp only [fill, ms1]; rw [he])
  · obtain ⟨b, hb⟩ := Option.ne_none_iff_exists'.1 hbn
    rw [if_neg hbn]
    dsimp only [Outcome.pure_eq, Outcome.ok_bind, memcpy]
    rw [he, hb]
    dsimp only [Outcome.pure_eq, Outcome.ok_bind]
    refine ⟨_, _, rfl, ?_, fun hc hcur => ?_⟩
    · exact oInv_same hi hm (base_masks (fill_base hi.base _ _ _) _) rfl rfl
    · exact cInv_copyTo hi hc hm (SameMask.refl _) (stillHeld_holds hc (hcur.2.1 e he)) rfl (k := .cpu)
        (Or.inr ⟨rfl, hcur.1 b hb⟩) _ rfl

theorem mem_of_lookup {l : List (Nat × Nat)} {k v : Nat} (h : l.lookup k = some v) : (k, v) ∈ l := by
  induction l with
  | nil => cases h
  | cons x xs ih =>
    obtain ⟨a, b⟩ := x
    rw [List.lookup_cons] at h
    by_cases hc : k == a
    · simp only [hc] at h
      injection h with h; subst h
      simp only [beq_iff_eq] at hc; subst hc
      exact List.mem_cons_self
    · simp only [hc] at h
      exact List.mem_cons_of_mem _ (ih h)

theorem gpuConsumer_good {w : MaskWorld} (hi : OInv true w) {h : Nat} {m : BitMask} {dev fresh}
    (hm : w.masks[h]? = some (some m)) (hf : ∀ k, fresh ∉ w.pool.addrs k) :
    ∃ w' b, w.gpuConsumer h m dev fresh = .ok (w', b) ∧ OInv true w' ∧ (CInv w → w.Current m → CInv w') := by
  have hk := hi.mok h m hm
  have hsrc : ∃ s k, (if m.memType = .localRam then m.bits else m.ext) = some s ∧ (w.Current m → w.StillHeld m k s) := by
    rcases hk.prim with ⟨c, c2⟩ | ⟨_, c, c2⟩
    · obtain ⟨s, hs⟩ := Option.isSome_iff_exists.1 c2
      exact ⟨s, .cpu, by rw [c, if_pos rfl, hs], fun hcur => hcur.1 s hs⟩
    · obtain ⟨s, hs⟩ := Option.isSome_iff_exists.1 c2
      exact ⟨s, .gpu, by rw [c, if_neg (by decide), hs], fun hcur => hcur.2.1 s hs⟩
  obtain ⟨s, ks, hs, hcs⟩ := hsrc
  unfold gpuConsumer
  cases hlk : m.consumers.lookup dev with
  | none =>
    obtain ⟨w1, a, e1, b1, ms1, me1, o1, f1⟩ := poolGet_spec hi.base h .gpu m.size.toNat fresh hf
    simp only [Option.isNone_none, if_true]
    rw [e1, Outcome.ok_bind]
    dsimp only [Outcome.pure_eq, Outcome.ok_bind]
    rw [hs, List.lookup_cons_self]
    dsimp only [Outcome.pure_eq, Outcome.ok_bind, memcpy]
    refine ⟨_, _, rfl, ?_, fun hc hcur => ?_⟩
    · refine oInv_take hi hm (m1 := { m with consumers := (dev, a) :: m.consumers, mine := (dev, a) :: m.mine }) (a := a) (k := .gpu)
        (base_masks (fill_base b1 _ _ _) _) (by simp only [fill, ms1]) ?_ rfl o1 ?_ ?_
      · refine ⟨?_, hk.prim, hk.cpuc, by simp, by simp, hk.good, hk.gv, hk.gf, hk.pin,
          fun hb' => ⟨by simp [(hk.orig hb').1], (hk.orig hb').2⟩⟩
        intro k; cases k
        · exact hk.nodup .cpu
        · have h0 := hk.nodup .gpu
          simp only [owned, List.map_cons, List.cons_append] at h0 ⊢
          refine List.nodup_cons.2 ⟨fun hc => ?_, h0⟩
          exact f1 .gpu h ((hi.cown .gpu a h).2 ⟨m, hm, hc⟩)
      · intro x; simp only [owned, List.map_cons, List.cons_append, List.mem_cons]
      · intro k' hk'; cases k'
        · rfl
        · exact absurd rfl hk'
    · exact cInv_copyTo hi hc hm (m1 := { m with consumers := (dev, a) :: m.consumers, mine := (dev, a) :: m.mine }) ⟨rfl, rfl, rfl⟩
        (stillHeld_holds hc (hcs hcur)) me1 (k := .gpu)
        (Or.inl ⟨o1, f1⟩) _ (by simp only [fill, ms1])
  | some d =>
    simp only [Option.isNone_some, Bool.false_eq_true, if_false]
    dsimp only [Outcome.pure_eq, Outcome.ok_bind]
    rw [hlk, hs]
    dsimp only [Outcome.pure_eq, Outcome.ok_bind, memcpy]
    refine ⟨_, _, rfl, ?_, fun hc hcur => ?_⟩
    · exact oInv_same hi hm (base_masks (fill_base hi.base _ _ _) _) rfl rfl
    · exact cInv_copyTo hi hc hm (SameMask.refl _) (stillHeld_holds hc (hcs hcur)) rfl (k := .gpu)
        (Or.inr ⟨rfl, hcur.2.2 (dev, d) (mem_of_lookup hlk)⟩) _ rfl

theorem addConsumer_good {cuda : Bool} {w : MaskWorld} (hi : OInv cuda w) {h : Nat} {m : BitMask} {mt dev fresh}
    (hm : w.masks[h]? = some (some m)) (hf : ∀ k, fresh ∉ w.pool.addrs k) :
    ∃ w' b, w.addConsumer cuda h m mt dev fresh = .ok (w', b) ∧ OInv cuda w' ∧ (CInv w → w.Current m → CInv w') := by
  unfold addConsumer
  split
  · exact ⟨w, false, rfl, hi, fun hc _ => hc⟩
  cases cuda with
  | false => cases mt <;> exact ⟨w, true, rfl, hi, fun hc _ => hc⟩
  | true =>
    cases mt with
    | other => exact ⟨w, true, rfl, hi, fun hc _ => hc⟩
    | localRam =>
      cases hmt : m.memType with
      | localRam => exact ⟨w, false, rfl, hi, fun hc _ => hc⟩
      | other => exact ⟨w, true, rfl, hi, fun hc _ => hc⟩
      | gpu => exact cpuConsumer_good hi hm hmt hf
    | gpu =>
      cases hmt : m.memType with
      | other => exact ⟨w, true, rfl, hi, fun hc _ => hc⟩
      | localRam => exact gpuConsumer_good hi hm hf
      | gpu => exact gpuConsumer_good hi hm hf

theorem step_good {cuda : Bool} {w : MaskWorld} (hi : OInv cuda w) {o : Op} (hl : w.Legal o) :
    ∃ w' b, w.step cuda o = .ok (w', b) ∧ OInv cuda w' ∧
      (CInv w → (∀ h mt dev fresh m, o = .addConsumer h mt dev fresh → w.masks[h]? = some (some m) → w.Current m) → CInv w') := by
  cases o with
  | create points win g mt dev fresh =>
    obtain ⟨w', b, e, h1, h2⟩ := create_good hi hl
    exact ⟨w', b, e, h1, fun hc _ => h2 hc⟩
  | copy h =>
    obtain ⟨w', b, e, h1, h2⟩ := copy_good hi hl
    exact ⟨w', b, e, h1, fun hc _ => h2 hc⟩
  | addConsumer h mt dev fresh =>
    obtain ⟨⟨m, hm⟩, hf⟩ := hl
    obtain ⟨w', b, e, h1, h2⟩ := addConsumer_good hi hm (mt := mt) (dev := dev) hf
    exact ⟨w', b, by unfold step; dsimp only; rw [mask_eq hm]; exact e, h1, fun hc hcur => h2 hc (hcur _ _ _ _ m rfl hm)⟩
  | removeConsumers h =>
    obtain ⟨m, hm⟩ := hl
    obtain ⟨w', b, e, h1, h2⟩ := removeConsumers_good hi hm
    exact ⟨w', b, by unfold step; dsimp only; rw [mask_eq hm]; exact e, h1, fun hc _ => h2 hc⟩
  | destroy h =>
    obtain ⟨m, hm, hng⟩ := hl
    obtain ⟨w', b, e, h1, h2⟩ := destroy_good hi hm hng
    exact ⟨w', b, by unfold step; dsimp only; rw [mask_eq hm]; exact e, h1, fun hc _ => h2 hc⟩

theorem run_good {cuda : Bool} : ∀ (os : List Op) {w : MaskWorld}, OInv cuda w → w.LegalRun cuda os →
    ∃ w', w.run cuda os = .ok w' ∧ OInv cuda w'
  | [], w, hi, _ => ⟨w, rfl, hi⟩
  | o :: os, w, hi, hl => by
    obtain ⟨w1, b, e1, h1, _⟩ := step_good hi hl.1
    have hl2 := hl.2
    rw [e1] at hl2
    obtain ⟨w2, e2, h2⟩ := run_good os h1 hl2
    exact ⟨w2, by unfold run; rw [e1, Outcome.ok_bind]; exact e2, h2⟩

theorem careful_good {cuda : Bool} : ∀ (os : List Op) {w : MaskWorld}, OInv cuda w → CInv w → w.Careful cuda os →
    ∃ w', w.run cuda os = .ok w' ∧ OInv cuda w' ∧ CInv w'
  | [], w, hi, hc, _ => ⟨w, rfl, hi, hc⟩
  | o :: os, w, hi, hc, hl => by
    obtain ⟨w1, b, e1, h1, h1'⟩ := step_good hi hl.1
    have hl2 := hl.2.2
    rw [e1] at hl2
    obtain ⟨w2, e2, h2⟩ := careful_good os h1 (h1' hc hl.2.1) hl2
    exact ⟨w2, by unfold run; rw [e1, Outcome.ok_bind]; exact e2, h2⟩

end MaskWorld
end SpatialOps
