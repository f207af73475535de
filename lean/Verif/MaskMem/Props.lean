import Verif.MaskMem.Steps

/-!
# C56, C57: memory of masks
-/

namespace SpatialOps
open MaskWorld

/-- C56, for histories in which no GPU mask is destroyed. In every history of building,
copying, sharing with devices and destroying masks, no operation fails, at every point each
block handed out to masks has exactly one owner, which still exists, the pool's account
agrees and no block was given back by a mask that did not hold it, or with the wrong memory
type. Missing: destruction of GPU masks, which is wrong (`C56_gpu_mask_poisons_pool`), and
GPU masks built with points (`C56_refused_gpu_mask_leaks`). -/
theorem C56_histories_partial (cuda : Bool) (mem : Nat → Int → BitVec 32) (os : List Op)
    (hl : LegalRun cuda (init mem) os) : ∃ w, (init mem).run cuda os = .ok w ∧ w.Accounted := by
  obtain ⟨w, e, hi⟩ := run_good os (oInv_init cuda mem) hl
  refine ⟨w, e, ?_, hi.base.perm, hi.base.nodup, hi.base.mis⟩
  intro k a h hm
  obtain ⟨m, hm, _⟩ := (hi.cown k a h).1 hm
  exact ⟨m, hm⟩

/-- C56. While a mask built by its constructor exists, the memory it was built with has not been
given back. -/
theorem C56_live_mask_keeps_memory (cuda : Bool) (mem : Nat → Int → BitVec 32) (os : List Op)
    (hl : LegalRun cuda (init mem) os) (w : MaskWorld) (hw : (init mem).run cuda os = .ok w) (h : Nat) (m : BitMask)
    (hm : w.masks[h]? = some (some m)) (hb : m.built = true) :
    (m.memType = .localRam → ∃ a, m.bits = some a ∧ (a, h) ∈ w.own .cpu ∧ a ∈ w.pool.held .cpu) ∧
    (m.memType = .gpu → ∃ a, m.ext = some a ∧ (a, h) ∈ w.own .gpu ∧ a ∈ w.pool.held .gpu) ∧ m.memType ≠ .other := by
  obtain ⟨w', e, hi⟩ := run_good os (oInv_init cuda mem) hl
  rw [e] at hw; injection hw with hw; subst hw
  have hk := hi.mok h m hm
  have hh : ∀ k a, a ∈ owned k m → (a, h) ∈ w'.own k ∧ a ∈ w'.pool.held k := by
    intro k a ha
    have h1 := (hi.cown k a h).2 ⟨m, hm, ha⟩
    exact ⟨h1, (hi.base.perm k).mem_iff.2 (List.mem_map.2 ⟨_, h1, rfl⟩)⟩
  refine ⟨fun hc => ?_, fun hc => ?_, fun hc => ?_⟩
  · rcases hk.prim with ⟨_, c⟩ | ⟨_, c, _⟩
    · obtain ⟨a, ha⟩ := Option.isSome_iff_exists.1 c
      exact ⟨a, ha, hh .cpu a (by simp [owned, hb, hc, ha])⟩
    · rw [hc] at c; cases c
  · rcases hk.prim with ⟨c, _⟩ | ⟨_, _, c⟩
    · rw [hc] at c; cases c
    · obtain ⟨a, ha⟩ := Option.isSome_iff_exists.1 c
      exact ⟨a, ha, hh .gpu a (by simp [owned, hb, hc, ha])⟩
  · rcases hk.prim with ⟨c, _⟩ | ⟨_, c, _⟩ <;> (rw [hc] at c; cases c)

/-- C56. When no mask is left, all memory has been given back. -/
theorem C56_no_leak (cuda : Bool) (mem : Nat → Int → BitVec 32) (os : List Op)
    (hl : LegalRun cuda (init mem) os) (w : MaskWorld) (hw : (init mem).run cuda os = .ok w)
    (hnone : ∀ h, ¬ w.Alive h) : ∀ k, w.pool.held k = [] ∧ w.own k = [] := by
  obtain ⟨w', e, ha⟩ := C56_histories_partial cuda mem os hl
  rw [e] at hw; injection hw with hw; subst hw
  intro k
  have hc : w'.own k = [] := List.eq_nil_iff_forall_not_mem.2 (fun p hp => hnone p.2 (ha.owner_alive k p.1 p.2 hp))
  refine ⟨?_, hc⟩
  have := ha.pool_agrees k; rw [hc] at this; exact List.Perm.eq_nil this

/-- C56. A copy obtains no memory, and destroying it gives none back. -/
theorem C56_copies_own_nothing (cuda : Bool) (w w' : MaskWorld) (h : Nat) (b : Bool)
    (hs : w.step cuda (.copy h) = .ok (w', b)) :
    w'.own = w.own ∧ w'.pool = w.pool ∧
    ∃ w'', w'.step cuda (.destroy w.masks.length) = .ok (w'', false) ∧ w''.own = w.own ∧ w''.pool = w.pool ∧
      w''.misput = w.misput := by
  unfold step at hs
  simp only [Outcome.bind_eq_ok] at hs
  obtain ⟨m, _, _, _, hs⟩ := hs
  injection hs with hs
  injection hs with hs _
  subst hs
  refine ⟨rfl, rfl, ?_⟩
  unfold step
  dsimp only
  rw [mask_eq (m := m.copyOf) (by simp), Outcome.ok_bind]
  unfold destroy
  cases cuda <;> exact ⟨_, rfl, rfl, rfl, rfl⟩

/-- C57. In every legal history in which consumers are added only through masks whose memory is
still held, every mask shows its points on every device it is available on: whatever
`mask_values` returns, for any mask whose memory is still held, is a block whose words test true
exactly at the points the mask was built with. Missing: histories that add consumers through
copies whose memory was released, where it is false (`C57_stale_copy_overwrites`). -/
theorem C57_contents_partial (cuda : Bool) (mem : Nat → Int → BitVec 32) (os : List Op)
    (hl : Careful cuda (init mem) os) :
    ∃ w, (init mem).run cuda os = .ok w ∧ ∀ (h : Nat) (m : BitMask) (mt : MemType) (dev : Nat) (p : Option Nat),
      w.masks[h]? = some (some m) → w.Current m →
      m.maskValues cuda mt dev = .ok p → ∃ b, p = some b ∧ w.Shows m b := by
  obtain ⟨w, e, hi, hc⟩ := careful_good os (oInv_init cuda mem) (cInv_init mem) hl
  refine ⟨w, e, fun h m mt dev p hm hcur hp => ?_⟩
  have hk := hi.mok h m hm
  have hs : ∀ k b, w.StillHeld m k b → w.Shows m b := fun k b hb => holds_shows hk (stillHeld_holds hc hb)
  unfold BitMask.maskValues at hp
  cases mt with
  | other => cases hp
  | localRam =>
    simp only [] at hp
    split at hp
    · cases hp
    · injection hp with hp
      obtain ⟨b, hb⟩ := Option.ne_none_iff_exists'.1 ‹_›
      exact ⟨b, hp.symm.trans hb, hs .cpu b (hcur.1 b hb)⟩
  | gpu =>
    simp only [] at hp
    split at hp
    · split at hp
      · rename_i hx
        injection hp with hp
        rcases hk.prim with ⟨c, _⟩ | ⟨_, _, c⟩
        · rw [hx.1] at c; cases c
        · obtain ⟨b, hb⟩ := Option.isSome_iff_exists.1 c
          exact ⟨b, hp.symm.trans hb, hs .gpu b (hcur.2.1 b hb)⟩
      · split at hp
        · injection hp with hp
          exact ⟨_, hp.symm, hs .gpu _ (hcur.2.2 _ (mem_of_lookup ‹_›))⟩
        · cases hp
    · cases hp

/-- C57. Masks that are not copies always refer to memory that is still held, so the
previous theorem applies to them whatever happened to other masks. -/
theorem C57_originals_current (cuda : Bool) (mem : Nat → Int → BitVec 32) (os : List Op)
    (hl : LegalRun cuda (init mem) os) (w : MaskWorld) (hw : (init mem).run cuda os = .ok w) (h : Nat) (m : BitMask)
    (hm : w.masks[h]? = some (some m)) (hb : m.built = true) : w.Current m := by
  obtain ⟨w', e, hi⟩ := run_good os (oInv_init cuda mem) hl
  rw [e] at hw; injection hw with hw; subst hw
  exact original_current hi hm hb

/-- C57. When `add_consumer` returns normally, the mask is available on the requested device. -/
theorem C57_available (cuda : Bool) (mem : Nat → Int → BitVec 32) (os : List Op)
    (hl : LegalRun cuda (init mem) os) (w w' : MaskWorld) (hw : (init mem).run cuda os = .ok w) (h : Nat)
    (mt : MemType) (dev fresh : Nat) (hs : w.step cuda (.addConsumer h mt dev fresh) = .ok (w', false)) :
    ∃ m p, w'.masks[h]? = some (some m) ∧ m.maskValues cuda mt dev = .ok p := by
  obtain ⟨w0, e, hi⟩ := run_good os (oInv_init cuda mem) hl
  rw [e] at hw; injection hw with hw; subst hw
  unfold step at hs
  simp only [Outcome.bind_eq_ok] at hs
  obtain ⟨m, hm, hs⟩ := hs
  have hm' : w0.masks[h]? = some (some m) := by
    unfold mask at hm
    split at hm
    · injection hm with hm; subst hm; assumption
    · cases hm
  have hlt := lt_of_get hm'
  have hk := hi.mok h m hm'
  have hprim : m.memType ≠ .other := by
    rcases hk.prim with ⟨c, _⟩ | ⟨_, c, _⟩ <;> (rw [c]; decide)
  unfold addConsumer at hs
  split at hs
  · rename_i hloc
    injection hs with hs; injection hs with hs _; subst hs
    refine ⟨m, ?_⟩
    rcases hk.prim with ⟨c, c2⟩ | ⟨c0, c, c2⟩
    · obtain ⟨b, hb⟩ := Option.isSome_iff_exists.1 c2
      exact ⟨some b, hm', by rw [hloc.1, c]; simp [BitMask.maskValues, hb]⟩
    · exact ⟨m.ext, hm', by rw [hloc.1, c, c0]; simp [BitMask.maskValues, c, hloc.2]⟩
  rename_i hnl
  cases cuda with
  | false => cases mt <;> (injection hs with hs; cases hs)
  | true =>
    cases mt with
    | other => injection hs with hs; cases hs
    | localRam =>
      cases hmt : m.memType with
      | localRam =>
        simp only [hmt, if_true] at hs
        injection hs with hs; injection hs with hs _; subst hs
        rcases hk.prim with ⟨c, c2⟩ | ⟨_, c, _⟩
        · obtain ⟨b, hb⟩ := Option.isSome_iff_exists.1 c2
          exact ⟨m, some b, hm', by simp [BitMask.maskValues, hb]⟩
        · rw [hmt] at c; cases c
      | other => exact absurd hmt hprim
      | gpu =>
        simp only [hmt, if_true] at hs
        unfold cpuConsumer at hs
        simp only [Outcome.bind_eq_ok] at hs
        obtain ⟨⟨w1, m1⟩, h1, w2, h2, hs⟩ := hs
        have hms : w2.masks = w1.masks := by
          unfold memcpy at h2
          split at h2
          · injection h2 with h2; subst h2; rfl
          · cases h2
        have hb : m1.bits ≠ none ∧ w1.masks = w0.masks := by
          split at h1
          · simp only [Outcome.bind_eq_ok] at h1
            obtain ⟨⟨wg, a⟩, hg, h1⟩ := h1
            injection h1 with h1; injection h1 with h1 h1'; subst h1 h1'
            unfold poolGet at hg
            simp only [Outcome.bind_eq_ok] at hg
            obtain ⟨_, _, _, _, hg⟩ := hg
            injection hg with hg; injection hg with hg _; subst hg
            exact ⟨by simp, rfl⟩
          · injection h1 with h1; injection h1 with h1 h1'; subst h1 h1'
            exact ⟨by assumption, rfl⟩
        injection hs with hs; injection hs with hs _; subst hs
        refine ⟨m1, m1.bits, ?_, by simp [BitMask.maskValues, hb.1]⟩
        simp only [hms, hb.2]
        rw [get_set hlt, if_pos rfl]
    | gpu =>
      have hs' : w0.gpuConsumer h m dev fresh = .ok (w', false) := by
        cases hmt : m.memType with
        | other => exact absurd hmt hprim
        | localRam => simpa [hmt] using hs
        | gpu => simpa [hmt] using hs
      unfold gpuConsumer at hs'
      simp only [Outcome.bind_eq_ok] at hs'
      obtain ⟨⟨w1, m1⟩, h1, w2, h2, hs'⟩ := hs'
      have hms : w2.masks = w1.masks := by
        unfold memcpy at h2
        split at h2
        · injection h2 with h2; subst h2; rfl
        · cases h2
      have hb : (∃ b, m1.consumers.lookup dev = some b) ∧ w1.masks = w0.masks := by
        split at h1
        · simp only [Outcome.bind_eq_ok] at h1
          obtain ⟨⟨wg, a⟩, hg, h1⟩ := h1
          injection h1 with h1; injection h1 with h1 h1'; subst h1 h1'
          unfold poolGet at hg
          simp only [Outcome.bind_eq_ok] at hg
          obtain ⟨_, _, _, _, hg⟩ := hg
          injection hg with hg; injection hg with hg _; subst hg
          exact ⟨⟨a, by simp⟩, rfl⟩
        · injection h1 with h1; injection h1 with h1 h1'; subst h1 h1'
          rename_i hn
          simp only [Option.isNone_iff_eq_none] at hn
          exact ⟨Option.ne_none_iff_exists'.1 hn, rfl⟩
      obtain ⟨⟨b, hb⟩, hb2⟩ := hb
      injection hs' with hs'; injection hs' with hs' _; subst hs'
      have hmask : (w2.masks.set h (some m1))[h]? = some (some m1) := by
        rw [hms, hb2, get_set hlt, if_pos rfl]
      by_cases hcc : m1.memType = .gpu ∧ dev = m1.dev
      · exact ⟨m1, m1.ext, hmask, by simp [BitMask.maskValues, hcc]⟩
      · exact ⟨m1, some b, hmask, by simp only [BitMask.maskValues, if_true, if_neg hcc, hb]⟩

/-- C57. A client that adds consumers only through masks that are not copies satisfies the
hypothesis of `C57_contents_partial`. -/
theorem C57_originals_careful (cuda : Bool) (mem : Nat → Int → BitVec 32) (os : List Op)
    (hl : LegalRun cuda (init mem) os)
    (ho : ∀ pre h mt dev fresh post w m, os = pre ++ .addConsumer h mt dev fresh :: post →
      (init mem).run cuda pre = .ok w → w.masks[h]? = some (some m) → m.built = true) :
    Careful cuda (init mem) os := by
  have key : ∀ (os : List Op) (w : MaskWorld), OInv cuda w → w.LegalRun cuda os →
      (∀ pre h mt dev fresh post w' m, os = pre ++ .addConsumer h mt dev fresh :: post →
        w.run cuda pre = .ok w' → w'.masks[h]? = some (some m) → m.built = true) → w.Careful cuda os := by
    intro os
    induction os with
    | nil => intro w _ _ _; trivial
    | cons o os ih =>
      intro w hi hl ho
      obtain ⟨w1, b, e1, h1, _⟩ := step_good hi hl.1
      refine ⟨hl.1, ?_, ?_⟩
      · rintro h mt dev fresh m rfl hm
        exact original_current hi hm (ho [] h mt dev fresh os w m rfl rfl hm)
      · have hl2 := hl.2
        rw [e1] at hl2 ⊢
        refine ih w1 h1 hl2 ?_
        intro pre h mt dev fresh post w' m hos hrun hm
        refine ho (o :: pre) h mt dev fresh post w' m (by rw [hos]; rfl) ?_ hm
        unfold run; rw [e1, Outcome.ok_bind]; exact hrun
  exact key os _ (oInv_init cuda mem) hl ho

/-- Windows and ghosts for the examples: a 3×3×1 patch with one ghost layer in x and y. -/
def exMaskWin : Window := ⟨⟨5, 5, 1⟩, ⟨1, 1, 0⟩, ⟨3, 3, 1⟩⟩
/-- See `exMaskWin`. -/
def exMaskGhosts : GhostData := ⟨⟨1, 1, 0⟩, ⟨1, 1, 0⟩, false⟩
/-- Memory that is zero. -/
def exMaskMem : Nat → Int → BitVec 32 := fun _ _ => 0

/-- C56, what fails. Destroying a GPU mask returns its device memory to the pool of CPU memory: a
CPU mask built next is given that device memory. -/
theorem C56_gpu_mask_poisons_pool :
    ∃ w m, (init exMaskMem).run true [.create [⟨0, 0, 0⟩] exMaskWin exMaskGhosts .localRam 0 1, .create [] exMaskWin exMaskGhosts .gpu 0 2,
        .destroy 1, .create [⟨1, 1, 0⟩] exMaskWin exMaskGhosts .localRam 0 3] = .ok w ∧
      w.masks[2]? = some (some m) ∧ m.memType = .localRam ∧ m.bits = some 2 ∧
      (∃ s, (2, s, .device) ∈ w.pool.heap .gpu) ∧ 2 ∈ w.pool.held .gpu ∧ (.cpu, 2) ∈ w.misput := by
  refine ⟨_, _, rfl, rfl, rfl, rfl, ⟨1, ?_⟩, ?_, ?_⟩ <;> decide

/-- C56, what fails. Building a GPU mask with points is refused by an exception, and the memory
obtained for it is never given back. -/
theorem C56_refused_gpu_mask_leaks :
    ∃ w, (init exMaskMem).step true (.create [⟨0, 0, 0⟩] exMaskWin exMaskGhosts .gpu 0 2) = .ok (w, true) ∧
      (∀ h, ¬ w.Alive h) ∧ 2 ∈ w.pool.held .gpu := by
  refine ⟨_, rfl, ?_, ?_⟩
  · rintro h ⟨m, hm⟩
    match h with
    | 0 => cases hm
    | _ + 1 => cases hm
  · decide

/-- C57, what fails. After `remove_consumers` on a mask, a copy of it still refers to the released
device memory; adding that consumer again through the copy overwrites the mask which has this
memory now: the third mask does not show its point any more. -/
theorem C57_stale_copy_overwrites :
    ∃ w m, (init exMaskMem).run true [.create [⟨0, 0, 0⟩] exMaskWin exMaskGhosts .localRam 0 1, .addConsumer 0 .gpu 0 2, .copy 0,
        .removeConsumers 0, .create [⟨1, 1, 0⟩] exMaskWin exMaskGhosts .localRam 0 3, .addConsumer 2 .gpu 0 4,
        .addConsumer 1 .gpu 0 5] = .ok w ∧
      w.masks[2]? = some (some m) ∧ m.points = [⟨1, 1, 0⟩] ∧ m.built = true ∧ m.maskValues true .gpu 0 = .ok (some 2) ∧
      (w.readAs m 2).query ⟨1, 1, 0⟩ = .ok false := by
  refine ⟨_, _, rfl, rfl, ?_, ?_, ?_, ?_⟩
  · rfl
  · rfl
  · decide
  · decide

/-- C57. `find_consumer`, when it answers, tells whether the mask is available: `mask_values` returns words for that device just when the
answer is yes. -/
theorem C57_find_consumer (cuda : Bool) (mem : Nat → Int → BitVec 32) (os : List Op)
    (hl : LegalRun cuda (init mem) os) (w : MaskWorld) (hw : (init mem).run cuda os = .ok w) (h : Nat) (m : BitMask)
    (hm : w.masks[h]? = some (some m)) (mt : MemType) (dev : Nat) (r : Bool) (hr : m.findConsumer cuda mt dev = .ok r) :
    r = true ↔ ∃ b, m.maskValues cuda mt dev = .ok (some b) := by
  obtain ⟨w', e, hi⟩ := run_good os (oInv_init cuda mem) hl
  rw [e] at hw; injection hw with hw; subst hw
  have hp := (hi.mok h m hm).prim
  unfold BitMask.findConsumer at hr
  unfold BitMask.maskValues
  split at hr
  · rename_i hx
    injection hr with hr
    subst hr
    obtain ⟨rfl, rfl⟩ := hx
    rcases hp with ⟨h1, h2⟩ | ⟨h1, h2, h3⟩
    · obtain ⟨b, hb⟩ := Option.isSome_iff_exists.1 h2
      simp [h1, hb]
    · obtain ⟨b, hb⟩ := Option.isSome_iff_exists.1 h3
      simp [h1, h2, hb]
  · rename_i hx
    cases mt with
    | other => cases hr
    | localRam =>
      dsimp only at hr ⊢
      split at hr
      · injection hr with hr
        subst hr
        cases hb : m.bits <;> simp
      · cases hr
    | gpu =>
      dsimp only at hr ⊢
      split at hr
      · rename_i hc
        injection hr with hr
        subst hr
        rw [if_pos hc, if_neg fun h => hx ⟨h.1.symm, h.2⟩]
        cases m.consumers.lookup dev <;> simp
      · cases hr

/-- C57. When `find_consumer` does not answer it throws. It does so for device types the build does not have, and for a mask in
CPU memory asked for the CPU with another device number, although `mask_values` ignores that number. -/
theorem C57_find_consumer_throws (cuda : Bool) (mem : Nat → Int → BitVec 32) (os : List Op)
    (hl : LegalRun cuda (init mem) os) (w : MaskWorld) (hw : (init mem).run cuda os = .ok w) (h : Nat) (m : BitMask)
    (hm : w.masks[h]? = some (some m)) (mt : MemType) (dev : Nat) :
    (∃ r, m.findConsumer cuda mt dev = .ok r) ∨ (m.findConsumer cuda mt dev = .throws ∧
      (mt = .other ∨ (mt = .gpu ∧ cuda = false) ∨ (mt = .localRam ∧ m.memType = .localRam ∧ dev ≠ m.dev ∧
        ∃ b, m.maskValues cuda mt dev = .ok (some b)))) := by
  obtain ⟨w', e, hi⟩ := run_good os (oInv_init cuda mem) hl
  rw [e] at hw; injection hw with hw; subst hw
  have hp := (hi.mok h m hm).prim
  unfold BitMask.findConsumer BitMask.maskValues
  split
  · exact .inl ⟨_, rfl⟩
  · rename_i hx
    cases mt with
    | other => exact .inr ⟨rfl, .inl rfl⟩
    | localRam =>
      rcases hp with ⟨h1, h2⟩ | ⟨h1, h2, h3⟩
      · obtain ⟨b, hb⟩ := Option.isSome_iff_exists.1 h2
        exact .inr ⟨by simp [h1], .inr (.inr ⟨rfl, h1, fun hd => hx ⟨h1.symm, hd⟩, b, by simp [hb]⟩)⟩
      · exact .inl ⟨m.bits.isSome, by simp [h1, h2]⟩
    | gpu =>
      cases cuda with
      | true => exact .inl ⟨_, rfl⟩
      | false => exact .inr ⟨rfl, .inr (.inl ⟨rfl, rfl⟩)⟩

/-- Example: a mask in CPU memory with a copy on GPU 0 is found there, not on GPU 1, and asking for CPU number 1 throws. -/
example : ∃ w m, (init exMaskMem).run true [.create [⟨0, 0, 0⟩] exMaskWin exMaskGhosts .localRam 0 1, .addConsumer 0 .gpu 0 2] = .ok w ∧
    w.masks[0]? = some (some m) ∧ m.findConsumer true .gpu 0 = .ok true ∧ m.findConsumer true .gpu 1 = .ok false ∧
    m.findConsumer true .localRam 1 = .throws := by
  refine ⟨_, _, rfl, rfl, ?_, ?_, ?_⟩ <;> decide

/-- C57 (violation). `has_consumers` looks at GPU 0 only: a mask in CPU memory that was made available on GPU 1 is said to have no
consumers. -/
theorem C57_has_consumers_misses_devices :
    ∃ w m, (init exMaskMem).run true [.create [⟨0, 0, 0⟩] exMaskWin exMaskGhosts .localRam 0 1, .addConsumer 0 .gpu 1 2] = .ok w ∧
      w.masks[0]? = some (some m) ∧ m.maskValues true .gpu 1 = .ok (some 2) ∧ m.hasConsumers = .ok false := by
  refine ⟨_, _, rfl, rfl, ?_, ?_⟩ <;> decide

/-- A legal history with a device copy, a shallow copy and their destruction. -/
example : LegalRun true (init exMaskMem) [.create [⟨0, 0, 0⟩] exMaskWin exMaskGhosts .localRam 0 1, .addConsumer 0 .gpu 0 2, .copy 0,
    .create [] exMaskWin exMaskGhosts .gpu 1 3, .addConsumer 2 .localRam 0 4, .removeConsumers 2, .destroy 1, .destroy 0] := by
  have hf : GhostedFits exMaskWin exMaskGhosts := by decide
  refine ⟨⟨hf, by decide, by decide, ?_⟩, ⟨⟨_, rfl⟩, ?_⟩, ⟨_, rfl⟩, ⟨hf, by decide, by decide, ?_⟩, ⟨⟨_, rfl⟩, ?_⟩, ⟨_, rfl⟩,
    ⟨_, rfl, by decide⟩, ⟨_, rfl, by decide⟩, trivial⟩ <;> (intro k; cases k <;> decide)

/-- A careful history after which the mask is available on a device. -/
example : Careful true (init exMaskMem) [.create [⟨0, 0, 0⟩] exMaskWin exMaskGhosts .localRam 0 1, .addConsumer 0 .gpu 0 2] := by
  have hf : GhostedFits exMaskWin exMaskGhosts := by decide
  apply C57_originals_careful
  · refine ⟨⟨hf, by decide, by decide, ?_⟩, ⟨⟨_, rfl⟩, ?_⟩, trivial⟩ <;> (intro k; cases k <;> decide)
  · intro pre h mt dev fresh post w m hos hrun hm
    match pre, hos with
    | [], hos => cases hos
    | [o], hos =>
      injection hos with h1 h2
      injection h2 with h2 _
      injection h2 with h2
      subst h1 h2
      unfold run at hrun
      injection hrun with hrun
      subst hrun
      injection hm with hm; injection hm with hm; subst hm
      rfl
    | o :: o' :: pre, hos =>
      injection hos with _ h2
      injection h2 with _ h2
      cases pre <;> cases h2

end SpatialOps
