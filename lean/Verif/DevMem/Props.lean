import Verif.DevMem.Lemmas

/-!
# Properties of device memory: C87 (statistics) and C88 (bytes)
-/

namespace SpatialOps
namespace DevMem

/-- The full statement of C87: after an update of the statistics, every device is described by its own. -/
def StatsPerDevice (n : Nat) (total : Nat → Nat) : Prop :=
  ∀ w, Reach n total w → ∃ w', w.step .update = .ok (w', .done) ∧
    ∀ K : Nat, K < n → ∃ s, w'.step (.getStats K) = .ok (w', .stats s) ∧ Describes w' K s

/-- What holds on any machine: all devices report the numbers of the device that is current. -/
theorem _root_.SpatialOps.C87_reports_current_device {n : Nat} {total : Nat → Nat} {w : DevMem} (h : Reach n total w) :
    ∃ w', w.step .update = .ok (w', .done) ∧ w'.live = w.live ∧ w'.bytes = w.bytes ∧ w'.cur = w.cur ∧
      ∀ K : Nat, K < n → ∃ s, w'.step (.getStats K) = .ok (w', .stats s) ∧ Describes w' w.cur s := by
  have hi := h.inv
  refine ⟨_, rfl, rfl, rfl, rfl, fun K hK => ?_⟩
  refine ⟨⟨w.total w.cur - w.used w.cur, w.total w.cur, w.total w.cur - (w.total w.cur - w.used w.cur)⟩, ?_, ?_⟩
  · have h1 : ¬ ((K : Int) < 0 ∨ (K : Int) ≥ (w.nDev : Int)) := by have := hi.ndev; omega
    have h2 : K < w.nDev := by have := hi.ndev; omega
    simp only [step, getStats, if_neg h1, Int.toNat_natCast, if_pos h2]
  · have h3 := hi.fits w.cur
    rw [← hi.tot] at h3
    refine ⟨rfl, ?_, ?_⟩
    · show _ = w.used w.cur
      dsimp only
      omega
    · dsimp only
      omega

/-- The claim holds on a machine with one device. -/
theorem _root_.SpatialOps.C87_one_device_partial (total : Nat → Nat) : StatsPerDevice 1 total := by
  intro w h
  obtain ⟨w', h1, _, _, _, h2⟩ := C87_reports_current_device h
  refine ⟨w', h1, fun K hK => ?_⟩
  obtain ⟨s, h3, h4⟩ := h2 K hK
  have := h.inv.cur (by omega)
  obtain rfl : K = w.cur := by omega
  exact ⟨s, h3, h4⟩

/-- It fails on every machine with more devices than one whose sizes differ, from the start of the program. -/
theorem _root_.SpatialOps.C87_wrong_device {n : Nat} {total : Nat → Nat} {K : Nat} (hK : K < n) (h0 : total K ≠ total 0) :
    ¬ StatsPerDevice n total := by
  intro h
  obtain ⟨w', h1, h2⟩ := h (init n total fun _ _ => 0) ⟨_, [], trivial, rfl⟩
  obtain ⟨s, h3, h4, _, _⟩ := h2 K hK
  simp only [step] at h1
  injection h1 with h1
  obtain ⟨h1, -⟩ := Prod.mk.injEq .. |>.mp h1
  subst h1
  have h5 : ¬ ((K : Int) < 0 ∨ (K : Int) ≥ ((init n total fun _ _ => 0).nDev : Int)) := by
    show ¬ ((K : Int) < 0 ∨ (K : Int) ≥ (n : Int)); omega
  have h6 : K < (init n total fun _ _ => 0).nDev := hK
  simp only [step, getStats, if_neg h5, Int.toNat_natCast, if_pos h6] at h3
  injection h3 with h3
  obtain ⟨-, h3⟩ := Prod.mk.injEq .. |>.mp h3
  injection h3 with h3
  subst h3
  exact h0 h4.symm

/-- And on machines with equal devices: memory taken on one device is reported as used on the other, and not on its
own once another device is current. -/
theorem _root_.SpatialOps.C87_usage_of_other_device :
    ¬ StatsPerDevice 2 fun _ => 100 := by
  intro h
  obtain ⟨w', h1, h2⟩ := h ⟨2, fun _ => 100, 0, [⟨7, 0, 40⟩], fun _ _ => 0, fun _ => ⟨0, 0, 0⟩⟩
    ⟨fun _ _ => 0, [.getRaw 40 0 7], ⟨fun b hb => (by cases hb), fun _ _ => trivial⟩, rfl⟩
  obtain ⟨s, h3, _, h4, _⟩ := h2 1 (by omega)
  simp only [step] at h1
  injection h1 with h1
  obtain ⟨h1, -⟩ := Prod.mk.injEq .. |>.mp h1
  subst h1
  have h3' : (Outcome.ok (_, Reply.stats ⟨60, 100, 40⟩) : Outcome (DevMem × Reply)) = _ := h3
  injection h3' with h3'
  obtain ⟨-, h3'⟩ := Prod.mk.injEq .. |>.mp h3'
  injection h3' with h3'
  subst h3'
  exact absurd h4 (by decide)

/-- Reports are snapshots: whatever is allocated, released or copied between, the same numbers are reported until the next
update; before the first they are zero. -/
theorem _root_.SpatialOps.C87_snapshot {w w' : DevMem} {os : List Op} (hr : w.run os = .ok w') (hu : ∀ o ∈ os, o ≠ .update)
    (K : Int) (s : MemStats) : w.step (.getStats K) = .ok (w, .stats s) ↔ w'.step (.getStats K) = .ok (w', .stats s) := by
  obtain ⟨h1, h2⟩ := run_stats hr hu
  simp only [step, getStats, h1, h2]
  split <;> simp

theorem _root_.SpatialOps.C87_zero_before_update {n : Nat} {total : Nat → Nat} {bytes} {os : List Op} {w : DevMem}
    (hr : (init n total bytes).run os = .ok w) (hu : ∀ o ∈ os, o ≠ .update) {K : Nat} (hK : K < n) :
    w.step (.getStats K) = .ok (w, .stats ⟨0, 0, 0⟩) := by
  refine (C87_snapshot hr hu K ⟨0, 0, 0⟩).1 ?_
  have h5 : ¬ ((K : Int) < 0 ∨ (K : Int) ≥ ((init n total bytes).nDev : Int)) := by
    show ¬ ((K : Int) < 0 ∨ (K : Int) ≥ (n : Int)); omega
  simp only [step, getStats, if_neg h5]
  rfl

/-- A device that does not exist is refused, and nothing changes. -/
theorem _root_.SpatialOps.C87_bad_device_refused {n : Nat} {total : Nat → Nat} {w : DevMem} (h : Reach n total w) :
    (∀ K : Int, K < 0 ∨ K ≥ n → w.step (.getStats K) = .ok (w, .threw)) ∧
    (∀ K : Nat, n ≤ K →
      (∀ m a, w.step (.getRaw m K a) = .ok (w, .threw)) ∧ (∀ a, w.step (.release a K) = .ok (w, .threw)) ∧
      (∀ a src, w.step (.copyTo a src K) = .ok (w, .threw)) ∧ (∀ a m, w.step (.copyFrom a m K) = .ok (w, .threw)) ∧
      (∀ a v m, w.step (.memset a v m K) = .ok (w, .threw)) ∧
      ∀ a b m J, w.step (.copyPeer a K b J m) = .ok (w, .threw) ∧ w.step (.copyPeer a J b K m) = .ok (w, .threw)) := by
  have hn := h.inv.ndev
  refine ⟨fun K hK => by simp only [step, getStats, hn, if_pos hK], fun K hK => ?_⟩
  have hg : K ≥ w.nDev := by omega
  simp [step, getRaw, release, copyTo, copyFrom, memset, copyPeer, hg]

/-- Allocation takes exactly the bytes asked for from the device named, or is refused because they are not there; no device is
ever overcommitted. -/
theorem _root_.SpatialOps.C87_allocation {n : Nat} {total : Nat → Nat} {w : DevMem} (h : Reach n total w) {m K a : Nat}
    (hK : K < n) (hm : 0 < m) :
    (∀ d, w.used d ≤ total d) ∧
    (w.used K + m ≤ total K → ∃ w', w.step (.getRaw m K a) = .ok (w', .addr (some a)) ∧
      w'.used K = w.used K + m ∧ (∀ d, d ≠ K → w'.used d = w.used d) ∧ w'.inside a m = true ∧ w'.bytes = w.bytes) ∧
    (total K < w.used K + m → ∃ w', w.step (.getRaw m K a) = .ok (w', .threw) ∧ w'.live = w.live ∧ w'.bytes = w.bytes) := by
  have hi := h.inv
  have hg : ¬ K ≥ w.nDev := by have := hi.ndev; omega
  have h0 : ¬ m = 0 := by omega
  have e : ∀ d, used { w with cur := K } d = w.used d := fun _ => rfl
  refine ⟨hi.fits, fun hf => ?_, fun hf => ?_⟩
  · have hf' : ¬ w.total K < used { w with cur := K } K + m := by rw [e, hi.tot]; omega
    refine ⟨{ w with cur := K, live := ⟨a, K, m⟩ :: w.live },
      by simp only [step, getRaw, if_neg hg, if_neg h0, if_neg hf'], ?_, fun d hd => ?_, ?_, rfl⟩
    · have := used_cons { w with cur := K } ⟨a, K, m⟩ K
      rw [this, e, if_pos rfl, Nat.add_comm]
    · have := used_cons { w with cur := K } ⟨a, K, m⟩ d
      rw [this, e, if_neg (Ne.symm hd), Nat.zero_add]
    · simp [inside, block]
  · have hf' : w.total K < used { w with cur := K } K + m := by rw [e, hi.tot]; omega
    exact ⟨{ w with cur := K }, by simp only [step, getRaw, if_neg hg, if_neg h0, if_pos hf'], rfl, rfl⟩

/-! ## C88 -/

/-- Data copied to a block come back, whatever legal calls are made between that do not write or release the block. -/
theorem _root_.SpatialOps.C88_round_trip {n : Nat} {total : Nat → Nat} {w w1 w2 : DevMem} (h : Reach n total w)
    {a K K' : Nat} {src : List (BitVec 8)} {os : List Op} (hK : K < n) (hK' : K' < n)
    (h1 : w.step (.copyTo a src K) = .ok (w1, .done)) (hl : w1.AllLegal os) (ht : ∀ o ∈ os, ¬ Touches a o)
    (h2 : w1.run os = .ok w2) :
    ∃ w3, w2.step (.copyFrom a src.length K') = .ok (w3, .data src) := by
  have hn := h.inv.ndev
  have hg : ¬ K ≥ w.nDev := by omega
  simp only [step, copyTo, if_neg hg] at h1
  split at h1
  · rename_i hin
    injection h1 with h1
    obtain ⟨h1, -⟩ := Prod.mk.injEq .. |>.mp h1
    subst h1
    obtain ⟨k1, k2, k3⟩ := run_keeps (n := src.length) h2 hl ht hin
    have hg' : ¬ K' ≥ w2.nDev := by rw [k3]; dsimp only; omega
    refine ⟨{ w2 with cur := K' }, ?_⟩
    simp only [step, copyFrom, if_neg hg', if_pos k2, k1]
    congr 3
    apply List.ext_getElem (by simp)
    intro i _ hi2
    simp [hi2]
  · cases h1

/-- Copying between devices makes the first `m` bytes of the destination those of the source, and changes nothing else. -/
theorem _root_.SpatialOps.C88_peer_copy {w w' : DevMem} {dst dK src sK m : Nat}
    (h : w.step (.copyPeer dst dK src sK m) = .ok (w', .done)) :
    (∀ i, i < m → w'.bytes dst i = w.bytes src i) ∧ (∀ i, m ≤ i → w'.bytes dst i = w.bytes dst i) ∧
    (∀ b, b ≠ dst → w'.bytes b = w.bytes b) ∧ w'.live = w.live ∧ w'.cur = w.cur := by
  simp only [step, copyPeer] at h
  split at h
  · injection h with h; simp at h
  · split at h
    · injection h with h
      obtain ⟨h, -⟩ := Prod.mk.injEq .. |>.mp h
      subst h
      refine ⟨fun i hi => by simp [hi], fun i hi => ?_, fun b hb => by funext i; simp [hb], rfl, rfl⟩
      have : ¬ i < m := by omega
      simp [this]
    · cases h

/-- Setting memory stores the value modulo 256 in each of the first `m` bytes, and changes nothing else. -/
theorem _root_.SpatialOps.C88_memset {w w' : DevMem} {a m K : Nat} {v : Int} (h : w.step (.memset a v m K) = .ok (w', .done)) :
    (∀ i, i < m → ((w'.bytes a i).toNat : Int) = v % 256) ∧ (∀ i, m ≤ i → w'.bytes a i = w.bytes a i) ∧
    (∀ b, b ≠ a → w'.bytes b = w.bytes b) ∧ w'.live = w.live := by
  simp only [step, memset] at h
  split at h
  · injection h with h; simp at h
  · split at h
    · injection h with h
      obtain ⟨h, -⟩ := Prod.mk.injEq .. |>.mp h
      subst h
      refine ⟨fun i hi => ?_, fun i hi => ?_, fun b hb => by funext i; simp [hb], rfl⟩
      · simp only [hi, and_self, if_true, BitVec.toNat_ofInt]
        have := Int.emod_nonneg v (b := 256) (by omega)
        rw [Int.toNat_of_nonneg (by simpa using this)]
        rfl
      · have : ¬ i < m := by omega
        simp [this]
    · cases h

/-- No legal call changes a block it does not name as destination; the block stays allocated with its size. -/
theorem _root_.SpatialOps.C88_others_untouched {w w' : DevMem} {os : List Op} {a m : Nat} (hr : w.run os = .ok w')
    (hl : w.AllLegal os) (ht : ∀ o ∈ os, ¬ Touches a o) (hin : w.inside a m = true) :
    w'.bytes a = w.bytes a ∧ w'.inside a m = true :=
  let h := run_keeps hr hl ht hin
  ⟨h.1, h.2.1⟩

/-- Legal histories never reach undefined behaviour. -/
theorem _root_.SpatialOps.C88_legal_runs (n : Nat) (total : Nat → Nat) (bytes) {os : List Op}
    (hl : (init n total bytes).AllLegal os) : ∃ w, (init n total bytes).run os = .ok w :=
  let ⟨w, h, _⟩ := inv_run (inv_init n total bytes) hl
  ⟨w, h⟩

/-- A history on two devices: two blocks, a copy to the first, a copy between them, the second is read. -/
example : ∃ w, Reach 2 (fun _ => 100) w ∧ w.used 0 = 4 ∧ w.used 1 = 8 ∧
    ∃ w', w.step (.copyFrom 50 4 1) = .ok (w', .data [1, 2, 3, 4]) := by
  refine ⟨_, ⟨fun _ _ => 0, [.getRaw 4 0 10, .getRaw 8 1 50, .copyTo 10 [1, 2, 3, 4] 0, .copyPeer 50 1 10 0 4], ?_, rfl⟩,
    rfl, rfl, _, rfl⟩
  refine ⟨fun b hb => (by cases hb), fun r hr => ?_⟩
  injection hr with hr; subst hr
  refine ⟨fun b hb => ?_, fun r hr => ?_⟩
  · simp [getRaw, init, used] at hb
    subst hb; decide
  · injection hr with hr; subst hr
    refine ⟨fun _ => rfl, fun r hr => ?_⟩
    injection hr with hr; subst hr
    exact ⟨fun _ _ => ⟨rfl, rfl⟩, fun _ _ => trivial⟩

end DevMem
end SpatialOps
