import Verif.DevMem.Spec

/-!
# Invariants of device memory
-/

namespace SpatialOps
namespace DevMem

structure Inv (n : Nat) (total : Nat → Nat) (w : DevMem) : Prop where
  ndev : w.nDev = n
  tot : w.total = total
  cur : 0 < n → w.cur < n
  uniq : (w.live.map DevBlock.addr).Nodup
  fits : ∀ d, w.used d ≤ total d

theorem inv_init (n : Nat) (total : Nat → Nat) (bytes) : Inv n total (init n total bytes) :=
  ⟨rfl, rfl, fun h => h, by simp [init], fun d => by simp [init, used]⟩

theorem used_filter_le (w : DevMem) (p : DevBlock → Bool) (d : Nat) :
    used { w with live := w.live.filter p } d ≤ w.used d := by
  unfold used
  dsimp only
  induction w.live with
  | nil => simp
  | cons b l ih =>
    by_cases h1 : p b = true <;> by_cases h2 : b.dev = d <;> simp [h1, h2] at ih ⊢ <;> omega

theorem used_cons (w : DevMem) (b : DevBlock) (d : Nat) :
    used { w with live := b :: w.live } d = (if b.dev = d then b.size else 0) + w.used d := by
  unfold used
  by_cases h : b.dev = d
  · simp [h]
  · simp [h]

theorem inv_step {n : Nat} {total : Nat → Nat} {w : DevMem} (hi : Inv n total w) {o : Op} (hl : w.Legal o) :
    ∃ r, w.step o = .ok r ∧ Inv n total r.1 := by
  obtain ⟨h1, h2, h3, h4, h5⟩ := hi
  have hcur : ∀ K, ¬ K ≥ w.nDev → Inv n total { w with cur := K } := fun K hK =>
    ⟨h1, h2, fun _ => by dsimp only; omega, h4, h5⟩
  have hb : ∀ K by', ¬ K ≥ w.nDev → Inv n total { w with cur := K, bytes := by' } := fun K _ hK =>
    ⟨h1, h2, fun _ => by dsimp only; omega, h4, h5⟩
  cases o with
  | getRaw m K fresh =>
    refine ⟨_, rfl, ?_⟩
    simp only [getRaw]
    split
    · exact ⟨h1, h2, h3, h4, h5⟩
    · rename_i hK
      split
      · exact hcur K hK
      · split
        · exact hcur K hK
        · rename_i hfit
          refine ⟨h1, h2, fun _ => by dsimp only; omega, ?_, fun d => ?_⟩
          · simp only [List.map_cons, List.nodup_cons]
            refine ⟨?_, h4⟩
            simp only [List.mem_map, not_exists, not_and]
            exact fun b hb => hl b hb
          · have := used_cons { w with cur := K } ⟨fresh, K, m⟩ d
            dsimp only at this ⊢
            rw [this]
            have e : used { w with cur := K } d = w.used d := rfl
            rw [e]
            split
            · rename_i hd
              subst hd
              have e2 : used { w with cur := K } K = w.used K := rfl
              rw [e2, h2] at hfit
              omega
            · have := h5 d; omega
  | release a K =>
    refine ⟨_, rfl, ?_⟩
    simp only [release]
    split
    · exact ⟨h1, h2, h3, h4, h5⟩
    · rename_i hK
      split
      · exact hcur K hK
      · refine ⟨h1, h2, fun _ => by dsimp only; omega, ?_, fun d => ?_⟩
        · exact h4.sublist (List.filter_sublist.map _)
        · exact Nat.le_trans (used_filter_le { w with cur := K } _ d) (h5 d)
  | copyTo a src K =>
    by_cases hK : K ≥ w.nDev
    · exact ⟨(w, .threw), by simp only [step, copyTo, if_pos hK], h1, h2, h3, h4, h5⟩
    · exact ⟨_, by simp only [step, copyTo, if_neg hK, if_pos (hl (by omega))]; rfl, hb K _ hK⟩
  | copyFrom a m K =>
    by_cases hK : K ≥ w.nDev
    · exact ⟨(w, .threw), by simp only [step, copyFrom, if_pos hK], h1, h2, h3, h4, h5⟩
    · exact ⟨_, by simp only [step, copyFrom, if_neg hK, if_pos (hl (by omega))]; rfl, hcur K hK⟩
  | memset a v m K =>
    by_cases hK : K ≥ w.nDev
    · exact ⟨(w, .threw), by simp only [step, memset, if_pos hK], h1, h2, h3, h4, h5⟩
    · exact ⟨_, by simp only [step, memset, if_neg hK, if_pos (hl (by omega))]; rfl, hb K _ hK⟩
  | copyPeer dst dK src sK m =>
    by_cases hK : dK ≥ w.nDev ∨ sK ≥ w.nDev
    · exact ⟨(w, .threw), by simp only [step, copyPeer, if_pos hK], h1, h2, h3, h4, h5⟩
    · refine ⟨_, by simp only [step, copyPeer, if_neg hK, if_pos (hl (by omega) (by omega))]; rfl, ?_⟩
      exact ⟨h1, h2, h3, h4, h5⟩
  | update => exact ⟨_, rfl, h1, h2, h3, h4, h5⟩
  | getStats K =>
    refine ⟨_, rfl, ?_⟩
    simp only [getStats]
    split <;> exact ⟨h1, h2, h3, h4, h5⟩

theorem inv_run {n : Nat} {total : Nat → Nat} {os : List Op} : ∀ {w : DevMem}, Inv n total w → w.AllLegal os →
    ∃ w', w.run os = .ok w' ∧ Inv n total w' := by
  induction os with
  | nil => exact fun {w} hi _ => ⟨w, rfl, hi⟩
  | cons o os ih =>
    intro w hi hl
    obtain ⟨r, h1, h2⟩ := inv_step hi hl.1
    obtain ⟨w', h3, h4⟩ := ih h2 (hl.2 r h1)
    exact ⟨w', by simp only [run, h1, Outcome.ok_bind]; exact h3, h4⟩

theorem Reach.inv {n : Nat} {total : Nat → Nat} {w : DevMem} (h : Reach n total w) : Inv n total w := by
  obtain ⟨bytes, os, hl, hr⟩ := h
  obtain ⟨w', h1, h2⟩ := inv_run (inv_init n total bytes) hl
  rw [hr] at h1
  injection h1 with h1
  exact h1 ▸ h2

/-- A call that does not touch a block leaves its bytes and keeps it allocated. -/
theorem step_keeps {w : DevMem} {o : Op} {r : DevMem × Reply} {a n : Nat} (hs : w.step o = .ok r) (hl : w.Legal o)
    (ht : ¬ Touches a o) (hin : w.inside a n = true) :
    r.1.bytes a = w.bytes a ∧ r.1.inside a n = true ∧ r.1.nDev = w.nDev := by
  cases o with
  | getRaw m K fresh =>
    simp only [step] at hs
    injection hs with hs; subst hs
    simp only [getRaw]
    split
    · exact ⟨rfl, hin, rfl⟩
    · split
      · exact ⟨rfl, hin, rfl⟩
      · split
        · exact ⟨rfl, hin, rfl⟩
        · refine ⟨rfl, ?_, rfl⟩
          have hne : fresh ≠ a := by
            rintro rfl
            unfold inside block at hin
            cases hf : w.live.find? (fun b => b.addr == fresh) with
            | none => rw [hf] at hin; cases hin
            | some b =>
              have h1 := List.mem_of_find?_eq_some hf
              have h2 := List.find?_some hf
              exact hl b h1 (by simpa using h2)
          unfold inside block at hin ⊢
          simp only [List.find?_cons, beq_eq_false_iff_ne.2 hne]
          exact hin
  | release b K =>
    simp only [step] at hs
    injection hs with hs; subst hs
    simp only [release]
    split
    · exact ⟨rfl, hin, rfl⟩
    · split
      · exact ⟨rfl, hin, rfl⟩
      · refine ⟨rfl, ?_, rfl⟩
        have hba : b ≠ a := ht
        unfold inside block at hin ⊢
        dsimp only
        rw [List.find?_filter]
        have : (fun c : DevBlock => decide ((c.addr != b) = true ∧ (c.addr == a) = true)) = fun c => c.addr == a := by
          funext c
          by_cases hc : c.addr = a
          · simp [hc, Ne.symm hba]
          · simp [hc]
        rw [this]
        exact hin
  | copyTo b src K =>
    have hba : ¬ b = a := ht
    simp only [step, copyTo] at hs
    split at hs
    · injection hs with hs; subst hs; exact ⟨rfl, hin, rfl⟩
    · split at hs
      · injection hs with hs; subst hs
        exact ⟨by funext i; simp [Ne.symm hba], hin, rfl⟩
      · cases hs
  | copyFrom b m K =>
    simp only [step, copyFrom] at hs
    split at hs
    · injection hs with hs; subst hs; exact ⟨rfl, hin, rfl⟩
    · split at hs
      · injection hs with hs; subst hs; exact ⟨rfl, hin, rfl⟩
      · cases hs
  | copyPeer b dK src sK m =>
    have hba : ¬ b = a := ht
    simp only [step, copyPeer] at hs
    split at hs
    · injection hs with hs; subst hs; exact ⟨rfl, hin, rfl⟩
    · split at hs
      · injection hs with hs; subst hs
        exact ⟨by funext i; simp [Ne.symm hba], hin, rfl⟩
      · cases hs
  | memset b v m K =>
    have hba : ¬ b = a := ht
    simp only [step, memset] at hs
    split at hs
    · injection hs with hs; subst hs; exact ⟨rfl, hin, rfl⟩
    · split at hs
      · injection hs with hs; subst hs
        exact ⟨by funext i; simp [Ne.symm hba], hin, rfl⟩
      · cases hs
  | update =>
    simp only [step] at hs
    injection hs with hs; subst hs; exact ⟨rfl, hin, rfl⟩
  | getStats K =>
    simp only [step] at hs
    injection hs with hs; subst hs
    simp only [getStats]
    split <;> exact ⟨rfl, hin, rfl⟩

theorem run_keeps {a n : Nat} {os : List Op} : ∀ {w w' : DevMem}, w.run os = .ok w' → w.AllLegal os →
    (∀ o ∈ os, ¬ Touches a o) → w.inside a n = true →
    w'.bytes a = w.bytes a ∧ w'.inside a n = true ∧ w'.nDev = w.nDev := by
  induction os with
  | nil => intro w w' h _ _ hin; injection h with h; subst h; exact ⟨rfl, hin, rfl⟩
  | cons o os ih =>
    intro w w' h hl ht hin
    simp only [run] at h
    obtain ⟨r, h1, h2⟩ := Outcome.bind_eq_ok.1 h
    obtain ⟨k1, k2, k3⟩ := step_keeps h1 hl.1 (ht o (by simp)) hin
    obtain ⟨j1, j2, j3⟩ := ih h2 (hl.2 r h1) (fun o ho => ht o (by simp [ho])) k2
    exact ⟨j1.trans k1, j2, j3.trans k3⟩

/-- Only `update_memory_statistics` changes what is reported. -/
theorem step_stats {w : DevMem} {o : Op} {r : DevMem × Reply} (hs : w.step o = .ok r) (ho : o ≠ .update) :
    r.1.stats = w.stats ∧ r.1.nDev = w.nDev := by
  cases o <;>
    simp only [step, getRaw, release, copyTo, copyFrom, copyPeer, memset, getStats] at hs <;>
    first
    | exact absurd rfl ho
    | (repeat' split at hs) <;> first | (injection hs with hs; subst hs; exact ⟨rfl, rfl⟩) | cases hs

theorem run_stats {os : List Op} : ∀ {w w' : DevMem}, w.run os = .ok w' → (∀ o ∈ os, o ≠ .update) →
    w'.stats = w.stats ∧ w'.nDev = w.nDev := by
  induction os with
  | nil => intro w w' h _; injection h with h; subst h; exact ⟨rfl, rfl⟩
  | cons o os ih =>
    intro w w' h ht
    simp only [run] at h
    obtain ⟨r, h1, h2⟩ := Outcome.bind_eq_ok.1 h
    obtain ⟨k1, k2⟩ := step_stats h1 (ht o (by simp))
    obtain ⟨j1, j2⟩ := ih h2 fun o ho => ht o (by simp [ho])
    exact ⟨j1.trans k1, j2.trans k2⟩

end DevMem
end SpatialOps
