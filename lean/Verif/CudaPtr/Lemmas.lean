import Verif.CudaPtr.Spec
import Mathlib.Tactic.SplitIfs
import Mathlib.Data.List.Nodup

/-!
# The invariant behind C58
-/

namespace SpatialOps.CudaWorld

/-- Number of variables in a list that use counter `c`. -/
def users (l : List (Option CudaPtr)) (c : Nat) : Nat :=
  l.countP (fun o => o.bind CudaPtr.rc == some c)

/-- The variable is unset, or its counter counts its users, its device exists, its block is allocated. -/
def Good (w : CudaWorld) (l : List (Option CudaPtr)) (p : CudaPtr) : Prop :=
  p = ⟨none, none, none⟩ ∨ ∃ c d k, p.rc = some c ∧ p.dev = some d ∧
    w.cells c = some (users l c : Int) ∧ w.cells d = some k ∧ (0 ≤ k ∧ k < w.nDev) ∧
    ∀ a, p.ptr = some a → w.Live a

/-- The invariant, for the variables `l`. -/
structure Inv (w : CudaWorld) (l : List (Option CudaPtr)) : Prop where
  fresh : ∀ c, w.next ≤ c → w.cells c = none
  nodup : (w.live.map Prod.fst).Nodup
  good : ∀ p, some p ∈ l → w.Good l p
  sameRc : ∀ p q, some p ∈ l → some q ∈ l → p.rc ≠ none → p.rc = q.rc → p = q
  sameDev : ∀ p q, some p ∈ l → some q ∈ l → p.dev ≠ none → p.dev = q.dev → p.rc = q.rc
  samePtr : ∀ p q, some p ∈ l → some q ∈ l → p.ptr ≠ none → p.ptr = q.ptr → p.rc = q.rc
  apart : ∀ p q c, some p ∈ l → some q ∈ l → p.rc = some c → q.dev ≠ some c
  curOk : 0 ≤ w.cur ∧ w.cur < w.nDev

/-- The device a variable carries is the one its block was allocated on. -/
structure DInv (w : CudaWorld) (l : List (Option CudaPtr)) : Prop where
  right : ∀ p a e, some p ∈ l → p.ptr = some a → (a, e) ∈ w.live → p.dev.bind w.cells = some e
  none_lost : w.wrongDev = []

/-- Some variable of the list points to `a`. -/
def HeldIn (l : List (Option CudaPtr)) (a : Nat) : Prop := ∃ p, some p ∈ l ∧ p.ptr = some a

theorem deref_some {w : CudaWorld} {c : Nat} {n : Int} (h : w.cells c = some n) :
    w.deref (some c) = .ok n := by simp [deref, h]

theorem live_unique {w : CudaWorld} (h : (w.live.map Prod.fst).Nodup) {a : Nat} {d e : Int}
    (h1 : (a, d) ∈ w.live) (h2 : (a, e) ∈ w.live) : d = e := by
  have := List.inj_on_of_nodup_map h h1 h2 rfl
  exact (Prod.mk.inj this).2

theorem find_live {w : CudaWorld} (h : (w.live.map Prod.fst).Nodup) {a : Nat} {d : Int}
    (h1 : (a, d) ∈ w.live) : w.live.find? (fun b => b.1 == a) = some (a, d) := by
  cases hf : w.live.find? (fun b => b.1 == a) with
  | none =>
    have := List.find?_eq_none.1 hf _ h1
    simp at this
  | some b =>
    have hb := List.mem_of_find?_eq_some hf
    have ha := List.find?_some hf
    obtain ⟨b1, b2⟩ := b
    simp at ha
    subst ha
    rw [live_unique h hb h1]

theorem countP_set {α : Type} (f : α → Bool) (l : List α) (h : Nat) (x y : α) (hx : l[h]? = some x) :
    (l.set h y).countP f + (if f x then 1 else 0) = l.countP f + (if f y then 1 else 0) := by
  induction l generalizing h with
  | nil => simp at hx
  | cons b l ih =>
    cases h with
    | zero =>
      simp at hx
      subst hx
      simp only [List.set_cons_zero, List.countP_cons]
      omega
    | succ h =>
      simp at hx
      have := ih h hx
      simp only [List.set_cons_succ, List.countP_cons]
      omega

theorem users_set {l : List (Option CudaPtr)} {h : Nat} {p : CudaPtr} (y : Option CudaPtr) (c : Nat)
    (hx : l[h]? = some (some p)) :
    users (l.set h y) c + (if p.rc = some c then 1 else 0)
      = users l c + (if y.bind CudaPtr.rc = some c then 1 else 0) := by
  have := countP_set (fun o : Option CudaPtr => o.bind CudaPtr.rc == some c) l h (some p) y hx
  simpa [users] using this

theorem users_pos {l : List (Option CudaPtr)} {p : CudaPtr} {c : Nat} (hp : some p ∈ l)
    (hc : p.rc = some c) : 0 < users l c := by
  unfold users
  rw [List.countP_pos_iff]
  exact ⟨some p, hp, by simp [hc]⟩

theorem users_append (l : List (Option CudaPtr)) (y : Option CudaPtr) (c : Nat) :
    users (l ++ [y]) c = users l c + (if y.bind CudaPtr.rc = some c then 1 else 0) := by
  unfold users
  rw [List.countP_append, List.countP_singleton]
  simp

theorem mem_set_cases {l : List (Option CudaPtr)} {h : Nat} {y q : Option CudaPtr}
    (hq : q ∈ l.set h y) : q ∈ l ∨ q = y := List.mem_or_eq_of_mem_set hq

/-- After giving up one reference, with the variable cleared. -/
structure Dropped (w w1 : CudaWorld) (l : List (Option CudaPtr)) (h : Nat) (p : CudaPtr) : Prop where
  handles : w1.handles = w.handles
  next : w1.next = w.next
  nDev : w1.nDev = w.nDev
  inv : Inv w1 (l.set h (some ⟨none, none, none⟩))
  live : ∀ a e, (a, e) ∈ w1.live ↔ (a, e) ∈ w.live ∧
    (p.ptr = some a → HeldIn (l.set h (some ⟨none, none, none⟩)) a)
  dinv : DInv w l → DInv w1 (l.set h (some ⟨none, none, none⟩))
  cur : w1.cur = w.cur ∨ w.deviceId p = .ok w1.cur

theorem inv_cleared_aux {l : List (Option CudaPtr)} {h : Nat} {q : CudaPtr}
    (hq : some q ∈ l.set h (some (⟨none, none, none⟩ : CudaPtr))) (hr : q ≠ ⟨none, none, none⟩) :
    some q ∈ l := by
  rcases mem_set_cases hq with h1 | h1
  · exact h1
  · exact absurd (Option.some.inj h1) hr

/-- The relational part of the invariant survives clearing a variable. -/
theorem Inv.rel_cleared {w : CudaWorld} {l : List (Option CudaPtr)} (I : Inv w l) (h : Nat) :
    let l' := l.set h (some (⟨none, none, none⟩ : CudaPtr))
    (∀ p q, some p ∈ l' → some q ∈ l' → p.rc ≠ none → p.rc = q.rc → p = q) ∧
    (∀ p q, some p ∈ l' → some q ∈ l' → p.dev ≠ none → p.dev = q.dev → p.rc = q.rc) ∧
    (∀ p q, some p ∈ l' → some q ∈ l' → p.ptr ≠ none → p.ptr = q.ptr → p.rc = q.rc) ∧
    (∀ p q c, some p ∈ l' → some q ∈ l' → p.rc = some c → q.dev ≠ some c) := by
  intro l'
  refine ⟨?_, ?_, ?_, ?_⟩
  · intro p q hp hq hn he
    refine I.sameRc p q (inv_cleared_aux hp ?_) (inv_cleared_aux hq ?_) hn he
    · rintro rfl; exact hn rfl
    · rintro rfl; exact hn he
  · intro p q hp hq hn he
    refine I.sameDev p q (inv_cleared_aux hp ?_) (inv_cleared_aux hq ?_) hn he
    · rintro rfl; exact hn rfl
    · rintro rfl; exact hn he
  · intro p q hp hq hn he
    refine I.samePtr p q (inv_cleared_aux hp ?_) (inv_cleared_aux hq ?_) hn he
    · rintro rfl; exact hn rfl
    · rintro rfl; exact hn he
  · intro p q c hp hq hc hd
    refine I.apart p q c (inv_cleared_aux hp ?_) (inv_cleared_aux hq ?_) hc hd
    · rintro rfl; cases hc
    · rintro rfl; cases hd

theorem drop_spec {w : CudaWorld} {l : List (Option CudaPtr)} {h : Nat} {p : CudaPtr} (I : Inv w l)
    (hh : l[h]? = some (some p)) : ∃ w1, w.dropRef p = .ok w1 ∧ Dropped w w1 l h p := by
  have hp : some p ∈ l := List.mem_of_getElem? hh
  have hset := fun c => users_set (some ⟨none, none, none⟩) c hh
  obtain ⟨r1, r2, r3, r4⟩ := I.rel_cleared h
  rcases I.good p hp with hn | ⟨c, d, k, hc, hd, hcv, hdv, hk, hlive⟩
  · -- unset
    subst hn
    have hl : l.set h (some (⟨none, none, none⟩ : CudaPtr)) = l := by
      apply List.ext_getElem?
      intro i
      rw [List.getElem?_set]
      split_ifs with h1 h2
      · subst h1; rw [hh]
      · subst h1; rw [List.getElem?_eq_none (by omega)]
      · rfl
    refine ⟨w, by simp [dropRef], rfl, rfl, rfl, ?_, ?_, ?_, Or.inl rfl⟩
    · rw [hl]; exact I
    · intro a e; simp
    · rw [hl]; exact id
  · have hdc : d ≠ c := fun hdc => I.apart p p c hp hp hc (hdc ▸ hd)
    have hsc := hset c
    simp only [hc, if_true, Option.bind_some] at hsc
    have hsc : users (l.set h (some ⟨none, none, none⟩)) c + 1 = users l c := by simpa using hsc
    have hso : ∀ c', c' ≠ c → users (l.set h (some ⟨none, none, none⟩)) c' = users l c' := by
      intro c' hc'
      have := hset c'
      have h1 : ¬ (some c = some c') := fun h2 => hc' (Option.some.inj h2).symm
      simpa [hc, h1] using this
    by_cases hlast : users l c = 1
    · -- last reference
      have hnone : ∀ q, some q ∈ l.set h (some (⟨none, none, none⟩ : CudaPtr)) → q.rc ≠ some c := by
        intro q hq hqc
        have := users_pos hq hqc
        omega
      have hnoptr : ∀ a, p.ptr = some a → ¬ HeldIn (l.set h (some ⟨none, none, none⟩)) a := by
        rintro a ha ⟨q, hq, hqa⟩
        have hq' := inv_cleared_aux hq (by rintro rfl; cases hqa)
        have := I.samePtr q p hq' hp (by simp [hqa]) (by rw [hqa, ha])
        exact hnone q hq (this.trans hc)
      have hnodev : ∀ q, some q ∈ l.set h (some (⟨none, none, none⟩ : CudaPtr)) → q.dev ≠ some d := by
        intro q hq hqd
        have hq' := inv_cleared_aux hq (by rintro rfl; cases hqd)
        have := I.sameDev q p hq' hp (by simp [hqd]) (by rw [hqd, hd])
        exact hnone q hq (this.trans hc)
      have hcv1 : w.cells c = some 1 := by rw [hcv, hlast]; rfl
      -- the state after the release
      let cells' : Nat → Option Int := fun a => if some d = some a then none else
        if some c = some a then none else if some c = some a then some 0 else w.cells a
      have hcells : ∀ a, a ≠ c → a ≠ d → cells' a = w.cells a := by
        intro a h1 h2
        have h1' : ¬ (c = a) := fun h => h1 h.symm
        have h2' : ¬ (d = a) := fun h => h2 h.symm
        simp [cells', h1', h2']
      have key : ∀ (lv : List (Nat × Int)) (wd : List (Nat × Int)),
          (lv.map Prod.fst).Nodup →
          (∀ a e, (a, e) ∈ lv ↔ (a, e) ∈ w.live ∧ p.ptr ≠ some a) →
          (DInv w l → wd = []) →
          Dropped w { w with cells := cells', cur := k, live := lv, wrongDev := wd } l h p := by
        intro lv wd hnd hlv hwd
        refine ⟨rfl, rfl, rfl, ⟨?_, hnd, ?_, r1, r2, r3, r4, hk⟩, ?_, ?_, ?_⟩
        · intro a ha
          have h1 : w.cells a = none := I.fresh a ha
          simp only [cells']
          split_ifs <;> first | rfl | exact h1
        · intro q hq
          by_cases hqn : q = ⟨none, none, none⟩
          · exact Or.inl hqn
          · have hq' := inv_cleared_aux hq hqn
            rcases I.good q hq' with h1 | ⟨c', d', k', hc', hd', hcv', hdv', hk', hlive'⟩
            · exact absurd h1 hqn
            · have e1 : c' ≠ c := fun e => hnone q hq (e ▸ hc')
              have e2 : c' ≠ d := fun e => I.apart q p c' hq' hp hc' (e ▸ hd)
              have e3 : d' ≠ d := fun e => hnodev q hq (e ▸ hd')
              have e4 : d' ≠ c := fun e => I.apart p q c hp hq' hc (e ▸ hd')
              refine Or.inr ⟨c', d', k', hc', hd', ?_, ?_, hk', ?_⟩
              · show cells' c' = _
                rw [hcells c' e1 e2, hcv', hso c' e1]
              · show cells' d' = _
                rw [hcells d' e4 e3, hdv']
              · intro a ha
                obtain ⟨e, he⟩ := hlive' a ha
                exact ⟨e, (hlv a e).2 ⟨he, fun hpa => hnoptr a hpa ⟨q, hq, ha⟩⟩⟩
        · intro a e
          show (a, e) ∈ lv ↔ _
          rw [hlv]
          exact ⟨fun ⟨h1, h2⟩ => ⟨h1, fun h3 => absurd h3 h2⟩,
            fun ⟨h1, h2⟩ => ⟨h1, fun h3 => hnoptr a h3 (h2 h3)⟩⟩
        · intro D
          refine ⟨?_, hwd D⟩
          intro q a e hq hqa he
          have hq' := inv_cleared_aux hq (by rintro rfl; cases hqa)
          have h1 := D.right q a e hq' hqa ((hlv a e).1 he).1
          rcases I.good q hq' with h2 | ⟨c', d', k', hc', hd', -, -, -, -⟩
          · subst h2; cases hqa
          · have e3 : d' ≠ d := fun e => hnodev q hq (e ▸ hd')
            have e4 : d' ≠ c := fun e => I.apart p q c hp hq' hc (e ▸ hd')
            show q.dev.bind cells' = _
            rw [hd'] at h1 ⊢
            simpa [hcells d' e4 e3] using h1
        · exact Or.inr (by simp [deviceId, deref, hd, hdv])
      have hrun : ∀ w3 : CudaWorld,
          ({ w with cells := fun a => if some c = some a then none else
              if some c = some a then some 0 else w.cells a, cur := k } : CudaWorld).release p.ptr k = .ok w3 →
          w3.cells d = some k →
          w.dropRef p = .ok { w3 with cells := fun a => if some d = some a then none else w3.cells a } := by
        intro w3 h3 h3d
        have hcd : ¬ (c = d) := fun e => hdc e.symm
        simp only [dropRef, hc, reduceCtorEq, if_false, store, free, cudaFree, setDevice, deref,
          Option.bind_some, hcv1, Outcome.ok_bind, Outcome.pure_eq, if_true, hd, hcd,
          Option.some.injEq, hdv]
        simp only [Int.sub_self, if_true]
        rw [Outcome.throwIf_false (by simpa using hk), Outcome.ok_bind]
        simp only [Option.some.injEq] at h3
        rw [Outcome.ok_bind, h3, Outcome.ok_bind, h3d, Outcome.ok_bind]
      have hd2 : (if some c = some d then none else if some c = some d then some 0 else w.cells d) = some k := by
        have hcd : ¬ (c = d) := fun e => hdc e.symm
        simp [hcd, hdv]
      cases hptr : p.ptr with
      | none =>
        refine ⟨_, hrun _ (by rw [hptr]; rfl) hd2, ?_⟩
        have := key w.live w.wrongDev I.nodup (by intro a e; simp [hptr]) (fun D => D.none_lost)
        exact this
      | some a =>
        obtain ⟨e, he⟩ := hlive a hptr
        have hf := find_live I.nodup he
        refine ⟨_, hrun _ (by rw [hptr]; simp only [release, hf]; rfl) hd2, ?_⟩
        refine key (w.live.filter (fun b => b.1 != a))
          (if e = k then w.wrongDev else (a, e) :: w.wrongDev) ?_ ?_ ?_
        · exact I.nodup.sublist (List.Sublist.map _ List.filter_sublist)
        · intro a' e'
          simp only [List.mem_filter, bne_iff_ne, ne_eq, hptr, Option.some.injEq]
          exact ⟨fun ⟨h1, h2⟩ => ⟨h1, fun h3 => h2 h3.symm⟩, fun ⟨h1, h2⟩ => ⟨h1, fun h3 => h2 h3.symm⟩⟩
        · intro D
          have := D.right p a e hp hptr he
          rw [hd] at this
          simp only [Option.bind_some, hdv, Option.some.injEq] at this
          rw [if_pos this.symm]
          exact D.none_lost
    · -- others remain
      have hpos := users_pos hp hc
      have hne : ¬ ((users l c : Int) - 1 = 0) := by omega
      have hstill : ∃ q, some q ∈ l.set h (some (⟨none, none, none⟩ : CudaPtr)) ∧ q.rc = some c := by
        have h1 : 0 < users (l.set h (some ⟨none, none, none⟩)) c := by omega
        unfold users at h1
        rw [List.countP_pos_iff] at h1
        obtain ⟨o, ho, ho2⟩ := h1
        cases o with
        | none => simp at ho2
        | some q => exact ⟨q, ho, by simpa using ho2⟩
      let w1 : CudaWorld := { w with cells := fun a => if some c = some a then some ((users l c : Int) - 1) else w.cells a }
      refine ⟨w1, ?_, rfl, rfl, rfl, ⟨?_, I.nodup, ?_, r1, r2, r3, r4, I.curOk⟩, ?_, ?_, Or.inl rfl⟩
      · simp [dropRef, hc, store, deref, hcv, hne, w1]
      · intro a ha
        have h1 := I.fresh a ha
        have : c ≠ a := by rintro rfl; rw [h1] at hcv; cases hcv
        show (if some c = some a then _ else w.cells a) = none
        simp [this, h1]
      · intro q hq
        by_cases hqn : q = ⟨none, none, none⟩
        · exact Or.inl hqn
        · have hq' := inv_cleared_aux hq hqn
          rcases I.good q hq' with h1 | ⟨c', d', k', hc', hd', hcv', hdv', hk', hlive'⟩
          · exact absurd h1 hqn
          · have e4 : c ≠ d' := fun e => I.apart p q c hp hq' hc (e ▸ hd')
            refine Or.inr ⟨c', d', k', hc', hd', ?_, ?_, hk', hlive'⟩
            · show (if some c = some c' then _ else w.cells c') = _
              by_cases e1 : c = c'
              · subst e1
                rw [if_pos rfl]
                congr 1
                omega
              · rw [if_neg (by simpa using e1), hcv', hso c' (fun e => e1 e.symm)]
            · show (if some c = some d' then _ else w.cells d') = _
              rw [if_neg (by simpa using e4), hdv']
      · intro a e
        show (a, e) ∈ w.live ↔ _
        refine ⟨fun h1 => ⟨h1, fun h2 => ?_⟩, fun h1 => h1.1⟩
        obtain ⟨q, hq, hqc⟩ := hstill
        have hq' := inv_cleared_aux hq (by rintro rfl; cases hqc)
        have := I.sameRc q p hq' hp (by simp [hqc]) (by rw [hqc, hc])
        subst this
        exact ⟨q, hq, h2⟩
      · intro D
        refine ⟨?_, D.none_lost⟩
        intro q a e hq hqa he
        have hq' := inv_cleared_aux hq (by rintro rfl; cases hqa)
        have h1 := D.right q a e hq' hqa he
        rcases I.good q hq' with h2 | ⟨c', d', k', hc', hd', -, -, -, -⟩
        · subst h2; cases hqa
        · have e4 : c ≠ d' := fun e => I.apart p q c hp hq' hc (e ▸ hd')
          show q.dev.bind (fun a => if some c = some a then _ else w.cells a) = _
          rw [hd'] at h1 ⊢
          simpa [e4] using h1

end SpatialOps.CudaWorld
