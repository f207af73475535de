import Verif.CudaPtr.Lemmas

/-!
# Every operation keeps the invariant of C58
-/

namespace SpatialOps.CudaWorld

/-- A default-constructed pointer. -/
abbrev nul : CudaPtr := ⟨none, none, none⟩

theorem mem_set_of_ne {α : Type} {l : List α} {h : Nat} {o x : α} (y : α) (ho : o ∈ l)
    (hx : l[h]? = some x) (hne : o ≠ x) : o ∈ l.set h y := by
  obtain ⟨i, hi⟩ := List.mem_iff_getElem?.1 ho
  have hih : h ≠ i := by
    rintro rfl
    rw [hx] at hi
    exact hne (Option.some.inj hi).symm
  exact List.mem_iff_getElem?.2 ⟨i, by rw [List.getElem?_set_ne hih, hi]⟩

theorem mem_set_self {α : Type} {l : List α} {h : Nat} {x : α} (y : α) (hx : l[h]? = some x) :
    y ∈ l.set h y := by
  have hlt : h < l.length := (List.getElem?_eq_some_iff.1 hx).1
  exact List.mem_iff_getElem?.2 ⟨h, by simp [hlt]⟩

theorem get_set_self {α : Type} {l : List α} {h : Nat} {x : α} (y : α) (hx : l[h]? = some x) :
    (l.set h y)[h]? = some y := by
  have hlt : h < l.length := (List.getElem?_eq_some_iff.1 hx).1
  simp [hlt]

theorem held_set {l : List (Option CudaPtr)} {h : Nat} (y : Option CudaPtr) (a : Nat)
    (hx : l[h]? = some (some nul)) :
    HeldIn (l.set h y) a ↔ HeldIn l a ∨ ∃ r, y = some r ∧ r.ptr = some a := by
  constructor
  · rintro ⟨q, hq, hqa⟩
    rcases mem_set_cases hq with h1 | h1
    · exact Or.inl ⟨q, h1, hqa⟩
    · exact Or.inr ⟨q, h1.symm, hqa⟩
  · rintro (⟨q, hq, hqa⟩ | ⟨r, rfl, hra⟩)
    · exact ⟨q, mem_set_of_ne y hq hx (by rintro h1; cases h1; cases hqa), hqa⟩
    · exact ⟨r, mem_set_self _ hx, hra⟩

theorem held_clear {l : List (Option CudaPtr)} {h : Nat} {p : CudaPtr} {a : Nat}
    (hx : l[h]? = some (some p)) :
    HeldIn l a ↔ HeldIn (l.set h (some nul)) a ∨ p.ptr = some a := by
  constructor
  · rintro ⟨q, hq, hqa⟩
    by_cases hqp : q = p
    · subst hqp; exact Or.inr hqa
    · exact Or.inl ⟨q, mem_set_of_ne _ hq hx (by simpa using hqp), hqa⟩
  · rintro (⟨q, hq, hqa⟩ | h1)
    · exact ⟨q, inv_cleared_aux hq (by rintro rfl; cases hqa), hqa⟩
    · exact ⟨p, List.mem_of_getElem? hx, h1⟩

/-- Two host integers more, as `new int(1)` and `new int(k)` leave them. -/
def plus2 (w : CudaWorld) (k : Int) : CudaWorld := ((w.newInt 1).1.newInt k).1

theorem plus2_cells (w : CudaWorld) (k : Int) (c : Nat) (hc : c < w.next) :
    (w.plus2 k).cells c = w.cells c := by
  have h1 : c ≠ w.next + 1 := by omega
  have h2 : c ≠ w.next := by omega
  simp [plus2, newInt, h1, h2]

theorem plus2_rc (w : CudaWorld) (k : Int) : (w.plus2 k).cells w.next = some 1 := by
  simp [plus2, newInt]

theorem plus2_dev (w : CudaWorld) (k : Int) : (w.plus2 k).cells (w.next + 1) = some k := by
  simp [plus2, newInt]

theorem Inv.lt {w : CudaWorld} {l : List (Option CudaPtr)} (I : Inv w l) {c : Nat} {n : Int}
    (h : w.cells c = some n) : c < w.next := by
  by_contra hc
  rw [I.fresh c (by omega)] at h
  cases h

theorem Inv.frame {w : CudaWorld} {l : List (Option CudaPtr)} (I : Inv w l) (k : Int) :
    Inv (w.plus2 k) l := by
  refine ⟨?_, I.nodup, ?_, I.sameRc, I.sameDev, I.samePtr, I.apart, I.curOk⟩
  · intro c hc
    have hc' : w.next + 2 ≤ c := hc
    have h1 : c ≠ w.next + 1 := by omega
    have h2 : c ≠ w.next := by omega
    have := I.fresh c (by omega)
    simpa [plus2, newInt, h1, h2] using this
  · intro q hq
    rcases I.good q hq with h1 | ⟨c, d, j, hc, hd, hcv, hdv, hj, hl⟩
    · exact Or.inl h1
    · exact Or.inr ⟨c, d, j, hc, hd, by rw [plus2_cells w k c (I.lt hcv), hcv],
        by rw [plus2_cells w k d (I.lt hdv), hdv], hj, hl⟩

theorem DInv.frame {w : CudaWorld} {l : List (Option CudaPtr)} (D : DInv w l) (I : Inv w l) (k : Int) :
    DInv (w.plus2 k) l := by
  refine ⟨?_, D.none_lost⟩
  intro p a e hp ha he
  have h1 := D.right p a e hp ha he
  cases hd : p.dev with
  | none => rw [hd] at h1; cases h1
  | some d =>
    rw [hd] at h1
    have h1 : w.cells d = some e := h1
    show (w.plus2 k).cells d = some e
    rw [plus2_cells w k d (I.lt h1), h1]

theorem Inv.append {w : CudaWorld} {l : List (Option CudaPtr)} (I : Inv w l) :
    Inv w (l ++ [some nul]) := by
  have hm : ∀ q : CudaPtr, some q ∈ l ++ [some nul] → q ≠ nul → some q ∈ l := by
    intro q hq hn
    rcases List.mem_append.1 hq with h1 | h1
    · exact h1
    · simp at h1; exact absurd h1 hn
  refine ⟨I.fresh, I.nodup, ?_, ?_, ?_, ?_, ?_, I.curOk⟩
  · intro q hq
    by_cases hn : q = nul
    · exact Or.inl hn
    · rcases I.good q (hm q hq hn) with h1 | ⟨c, d, j, hc, hd, hcv, hdv, hj, hl⟩
      · exact Or.inl h1
      · refine Or.inr ⟨c, d, j, hc, hd, ?_, hdv, hj, hl⟩
        rw [hcv, users_append]
        simp
  · intro p q hp hq hn he
    exact I.sameRc p q (hm p hp (by rintro rfl; exact hn rfl)) (hm q hq (by rintro rfl; exact hn he)) hn he
  · intro p q hp hq hn he
    exact I.sameDev p q (hm p hp (by rintro rfl; exact hn rfl)) (hm q hq (by rintro rfl; exact hn he)) hn he
  · intro p q hp hq hn he
    exact I.samePtr p q (hm p hp (by rintro rfl; exact hn rfl)) (hm q hq (by rintro rfl; exact hn he)) hn he
  · intro p q c hp hq hc hd
    exact I.apart p q c (hm p hp (by rintro rfl; cases hc)) (hm q hq (by rintro rfl; cases hd)) hc hd

theorem DInv.append {w : CudaWorld} {l : List (Option CudaPtr)} (D : DInv w l) :
    DInv w (l ++ [some nul]) := by
  refine ⟨?_, D.none_lost⟩
  intro p a e hp ha he
  rcases List.mem_append.1 hp with h1 | h1
  · exact D.right p a e h1 ha he
  · simp at h1; subst h1; cases ha

/-- A cleared variable goes out of scope. -/
theorem Inv.remove {w : CudaWorld} {l : List (Option CudaPtr)} {h : Nat} (I : Inv w l)
    (hx : l[h]? = some (some nul)) : Inv w (l.set h none) := by
  have hm : ∀ q : CudaPtr, some q ∈ l.set h none → some q ∈ l := by
    intro q hq
    rcases mem_set_cases hq with h1 | h1
    · exact h1
    · cases h1
  refine ⟨I.fresh, I.nodup, ?_, fun p q hp hq => I.sameRc p q (hm p hp) (hm q hq),
    fun p q hp hq => I.sameDev p q (hm p hp) (hm q hq),
    fun p q hp hq => I.samePtr p q (hm p hp) (hm q hq),
    fun p q c hp hq => I.apart p q c (hm p hp) (hm q hq), I.curOk⟩
  intro q hq
  rcases I.good q (hm q hq) with h1 | ⟨c, d, j, hc, hd, hcv, hdv, hj, hl⟩
  · exact Or.inl h1
  · refine Or.inr ⟨c, d, j, hc, hd, ?_, hdv, hj, hl⟩
    have := users_set none c hx
    simp at this
    rw [hcv, this]

theorem DInv.remove {w : CudaWorld} {l : List (Option CudaPtr)} {h : Nat} (D : DInv w l) :
    DInv w (l.set h none) := by
  refine ⟨?_, D.none_lost⟩
  intro p a e hp ha he
  rcases mem_set_cases hp with h1 | h1
  · exact D.right p a e h1 ha he
  · cases h1

/-- A cleared variable takes a block nobody holds. -/
theorem Inv.wrap {w : CudaWorld} {l : List (Option CudaPtr)} {h : Nat} (I : Inv w l)
    (hx : l[h]? = some (some nul)) (x : Option Nat) (k : Int) (hk : 0 ≤ k ∧ k < w.nDev)
    (hb : ∀ b, x = some b → w.Live b ∧ ¬ HeldIn l b) :
    Inv (w.plus2 k) (l.set h (some ⟨x, some (w.next + 1), some w.next⟩)) := by
  have F := I.frame k
  -- an old variable has members below `next`
  have old : ∀ q, some q ∈ l → q.rc ≠ some w.next ∧ q.rc ≠ some (w.next + 1) ∧
      q.dev ≠ some (w.next + 1) ∧ q.dev ≠ some w.next := by
    intro q hq
    rcases I.good q hq with h1 | ⟨c, d, j, hc, hd, hcv, hdv, -, -⟩
    · subst h1; simp
    · have h1 := I.lt hcv
      have h2 := I.lt hdv
      rw [hc, hd]
      simp only [ne_eq, Option.some.injEq]
      omega
  have hm : ∀ q : CudaPtr, some q ∈ l.set h (some ⟨x, some (w.next + 1), some w.next⟩) →
      some q ∈ l ∨ q = ⟨x, some (w.next + 1), some w.next⟩ := by
    intro q hq
    rcases mem_set_cases hq with h1 | h1
    · exact Or.inl h1
    · exact Or.inr (Option.some.inj h1)
  have hu : ∀ c, users (l.set h (some ⟨x, some (w.next + 1), some w.next⟩)) c
      = users l c + (if w.next = c then 1 else 0) := by
    intro c
    have := users_set (some ⟨x, some (w.next + 1), some w.next⟩) c hx
    simpa using this
  have hu0 : users l w.next = 0 := by
    unfold users
    rw [List.countP_eq_zero]
    intro o ho
    cases o with
    | none => simp
    | some q => simpa using (old q ho).1
  refine ⟨F.fresh, F.nodup, ?_, ?_, ?_, ?_, ?_, F.curOk⟩
  · intro q hq
    rcases hm q hq with h1 | h1
    · rcases F.good q h1 with h2 | ⟨c, d, j, hc, hd, hcv, hdv, hj, hl⟩
      · exact Or.inl h2
      · refine Or.inr ⟨c, d, j, hc, hd, ?_, hdv, hj, hl⟩
        have : ¬ (w.next = c) := by
          rintro rfl
          exact (old q h1).1 hc
        rw [hcv, hu, if_neg this]
        rfl
    · subst h1
      refine Or.inr ⟨w.next, w.next + 1, k, rfl, rfl, ?_, plus2_dev w k, hk, fun a ha => (hb a ha).1⟩
      rw [plus2_rc, hu, hu0, if_pos rfl]
      rfl
  · intro p q hp hq hn he
    rcases hm p hp with h1 | h1 <;> rcases hm q hq with h2 | h2
    · exact I.sameRc p q h1 h2 hn he
    · subst h2; exact absurd he (old p h1).1
    · subst h1; exact absurd he.symm (old q h2).1
    · rw [h1, h2]
  · intro p q hp hq hn he
    rcases hm p hp with h1 | h1 <;> rcases hm q hq with h2 | h2
    · exact I.sameDev p q h1 h2 hn he
    · subst h2; exact absurd he (old p h1).2.2.1
    · subst h1; exact absurd he.symm (old q h2).2.2.1
    · rw [h1, h2]
  · intro p q hp hq hn he
    rcases hm p hp with h1 | h1 <;> rcases hm q hq with h2 | h2
    · exact I.samePtr p q h1 h2 hn he
    · subst h2
      obtain ⟨b, hpb⟩ := Option.ne_none_iff_exists'.1 hn
      exact absurd ⟨p, h1, hpb⟩ (hb b (by rw [← hpb]; exact he.symm)).2
    · subst h1
      obtain ⟨b, hpb⟩ := Option.ne_none_iff_exists'.1 hn
      exact absurd ⟨q, h2, by rw [← he]; exact hpb⟩ (hb b hpb).2
    · rw [h1, h2]
  · intro p q c hp hq hc hd
    rcases hm p hp with h1 | h1 <;> rcases hm q hq with h2 | h2
    · exact I.apart p q c h1 h2 hc hd
    · subst h2
      simp only [Option.some.injEq] at hd
      exact (old p h1).2.1 (by rw [hc, hd])
    · subst h1
      simp only [Option.some.injEq] at hc
      exact (old q h2).2.2.2 (by rw [hd, hc])
    · subst h1; subst h2
      simp only [Option.some.injEq] at hc hd
      omega

theorem DInv.wrap {w : CudaWorld} {l : List (Option CudaPtr)} {h : Nat} (D : DInv w l) (I : Inv w l)
    (x : Option Nat) (k : Int) (hb : ∀ b, x = some b → (b, k) ∈ w.live) :
    DInv (w.plus2 k) (l.set h (some ⟨x, some (w.next + 1), some w.next⟩)) := by
  have F := D.frame I k
  refine ⟨?_, F.none_lost⟩
  intro p a e hp ha he
  rcases mem_set_cases hp with h1 | h1
  · exact F.right p a e h1 ha he
  · cases h1
    show (w.plus2 k).cells (w.next + 1) = some e
    rw [plus2_dev, live_unique I.nodup (hb a ha) he]

/-- A cleared variable becomes a copy of another one. -/
theorem Inv.share {w : CudaWorld} {l : List (Option CudaPtr)} {h : Nat} (I : Inv w l)
    (hx : l[h]? = some (some nul)) {q : CudaPtr} (hq : some q ∈ l) {c : Nat} {n : Int}
    (hqc : q.rc = some c) (hn : w.cells c = some n) :
    Inv { w with cells := fun a => if some c = some a then some (n + 1) else w.cells a }
      (l.set h (some q)) := by
  have hm : ∀ r : CudaPtr, some r ∈ l.set h (some q) → some r ∈ l := by
    intro r hr
    rcases mem_set_cases hr with h1 | h1
    · exact h1
    · cases h1; exact hq
  have hu : ∀ c', users (l.set h (some q)) c' = users l c' + (if c = c' then 1 else 0) := by
    intro c'
    have := users_set (some q) c' hx
    simpa [hqc] using this
  refine ⟨?_, I.nodup, ?_, fun p q hp hq => I.sameRc p q (hm p hp) (hm q hq),
    fun p q hp hq => I.sameDev p q (hm p hp) (hm q hq),
    fun p q hp hq => I.samePtr p q (hm p hp) (hm q hq),
    fun p q c hp hq => I.apart p q c (hm p hp) (hm q hq), I.curOk⟩
  · intro a ha
    have h1 := I.lt hn
    have h2 : w.next ≤ a := ha
    have h3 : c ≠ a := by omega
    show (if some c = some a then _ else w.cells a) = none
    simp [h3, I.fresh a ha]
  · intro r hr
    rcases I.good r (hm r hr) with h1 | ⟨c', d, j, hc, hd, hcv, hdv, hj, hl⟩
    · exact Or.inl h1
    · have e4 : c ≠ d := fun e => I.apart q r c hq (hm r hr) hqc (e ▸ hd)
      refine Or.inr ⟨c', d, j, hc, hd, ?_, ?_, hj, hl⟩
      · show (if some c = some c' then _ else w.cells c') = _
        rw [hu]
        by_cases e1 : c = c'
        · subst e1
          rw [hn] at hcv
          cases hcv
          simp
        · simp [e1, hcv]
      · show (if some c = some d then _ else w.cells d) = _
        rw [if_neg (by simpa using e4), hdv]

theorem DInv.share {w : CudaWorld} {l : List (Option CudaPtr)} {h : Nat} (D : DInv w l) (I : Inv w l)
    {q : CudaPtr} (hq : some q ∈ l) {c : Nat} (n : Int) (hqc : q.rc = some c) :
    DInv { w with cells := fun a => if some c = some a then some (n + 1) else w.cells a }
      (l.set h (some q)) := by
  refine ⟨?_, D.none_lost⟩
  intro p a e hp ha he
  have hp' : some p ∈ l := by
    rcases mem_set_cases hp with h1 | h1
    · exact h1
    · cases h1; exact hq
  have h1 := D.right p a e hp' ha he
  cases hd : p.dev with
  | none => rw [hd] at h1; cases h1
  | some d =>
    have e4 : c ≠ d := fun e => I.apart q p c hq hp' hqc (e ▸ hd)
    rw [hd] at h1
    show (if some c = some d then _ else w.cells d) = some e
    rw [if_neg (by simpa using e4)]
    exact h1

/-- What an operation does to the device blocks: a block that a pointer held is freed exactly if no
pointer holds it any more; a block no pointer held stays, unless it is released by hand; new blocks
are on existing devices. -/
def Effect (w w' : CudaWorld) (o : Op) : Prop :=
  (∀ a, w.Held a → (w'.Live a ↔ w'.Held a)) ∧
  (∀ a e, (a, e) ∈ w.live → ¬ w.Held a → (∀ d, o ≠ .releaseRaw (some a) d) → (a, e) ∈ w'.live) ∧
  (∀ a e, (a, e) ∈ w'.live → (a, e) ∈ w.live ∨ (0 ≤ e ∧ e < w.nDev))

/-- Everything the properties need about one operation. -/
structure Stepped (w w' : CudaWorld) (o : Op) : Prop where
  inv : Inv w' w'.handles
  nDev : w'.nDev = w.nDev
  dinv : DInv w w.handles → Careful w o → DInv w' w'.handles
  effect : Effect w w' o

theorem handle_ok {w : CudaWorld} {h : Nat} {p : CudaPtr} :
    w.handle h = .ok p ↔ w.handles[h]? = some (some p) := by
  unfold handle
  split
  · rename_i q hq
    rw [hq]
    constructor
    · intro h1; cases h1; rfl
    · intro h1; cases h1; rfl
  · rename_i hq
    constructor
    · intro h1; cases h1
    · intro h1; exact absurd h1 (hq p)

theorem Inv.held_live {w : CudaWorld} (I : Inv w w.handles) {a : Nat} (h : w.Held a) : w.Live a := by
  obtain ⟨p, hp, ha⟩ := h
  rcases I.good p hp with h1 | ⟨c, d, j, -, -, -, -, -, hl⟩
  · subst h1; cases ha
  · exact hl a ha

/-- Effects of an operation that gives up `h` and stores `y` there. -/
theorem effect_of_drop {w w1 w' : CudaWorld} {h : Nat} {p : CudaPtr} {o : Op} (I : Inv w w.handles)
    (hx : w.handles[h]? = some (some p)) (Dr : Dropped w w1 w.handles h p) (y : Option CudaPtr)
    (hl : w'.live = w1.live) (hh : w'.handles = w.handles.set h y)
    (hy : ∀ r a, y = some r → r.ptr = some a → ¬ w.Held a ∨ HeldIn (w.handles.set h (some nul)) a) :
    Effect w w' o := by
  have hsn : (w.handles.set h (some nul))[h]? = some (some nul) := get_set_self _ hx
  have hh' : w'.handles = (w.handles.set h (some nul)).set h y := by rw [hh, List.set_set]
  refine ⟨?_, ?_, fun a e he => Or.inl ((Dr.live a e).1 (hl ▸ he)).1⟩
  · intro a ha
    have hlv : w'.Live a ↔ (p.ptr = some a → HeldIn (w.handles.set h (some nul)) a) := by
      unfold Live
      rw [hl]
      constructor
      · rintro ⟨d, hd⟩
        exact ((Dr.live a d).1 hd).2
      · intro h1
        obtain ⟨d, hd⟩ := I.held_live ha
        exact ⟨d, (Dr.live a d).2 ⟨hd, h1⟩⟩
    have hhd : w'.Held a ↔ HeldIn (w.handles.set h (some nul)) a := by
      show HeldIn w'.handles a ↔ _
      rw [hh', held_set y a hsn]
      constructor
      · rintro (h1 | ⟨r, hr, hra⟩)
        · exact h1
        · rcases hy r a hr hra with h2 | h2
          · exact absurd ha h2
          · exact h2
      · exact Or.inl
    rw [hlv, hhd]
    constructor
    · intro h1
      rcases (held_clear hx).1 ha with h2 | h2
      · exact h2
      · exact h1 h2
    · intro h1 _
      exact h1
  · intro a e he hna _
    rw [hl]
    exact (Dr.live a e).2 ⟨he, fun h1 => absurd ⟨p, List.mem_of_getElem? hx, h1⟩ hna⟩

/-- `operator=(void*)`. -/
theorem assignRaw_spec {w : CudaWorld} {h : Nat} {p : CudaPtr} (I : Inv w w.handles)
    (hx : w.handles[h]? = some (some p)) (x : Option Nat)
    (hb : ∀ b, x = some b → w.Live b ∧ ¬ w.Held b) :
    ∃ w1, Dropped w w1 w.handles h p ∧
      w.assignRaw h p x = .ok { w1.plus2 w1.cur with
        handles := w.handles.set h (some ⟨x, some (w1.next + 1), some w1.next⟩) } ∧
      Inv (w1.plus2 w1.cur) (w.handles.set h (some ⟨x, some (w1.next + 1), some w1.next⟩)) := by
  obtain ⟨w1, hw1, Dr⟩ := drop_spec I hx
  have hsn : (w.handles.set h (some nul))[h]? = some (some nul) := get_set_self _ hx
  refine ⟨w1, Dr, ?_, ?_⟩
  · unfold assignRaw
    rw [hw1, Outcome.ok_bind]
    show Outcome.ok _ = _
    congr 1
    show ({ w1.plus2 w1.cur with handles := w1.handles.set h _ } : CudaWorld) = _
    rw [Dr.handles]
    rfl
  · have := Dr.inv.wrap hsn x w1.cur Dr.inv.curOk (by
      intro b hxb
      obtain ⟨⟨e, he⟩, hnh⟩ := hb b hxb
      have hpb : p.ptr ≠ some b := fun h1 => hnh ⟨p, List.mem_of_getElem? hx, h1⟩
      exact ⟨⟨e, (Dr.live b e).2 ⟨he, fun h1 => absurd h1 hpb⟩⟩,
        fun h1 => hnh ((held_clear hx).2 (Or.inl h1))⟩)
    rwa [List.set_set] at this

theorem Inv.congr {w w' : CudaWorld} {l : List (Option CudaPtr)} (I : Inv w l)
    (h1 : w'.cells = w.cells) (h2 : w'.next = w.next) (h3 : w'.live = w.live) (h4 : w'.nDev = w.nDev)
    (h5 : 0 ≤ w'.cur ∧ w'.cur < w'.nDev) : Inv w' l := by
  refine ⟨?_, ?_, ?_, I.sameRc, I.sameDev, I.samePtr, I.apart, h5⟩
  · rw [h1, h2]; exact I.fresh
  · rw [h3]; exact I.nodup
  · intro p hp
    rcases I.good p hp with h6 | ⟨c, d, j, hc, hd, hcv, hdv, hj, hl⟩
    · exact Or.inl h6
    · exact Or.inr ⟨c, d, j, hc, hd, by rw [h1, hcv], by rw [h1, hdv], by rw [h4]; exact hj,
        fun a ha => by unfold Live; rw [h3]; exact hl a ha⟩

theorem DInv.congr {w w' : CudaWorld} {l : List (Option CudaPtr)} (D : DInv w l)
    (h1 : w'.cells = w.cells) (h3 : w'.live = w.live) (h4 : w'.wrongDev = w.wrongDev) : DInv w' l :=
  ⟨by rw [h1, h3]; exact D.right, by rw [h4]; exact D.none_lost⟩

/-- A successful `CudaMalloc`. -/
theorem malloc_spec {w : CudaWorld} {l : List (Option CudaPtr)} (I : Inv w l) {d : Int}
    (hd : 0 ≤ d ∧ d < w.nDev) {fresh : Option Nat} (hf : ∀ a, fresh = some a → ¬ w.Live a)
    (hl : ∀ a, HeldIn l a → w.Live a) :
    ∃ w1, w.malloc d fresh = .ok w1 ∧ Inv w1 l ∧ w1.handles = w.handles ∧ w1.nDev = w.nDev ∧
      w1.next = w.next ∧ (∀ a e, (a, e) ∈ w1.live ↔ (a, e) ∈ w.live ∨ (fresh = some a ∧ e = d)) ∧
      (DInv w l → DInv w1 l) := by
  have hset : w.setDevice d = .ok { w with cur := d } := by
    simp only [setDevice]
    rw [Outcome.throwIf_false (by simpa using hd)]
    rfl
  have I1 : Inv { w with cur := d } l := I.congr rfl rfl rfl rfl hd
  cases fresh with
  | none =>
    refine ⟨{ w with cur := d }, by simp [malloc, hset], I1, rfl, rfl, rfl, by simp,
      fun D => D.congr rfl rfl rfl⟩
  | some a =>
    have hna := hf a rfl
    refine ⟨{ w with cur := d, live := (a, d) :: w.live }, by simp [malloc, hset], ?_, rfl, rfl, rfl, ?_, ?_⟩
    · refine ⟨I1.fresh, ?_, ?_, I.sameRc, I.sameDev, I.samePtr, I.apart, hd⟩
      · show (a :: w.live.map Prod.fst).Nodup
        refine List.nodup_cons.2 ⟨?_, I.nodup⟩
        intro hm
        obtain ⟨⟨b, e⟩, hbe, rfl⟩ := List.mem_map.1 hm
        exact hna ⟨e, hbe⟩
      · intro p hp
        rcases I.good p hp with h6 | ⟨c, d', j, hc, hd', hcv, hdv, hj, hl'⟩
        · exact Or.inl h6
        · refine Or.inr ⟨c, d', j, hc, hd', hcv, hdv, hj, fun b hb => ?_⟩
          obtain ⟨e, he⟩ := hl' b hb
          exact ⟨e, List.mem_cons_of_mem _ he⟩
    · intro b e
      simp only [List.mem_cons, Prod.mk.injEq, Option.some.injEq]
      constructor
      · rintro (⟨h1, h2⟩ | h1)
        · exact Or.inr ⟨h1.symm, h2⟩
        · exact Or.inl h1
      · rintro (h1 | ⟨h1, h2⟩)
        · exact Or.inr h1
        · exact Or.inl ⟨h1.symm, h2⟩
    · intro D
      refine ⟨?_, D.none_lost⟩
      intro p b e hp hb he
      rcases List.mem_cons.1 he with h1 | h1
      · cases h1
        exact absurd (hl a ⟨p, hp, hb⟩) hna
      · exact D.right p b e hp hb h1

/-- Assignment between two pointers, with the state's effects. -/
theorem assignPtr_spec {w : CudaWorld} {h : Nat} {p q : CudaPtr} (I : Inv w w.handles)
    (hx : w.handles[h]? = some (some p)) (hq : some q ∈ w.handles) (hu : Unset q → Unset p) :
    ∃ w', w.assignPtr h p q = .ok w' ∧ Inv w' w'.handles ∧ w'.nDev = w.nDev ∧
      (DInv w w.handles → DInv w' w'.handles) ∧ (∀ o, Effect w w' o) := by
  have hp : some p ∈ w.handles := List.mem_of_getElem? hx
  by_cases he : eq p q = true
  · refine ⟨w, by simp [assignPtr, he], I, rfl, id, ?_⟩
    intro o
    exact ⟨fun a ha => ⟨fun _ => ha, fun _ => I.held_live ha⟩, fun a e h1 _ _ => h1,
      fun a e h1 => Or.inl h1⟩
  · have hpq : q ≠ p := by
      rintro rfl
      exact he (by simp [eq])
    obtain ⟨w1, hw1, Dr⟩ := drop_spec I hx
    have hsn : (w.handles.set h (some nul))[h]? = some (some nul) := get_set_self _ hx
    have hq' : some q ∈ w.handles.set h (some nul) :=
      mem_set_of_ne _ hq hx (by simpa using hpq)
    have hqg : ∃ c n, q.rc = some c ∧ w1.cells c = some n := by
      rcases Dr.inv.good q hq' with h1 | ⟨c, d, j, hc, -, hcv, -⟩
      · -- both unset, so equal
        subst h1
        have hpu : p.rc = none := hu rfl
        rcases I.good p hp with h2 | ⟨c, d, j, hc, -⟩
        · exact absurd h2.symm hpq
        · rw [hpu] at hc; cases hc
      · exact ⟨c, _, hc, hcv⟩
    obtain ⟨c, n, hqc, hn⟩ := hqg
    let w2 : CudaWorld := { w1 with cells := fun a => if some c = some a then some (n + 1) else w1.cells a }
    have hrun : w.assignPtr h p q = .ok { w2 with handles := w.handles.set h (some q) } := by
      unfold assignPtr
      rw [if_neg he, hw1, Outcome.ok_bind, hqc, deref_some hn, Outcome.ok_bind]
      simp only [store, deref_some hn, Outcome.ok_bind, Outcome.pure_eq, Dr.handles, w2]
      rw [← hqc]
    have S := Dr.inv.share hsn hq' hqc hn
    rw [List.set_set] at S
    refine ⟨_, hrun, ?_, Dr.nDev, ?_, ?_⟩
    · exact S.congr rfl rfl rfl rfl S.curOk
    · intro D
      have DS := (Dr.dinv D).share (h := h) Dr.inv hq' n hqc
      rw [List.set_set] at DS
      exact DS.congr rfl rfl rfl
    · intro o
      refine effect_of_drop I hx Dr (some q) rfl rfl ?_
      intro r a hr hra
      cases hr
      exact Or.inr ⟨q, hq', hra⟩

end SpatialOps.CudaWorld

namespace SpatialOps.CudaWorld

theorem assignRaw_stepped {w : CudaWorld} {h : Nat} {p : CudaPtr} (I : Inv w w.handles)
    (hx : w.handles[h]? = some (some p)) (x : Option Nat)
    (hb : ∀ b, x = some b → w.Live b ∧ ¬ w.Held b) (o : Op)
    (hcare : Careful w o → ∀ b, x = some b → (b, w.cur) ∈ w.live ∧
      ∀ p, w.handle h = .ok p → Unset p ∨ w.deviceId p = .ok w.cur) :
    ∃ w', w.assignRaw h p x = .ok w' ∧ Stepped w w' o := by
  obtain ⟨w1, Dr, hrun, J⟩ := assignRaw_spec I hx x hb
  refine ⟨_, hrun, J.congr rfl rfl rfl rfl J.curOk, Dr.nDev, ?_, ?_⟩
  · intro D C
    have DW := (Dr.dinv D).wrap (h := h) Dr.inv x w1.cur (by
      intro b hxb
      obtain ⟨h1, h2⟩ := hcare C b hxb
      have hpb : p.ptr ≠ some b := fun h3 => (hb b hxb).2 ⟨p, List.mem_of_getElem? hx, h3⟩
      have hcur : w1.cur = w.cur := by
        rcases Dr.cur with h3 | h3
        · exact h3
        · rcases h2 p (handle_ok.2 hx) with h4 | h4
          · rcases I.good p (List.mem_of_getElem? hx) with h5 | ⟨c, d, j, hc, -⟩
            · subst h5; simp [deviceId, deref] at h3
            · rw [show p.rc = none from h4] at hc; cases hc
          · rw [h3] at h4; exact Outcome.ok.inj h4
      rw [hcur]
      exact (Dr.live b w.cur).2 ⟨h1, fun h3 => absurd h3 hpb⟩)
    rw [List.set_set] at DW
    exact DW.congr rfl rfl rfl
  · refine effect_of_drop I hx Dr _ rfl rfl ?_
    intro r a hr hra
    cases hr
    exact Or.inl (hb a hra).2

/-- Every legal operation succeeds, keeps the invariant and has the specified effect. -/
theorem step_spec {w : CudaWorld} (I : Inv w w.handles) {o : Op} (L : Legal w o) :
    ∃ w', w.step o = .ok w' ∧ Stepped w w' o := by
  have effId : ∀ {w' : CudaWorld} {o : Op}, w'.live = w.live → (∀ a, w'.Held a ↔ w.Held a) → Effect w w' o := by
    intro w' o h1 h2
    refine ⟨fun a ha => ?_, fun a e he _ _ => by rw [h1]; exact he,
      fun a e he => Or.inl (h1 ▸ he)⟩
    rw [h2]
    unfold Live
    rw [h1]
    exact ⟨fun _ => ha, fun _ => I.held_live ha⟩
  have heldApp : ∀ a, HeldIn (w.handles ++ [some nul]) a ↔ HeldIn w.handles a := by
    intro a
    constructor
    · rintro ⟨q, hq, hqa⟩
      rcases List.mem_append.1 hq with h1 | h1
      · exact ⟨q, h1, hqa⟩
      · simp at h1; subst h1; cases hqa
    · rintro ⟨q, hq, hqa⟩
      exact ⟨q, List.mem_append_left _ hq, hqa⟩
  cases o with
  | unset =>
    refine ⟨_, rfl, ?_, rfl, ?_, ?_⟩
    · exact I.append.congr rfl rfl rfl rfl I.curOk
    · intro D _; exact D.append.congr rfl rfl rfl
    · exact effId rfl heldApp
  | getShared d fresh =>
    obtain ⟨hd, hf⟩ := L
    obtain ⟨w1, hw1, I1, hh, hn, hnx, hlive, hD⟩ :=
      malloc_spec (l := w.handles) I hd hf (fun a ha => I.held_live ha)
    have I2 := I1.append
    have hlast : (w.handles ++ [some nul])[w.handles.length]? = some (some nul) := by simp
    have hset : ∀ y : Option CudaPtr, (w.handles ++ [some nul]).set w.handles.length y = w.handles ++ [y] := by
      intro y; simp
    have W := I2.wrap hlast fresh d (by rw [hn]; exact hd) (by
      intro b hb
      refine ⟨⟨d, (hlive b d).2 (Or.inr ⟨hb, rfl⟩)⟩, ?_⟩
      rw [heldApp]
      exact fun h1 => hf b hb (I.held_live h1))
    rw [hset] at W
    have hrun : w.getShared d fresh = .ok { w1.plus2 d with
        handles := w.handles ++ [some ⟨fresh, some (w1.next + 1), some w1.next⟩] } := by
      unfold getShared
      rw [Outcome.throwIf_false (by omega), Outcome.ok_bind, hw1, Outcome.ok_bind]
      show Outcome.ok ({ w1.plus2 d with handles := w1.handles ++ _ } : CudaWorld) = _
      rw [hh]
      rfl
    refine ⟨_, hrun, W.congr rfl rfl rfl rfl W.curOk, hn, ?_, ?_⟩
    · intro D _
      have DW := ((hD D).append).wrap (h := w.handles.length) I2 fresh d
        (fun b hb => (hlive b d).2 (Or.inr ⟨hb, rfl⟩))
      rw [hset] at DW
      exact DW.congr rfl rfl rfl
    · refine ⟨fun a ha => ⟨fun _ => ?_, fun _ => ?_⟩, fun a e he _ _ => (hlive a e).2 (Or.inl he),
        fun a e he => ((hlive a e).1 he).imp id (fun (h1 : fresh = some a ∧ e = d) => by rw [h1.2]; exact hd)⟩
      · obtain ⟨q, hq, hqa⟩ := ha
        exact ⟨q, List.mem_append_left _ hq, hqa⟩
      · obtain ⟨e, he⟩ := I.held_live ha
        exact ⟨e, (hlive a e).2 (Or.inl he)⟩
  | copy x =>
    obtain ⟨q, hq⟩ := L
    have hqm : some q ∈ w.handles := List.mem_of_getElem? (handle_ok.1 hq)
    let w1 : CudaWorld := { w with handles := w.handles ++ [some nul] }
    have I1 : Inv w1 w1.handles := I.append.congr rfl rfl rfl rfl I.curOk
    have hlast : w1.handles[w.handles.length]? = some (some nul) := by simp [w1]
    obtain ⟨w', hrun, J, hn, hD, hE⟩ := assignPtr_spec I1 hlast (q := q)
      (List.mem_append_left _ hqm) (fun _ => rfl)
    refine ⟨w', ?_, J, hn, ?_, ?_⟩
    · show (w.handle x >>= fun q => _) = _
      rw [hq]
      exact hrun
    · intro D _; exact hD (D.append.congr rfl rfl rfl)
    · obtain ⟨e1, e2, e3⟩ := hE (.copy x)
      exact ⟨fun a ha => e1 a ((heldApp a).2 ha),
        fun a e he hna hne => e2 a e he (fun h1 => hna ((heldApp a).1 h1)) hne, e3⟩
  | assign h x =>
    obtain ⟨p, q, hp, hq, hu⟩ := L
    obtain ⟨w', hrun, J, hn, hD, hE⟩ := assignPtr_spec I (handle_ok.1 hp)
      (List.mem_of_getElem? (handle_ok.1 hq)) hu
    refine ⟨w', ?_, J, hn, fun D _ => hD D, hE _⟩
    simp only [step, hp, hq, Outcome.ok_bind]
    exact hrun
  | assignRaw h a =>
    obtain ⟨⟨p, hp⟩, hb⟩ := L
    obtain ⟨w', hrun, S⟩ := assignRaw_stepped I (handle_ok.1 hp) a hb (.assignRaw h a) (fun C => C)
    refine ⟨w', ?_, S⟩
    simp only [step, hp, Outcome.ok_bind]
    exact hrun
  | detach h =>
    obtain ⟨p, hp⟩ := L
    obtain ⟨w', hrun, S⟩ := assignRaw_stepped I (handle_ok.1 hp) none (by simp) (.detach h) (by simp)
    refine ⟨w', ?_, S⟩
    simp only [step, hp, Outcome.ok_bind]
    exact hrun
  | destroy h =>
    obtain ⟨p, hp⟩ := L
    have hx := handle_ok.1 hp
    obtain ⟨w1, Dr, hrun, -⟩ := assignRaw_spec I hx none (by simp)
    have hsn : (w.handles.set h (some nul))[h]? = some (some nul) := get_set_self _ hx
    have R := (Dr.inv.remove hsn).frame w1.cur
    rw [List.set_set] at R
    refine ⟨{ w1.plus2 w1.cur with handles := w.handles.set h none }, ?_, ?_, Dr.nDev, ?_, ?_⟩
    · simp only [step, hp, Outcome.ok_bind, hrun, Outcome.pure_eq, List.set_set]
    · exact R.congr rfl rfl rfl rfl R.curOk
    · intro D _
      have DR := ((Dr.dinv D).remove (h := h)).frame (Dr.inv.remove hsn) w1.cur
      rw [List.set_set] at DR
      exact DR.congr rfl rfl rfl
    · exact effect_of_drop I hx Dr none rfl rfl (fun r a hr => by cases hr)
  | getRaw d fresh =>
    obtain ⟨hd, hf⟩ := L
    obtain ⟨w1, hw1, I1, hh, hn, hnx, hlive, hD⟩ :=
      malloc_spec (l := w.handles) I hd hf (fun a ha => I.held_live ha)
    refine ⟨w1, ?_, by rw [hh]; exact I1, hn, fun D _ => by rw [hh]; exact hD D, ?_⟩
    · show w.getRaw d fresh = _
      unfold getRaw
      rw [Outcome.throwIf_false (by omega), Outcome.ok_bind]
      exact hw1
    · refine ⟨fun a ha => ⟨fun _ => ?_, fun _ => ?_⟩, fun a e he _ _ => (hlive a e).2 (Or.inl he),
        fun a e he => ((hlive a e).1 he).imp id (fun (h1 : fresh = some a ∧ e = d) => by rw [h1.2]; exact hd)⟩
      · unfold Held Var; rw [hh]; exact ha
      · obtain ⟨e, he⟩ := I.held_live ha
        exact ⟨e, (hlive a e).2 (Or.inl he)⟩
  | releaseRaw a d =>
    obtain ⟨hd, hb⟩ := L
    have hset : w.setDevice d = .ok { w with cur := d } := by
      simp only [setDevice]
      rw [Outcome.throwIf_false (by simpa using hd)]
      rfl
    cases a with
    | none =>
      refine ⟨{ w with cur := d }, by simp [step, cudaFree, hset, release],
        I.congr rfl rfl rfl rfl hd, rfl, fun D _ => D.congr rfl rfl rfl, effId rfl (fun a => Iff.rfl)⟩
    | some b =>
      obtain ⟨⟨e, he⟩, hnh⟩ := hb b rfl
      have hf := find_live I.nodup he
      let w' : CudaWorld := { w with cur := d, live := w.live.filter (fun x => x.1 != b), wrongDev := if e = d then w.wrongDev else (b, e) :: w.wrongDev }
      have hmem : ∀ a e, (a, e) ∈ w'.live ↔ (a, e) ∈ w.live ∧ a ≠ b := by
        intro a e; simp [w', List.mem_filter]
      refine ⟨w', by simp [step, cudaFree, hset, release, hf, w'], ?_, rfl, ?_, ?_⟩
      · refine ⟨I.fresh, ?_, ?_, I.sameRc, I.sameDev, I.samePtr, I.apart, hd⟩
        · exact I.nodup.sublist (List.Sublist.map _ List.filter_sublist)
        · intro p hp
          rcases I.good p hp with h6 | ⟨c, d', j, hc, hd', hcv, hdv, hj, hl'⟩
          · exact Or.inl h6
          · refine Or.inr ⟨c, d', j, hc, hd', hcv, hdv, hj, fun a ha => ?_⟩
            obtain ⟨e', he'⟩ := hl' a ha
            exact ⟨e', (hmem a e').2 ⟨he', by rintro rfl; exact hnh ⟨p, hp, ha⟩⟩⟩
      · intro D C
        have hed : e = d := live_unique I.nodup he (C b rfl)
        refine ⟨fun p a e' hp ha he' => D.right p a e' hp ha ((hmem a e').1 he').1, ?_⟩
        show (if e = d then w.wrongDev else _) = []
        rw [if_pos hed]
        exact D.none_lost
      · refine ⟨fun a ha => ⟨fun _ => ha, fun _ => ?_⟩, fun a e' he' hna hne => ?_,
          fun a e' he' => Or.inl ((hmem a e').1 he').1⟩
        · obtain ⟨e', he'⟩ := I.held_live ha
          exact ⟨e', (hmem a e').2 ⟨he', by rintro rfl; exact hnh ha⟩⟩
        · exact (hmem a e').2 ⟨he', by rintro rfl; exact hne d rfl⟩
  | setDevice d =>
    have L : 0 ≤ d ∧ d < w.nDev := L
    refine ⟨{ w with cur := d }, ?_, I.congr rfl rfl rfl rfl L, rfl, fun D _ => D.congr rfl rfl rfl,
      effId rfl (fun a => Iff.rfl)⟩
    simp only [step, setDevice]
    rw [Outcome.throwIf_false (not_not.2 L)]
    rfl

theorem inv_init {n : Int} (hn : 0 < n) : Inv (init n) (init n).handles := by
  refine ⟨fun _ _ => rfl, by simp [init], ?_, ?_, ?_, ?_, ?_, ⟨Int.le_refl _, hn⟩⟩ <;> simp [init]

theorem inv_reach {n : Int} (hn : 0 < n) {w : CudaWorld} (R : Reach Legal n w) :
    Inv w w.handles ∧ w.nDev = n := by
  induction R with
  | init => exact ⟨inv_init hn, rfl⟩
  | step _ L hs ih =>
    obtain ⟨w', hs', S⟩ := step_spec ih.1 L
    rw [hs] at hs'
    cases hs'
    exact ⟨S.inv, S.nDev.trans ih.2⟩

end SpatialOps.CudaWorld
