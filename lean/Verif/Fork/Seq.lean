import Verif.Fork.Spec
import Verif.Threads.Settle

/-!
# Jobs run alone and one after another
-/

namespace SpatialOps.Fork
variable {V L : Type}

theorem within_read {j : Job V L} {acc wr : Nat → Prop} (h : Within j acc wr) {l : L} {c : Nat} {k : V → L}
    (e : j.code l = .read c k) : acc c := by
  have := h.2 l
  rw [e] at this
  exact this

theorem within_write {j : Job V L} {acc wr : Nat → Prop} (h : Within j acc wr) {l l' : L} {c : Nat} {v : V}
    (e : j.code l = .write c v l') : wr c := by
  have := h.2 l
  rw [e] at this
  exact this

/-- A job changes only the cells it may write. -/
theorem steps_off {j : Job V L} {acc wr : Nat → Prop} (hw : Within j acc wr) {n : Nat} {l l1 : L}
    {m m1 : Nat → V} (h : Steps j n l m l1 m1) : ∀ c, ¬ wr c → m1 c = m c := by
  induction h with
  | refl => intro _ _; rfl
  | read _ _ ih => exact ih
  | write _ e ih =>
    intro c hc
    have hne : c ≠ _ := fun hcc => hc (by rw [hcc]; exact within_write hw e)
    simp only [if_neg hne]
    exact ih c hc

/-- A job takes the same course on memories that agree on the cells it accesses. -/
theorem steps_agree {j : Job V L} {acc wr : Nat → Prop} (hw : Within j acc wr) {n : Nat} {l l1 : L}
    {m m1 m' : Nat → V} (h : Steps j n l m l1 m1) (hm : ∀ c, acc c → m c = m' c) :
    ∃ m1', Steps j n l m' l1 m1' ∧ ∀ c, acc c → m1 c = m1' c := by
  induction h with
  | refl => exact ⟨m', .refl, hm⟩
  | read _ e ih =>
    obtain ⟨m1', h1, h2⟩ := ih hm
    refine ⟨m1', ?_, h2⟩
    rw [h2 _ (within_read hw e)]
    exact .read h1 e
  | write _ e ih =>
    obtain ⟨m1', h1, h2⟩ := ih hm
    refine ⟨_, .write h1 e, fun c hc => ?_⟩
    dsimp only
    split
    · rfl
    · exact h2 c hc

theorem steps_det {j : Job V L} {n : Nat} {l l1 l2 : L} {m m1 m2 : Nat → V} (h1 : Steps j n l m l1 m1)
    (h2 : Steps j n l m l2 m2) : l1 = l2 ∧ m1 = m2 := by
  induction h1 generalizing l2 m2 with
  | refl => cases h2; exact ⟨rfl, rfl⟩
  | read _ e ih =>
    cases h2 with
    | read h2 e2 =>
      obtain ⟨rfl, rfl⟩ := ih h2
      rw [e] at e2
      injection e2 with e3 e4
      subst e3 e4
      exact ⟨rfl, rfl⟩
    | write h2 e2 =>
      obtain ⟨rfl, rfl⟩ := ih h2
      rw [e] at e2
      cases e2
  | write _ e ih =>
    cases h2 with
    | read h2 e2 =>
      obtain ⟨rfl, rfl⟩ := ih h2
      rw [e] at e2
      cases e2
    | write h2 e2 =>
      obtain ⟨rfl, rfl⟩ := ih h2
      rw [e] at e2
      injection e2 with e3 e4 e5
      subst e3 e4 e5
      exact ⟨rfl, rfl⟩

/-- Before its last access a job has not returned. -/
theorem steps_before {j : Job V L} {n N : Nat} {l l1 : L} {m m1 : Nat → V} (h : Steps j n l m l1 m1)
    (hN : N < n) : ∃ l2 m2, Steps j N l m l2 m2 ∧ j.code l2 ≠ .ret := by
  induction h with
  | refl => omega
  | @read n _ l1 _ m1 _ _ h e ih =>
    by_cases hn : N = n
    · subst hn; exact ⟨l1, m1, h, by rw [e]; intro h; cases h⟩
    · exact ih (by omega)
  | @write n _ l1 _ _ m1 _ _ h e ih =>
    by_cases hn : N = n
    · subst hn; exact ⟨l1, m1, h, by rw [e]; intro h; cases h⟩
    · exact ih (by omega)

theorem steps_le_solo {j : Job V L} {n N : Nat} {l1 : L} {m m1 m' : Nat → V}
    (h : Steps j n j.init m l1 m1) (hs : Solo j m N m') : n ≤ N := by
  by_contra hlt
  obtain ⟨l2, m2, h2, h3⟩ := steps_before h (N := N) (by omega)
  obtain ⟨l, h4, h5⟩ := hs
  obtain ⟨rfl, _⟩ := steps_det h2 h4
  exact h3 h5

theorem solo_det {j : Job V L} {n n' : Nat} {m m1 m2 : Nat → V} (h1 : Solo j m n m1) (h2 : Solo j m n' m2) :
    n = n' ∧ m1 = m2 := by
  have h3 : n ≤ n' := by obtain ⟨l, h, _⟩ := h1; exact steps_le_solo h h2
  have h4 : n' ≤ n := by obtain ⟨l, h, _⟩ := h2; exact steps_le_solo h h1
  have e : n = n' := by omega
  subst e
  obtain ⟨l, h, _⟩ := h1
  obtain ⟨l', h', _⟩ := h2
  exact ⟨rfl, (steps_det h h').2⟩

theorem solo_agree {j : Job V L} {acc wr : Nat → Prop} (hw : Within j acc wr) {n : Nat}
    {m m1 m' : Nat → V} (h : Solo j m n m1) (hm : ∀ c, acc c → m c = m' c) :
    ∃ m1', Solo j m' n m1' ∧ (∀ c, acc c → m1 c = m1' c) ∧ ∀ c, ¬ wr c → m1' c = m' c := by
  obtain ⟨l, h, e⟩ := h
  obtain ⟨m1', h1, h2⟩ := steps_agree hw h hm
  exact ⟨m1', ⟨l, h1, e⟩, h2, steps_off hw h1⟩

theorem seq_det {js : List (Job V L)} {m m1 m2 : Nat → V} (h1 : Seq js m m1) (h2 : Seq js m m2) : m1 = m2 := by
  induction h1 with
  | nil => cases h2; rfl
  | cons s _ ih =>
    cases h2 with
    | cons s2 h2 =>
      obtain ⟨_, rfl⟩ := solo_det s s2
      exact ih h2

theorem seq_append {js js' : List (Job V L)} {m m1 m2 : Nat → V} (h1 : Seq js m m1) (h2 : Seq js' m1 m2) :
    Seq (js ++ js') m m2 := by
  induction h1 with
  | nil => exact h2
  | cons s _ ih => exact .cons s (ih h2)

theorem seq_split {js js' : List (Job V L)} {m m2 : Nat → V} (h : Seq (js ++ js') m m2) :
    ∃ m1, Seq js m m1 ∧ Seq js' m1 m2 := by
  induction js generalizing m with
  | nil => exact ⟨m, .nil, h⟩
  | cons j js ih =>
    cases h with
    | cons s h =>
      obtain ⟨m1, h1, h2⟩ := ih h
      exact ⟨m1, .cons s h1, h2⟩

/-- Jobs of one batch that do not disturb each other, each run on the memory at the
beginning of the batch, together do what they do one after another. -/
theorem seq_of_each {js : List (Job V L)} {acc wr : Nat → Nat → Prop}
    (hw : ∀ k j, js[k]? = some j → Within j (acc k) (wr k))
    (hd : ∀ k k' c, k < js.length → k' < js.length → wr k c → acc k' c → k = k') {M m : Nat → V}
    (hj : ∀ k j, js[k]? = some j → ∃ n m1, Solo j M n m1 ∧ ∀ c, acc k c → m1 c = m c)
    (hr : ∀ c, (∀ k, k < js.length → ¬ wr k c) → m c = M c) : Seq js M m := by
  have key : ∀ k, k ≤ js.length → ∃ Mk, Seq (js.take k) M Mk ∧
      (∀ c k', k' < k → wr k' c → Mk c = m c) ∧ (∀ c, (∀ k', k' < k → ¬ wr k' c) → Mk c = M c) := by
    intro k
    induction k with
    | zero => exact fun _ => ⟨M, .nil, fun _ _ h => absurd h (by omega), fun _ _ => rfl⟩
    | succ k ih =>
      intro hk
      obtain ⟨Mk, h1, h2, h3⟩ := ih (by omega)
      have ej : js[k]? = some js[k] := List.getElem?_eq_getElem (by omega)
      obtain ⟨n, m1, s1, a1⟩ := hj k _ ej
      have hM : ∀ c, acc k c → M c = Mk c := by
        intro c hc
        refine (h3 c fun k' hk' hcc => ?_).symm
        have := hd k' k c (by omega) (by omega) hcc hc
        omega
      obtain ⟨m1', s2, a2, o2⟩ := solo_agree (hw k _ ej) s1 hM
      refine ⟨m1', ?_, ?_, ?_⟩
      · rw [List.take_add_one, ej]
        exact seq_append h1 (.cons s2 .nil)
      · intro c k' hk' hc
        by_cases hkk : wr k c
        · rw [← a2 c ((hw k _ ej).1 c hkk), a1 c ((hw k _ ej).1 c hkk)]
        · rw [o2 c hkk]
          refine h2 c k' ?_ hc
          have : k' ≠ k := fun e => hkk (e ▸ hc)
          omega
      · intro c hc
        rw [o2 c (hc k (by omega))]
        exact h3 c fun k' hk' => hc k' (by omega)
  obtain ⟨Mk, h1, h2, h3⟩ := key js.length (Nat.le_refl _)
  rw [List.take_length] at h1
  have : Mk = m := by
    funext c
    by_cases hc : ∃ k, k < js.length ∧ wr k c
    · obtain ⟨k, hk, hc⟩ := hc
      exact h2 c k hk hc
    · have hc' : ∀ k, k < js.length → ¬ wr k c := fun k hk hw => hc ⟨k, hk, hw⟩
      rw [h3 c hc', hr c hc']
  rwa [this] at h1

/-- Conversely, if they run one after another then each of them, run on the memory
at the beginning of the batch, returns. -/
theorem each_of_seq {js : List (Job V L)} {acc wr : Nat → Nat → Prop}
    (hw : ∀ k j, js[k]? = some j → Within j (acc k) (wr k))
    (hd : ∀ k k' c, k < js.length → k' < js.length → wr k c → acc k' c → k = k') {M m : Nat → V}
    (h : Seq js M m) {k : Nat} {j : Job V L} (hk : js[k]? = some j) : ∃ n m1, Solo j M n m1 := by
  have key : ∀ k, k ≤ js.length → ∃ Mk, Seq (js.take k) M Mk ∧ Seq (js.drop k) Mk m ∧
      ∀ c, (∀ k', k' < k → ¬ wr k' c) → Mk c = M c := by
    intro k
    induction k with
    | zero => exact fun _ => ⟨M, .nil, h, fun _ _ => rfl⟩
    | succ k ih =>
      intro hk
      obtain ⟨Mk, h1, h2, h3⟩ := ih (by omega)
      have ej : js[k]? = some js[k] := List.getElem?_eq_getElem (by omega)
      rw [List.drop_eq_getElem_cons (by omega)] at h2
      cases h2 with
      | cons s h2 =>
        refine ⟨_, ?_, h2, ?_⟩
        · rw [List.take_add_one, ej]
          exact seq_append h1 (.cons s .nil)
        · intro c hc
          obtain ⟨l, s, _⟩ := s
          rw [steps_off (hw k _ ej) s c (hc k (by omega))]
          exact h3 c fun k' hk' => hc k' (by omega)
  have hlt : k < js.length := by
    by_contra hge
    rw [List.getElem?_eq_none (by omega)] at hk
    cases hk
  obtain ⟨Mk, _, h2, h3⟩ := key k (by omega)
  have ej : js[k] = j := by
    have := List.getElem?_eq_getElem hlt
    rw [hk] at this
    injection this with this
    exact this.symm
  rw [List.drop_eq_getElem_cons hlt, ej] at h2
  cases h2 with
  | cons s h2 =>
    obtain ⟨m1', s2, _⟩ := solo_agree (hw k j hk) s (m' := M) (by
      intro c hc
      refine h3 c fun k' hk' hcc => ?_
      have := hd k' k c (by omega) hlt hcc hc
      omega)
    exact ⟨_, _, s2⟩

end SpatialOps.Fork
