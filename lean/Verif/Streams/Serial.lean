import Verif.Streams.Spec

/-!
# Lemmas: interleaved jobs that do not conflict can be put in order
-/

namespace SpatialOps
namespace Str
open Nebo

variable {V : Type}

/-- The remaining accesses of the threads of one step. -/
abbrev Tasks (V : Type) := List (Option (Act V))

/-- All threads have ended. -/
def Ended (ts : Tasks V) : Prop := ∀ t ∈ ts, t = none

/-- `k` steps of the threads of one job alone. -/
inductive Alone : Tasks V → Mem V → Nat → Tasks V → Mem V → Prop where
  | nil {ts m} : Alone ts m 0 ts m
  | cons {ts m ts1 m1 k ts2 m2} : TaskStep ts m ts1 m1 → Alone ts1 m1 k ts2 m2 → Alone ts m (k + 1) ts2 m2

theorem Alone.trans {ts ts1 ts2 : Tasks V} {m m1 m2 : Mem V} {k k'} (h : Alone ts m k ts1 m1)
    (h' : Alone ts1 m1 k' ts2 m2) : Alone ts m (k + k') ts2 m2 := by
  induction h with
  | nil => rw [Nat.zero_add]; exact h'
  | @cons _ _ _ _ k _ _ hs _ ih => rw [Nat.add_right_comm]; exact .cons hs (ih h')

theorem Alone.one {ts ts1 : Tasks V} {m m1 : Mem V} (h : TaskStep ts m ts1 m1) : Alone ts m 1 ts1 m1 := .cons h .nil

/-- All accesses of the threads are within `U`, writes within `W`. -/
def TWithin (U W : Nat → Prop) (ts : Tasks V) : Prop := ∀ A, some A ∈ ts → Within U W A

theorem within_mono {U W U' W' : Nat → Prop} (hu : ∀ b, U b → U' b) (hw : ∀ b, W b → W' b) (A : Act V)
    (h : Within U W A) : Within U' W' A := by
  induction A with
  | done => trivial
  | fail => trivial
  | read b a k ih => exact ⟨hu _ h.1, fun v => ih v (h.2 v)⟩
  | write b a v k ih => exact ⟨hu _ h.1, hw _ h.2.1, ih h.2.2⟩

theorem mem_set_some {ts : Tasks V} {i : Nat} {x : Option (Act V)} {A : Act V} (h : some A ∈ ts.set i x) :
    some A ∈ ts ∨ some A = x := by
  rcases List.mem_or_eq_of_mem_set h with h | h
  · exact .inl h
  · exact .inr h

theorem TaskStep.within {U W : Nat → Prop} {ts ts' : Tasks V} {m m' : Mem V} (h : TaskStep ts m ts' m')
    (hw : TWithin U W ts) : TWithin U W ts' := by
  intro A hA
  cases h with
  | read hi =>
    rcases mem_set_some hA with h | h
    · exact hw A h
    · injection h with h; subst h
      exact (hw _ (List.mem_of_getElem? hi)).2 _
  | write hi =>
    rcases mem_set_some hA with h | h
    · exact hw A h
    · injection h with h; subst h
      exact (hw _ (List.mem_of_getElem? hi)).2.2
  | stop hi =>
    rcases mem_set_some hA with h | h
    · exact hw A h
    · cases h

theorem Alone.within {U W : Nat → Prop} {ts ts' : Tasks V} {m m' : Mem V} {k} (h : Alone ts m k ts' m')
    (hw : TWithin U W ts) : TWithin U W ts' := by
  induction h with
  | nil => exact hw
  | cons hs _ ih => exact ih (hs.within hw)

/-- A step of one job does the same in a memory that agrees on the blocks it uses, and changes only blocks it
writes. -/
theorem TaskStep.agree {U W X : Nat → Prop} {ts ts' : Tasks V} {m m' n : Mem V} (h : TaskStep ts m ts' m')
    (hw : TWithin U W ts) (hx : ∀ b, X b → ¬ U b) (ha : ∀ b a, ¬ X b → m b a = n b a) :
    ∃ n', TaskStep ts n ts' n' ∧ (∀ b a, ¬ X b → m' b a = n' b a) ∧ ∀ b a, X b → n' b a = n b a ∧ m' b a = m b a := by
  cases h with
  | read hi =>
    have h1 := (hw _ (List.mem_of_getElem? hi)).1
    refine ⟨n, ?_, ha, fun _ _ _ => ⟨rfl, rfl⟩⟩
    rw [ha _ _ fun hb => hx _ hb h1]
    exact .read hi
  | @write i b a v k hi =>
    have h1 := (hw _ (List.mem_of_getElem? hi)).1
    refine ⟨n.write b a v, .write hi, ?_, ?_⟩
    · intro b' a' hb
      simp only [Mem.write]
      split
      · rfl
      · exact ha _ _ hb
    · intro b' a' hb
      have hne : b' ≠ b := by rintro rfl; exact hx _ hb h1
      simp only [Mem.write, hne, false_and, if_false, and_self]
  | stop hi => exact ⟨n, .stop hi, ha, fun _ _ _ => ⟨rfl, rfl⟩⟩

/-- A step changes only blocks its job writes. -/
theorem TaskStep.frame {U W : Nat → Prop} {ts ts' : Tasks V} {m m' : Mem V} (h : TaskStep ts m ts' m')
    (hw : TWithin U W ts) (b : Nat) (a : Int) (hb : ¬ W b) : m' b a = m b a := by
  cases h with
  | read => rfl
  | @write i b' a' v k hi =>
    have h1 := (hw _ (List.mem_of_getElem? hi)).2.1
    have hne : b ≠ b' := by rintro rfl; exact hb h1
    simp only [Mem.write, hne, false_and, if_false]
  | stop => rfl

theorem Alone.frame {U W : Nat → Prop} {ts ts' : Tasks V} {m m' : Mem V} {k} (h : Alone ts m k ts' m')
    (hw : TWithin U W ts) (b : Nat) (a : Int) (hb : ¬ W b) : m' b a = m b a := by
  induction h with
  | nil => rfl
  | cons hs _ ih => rw [ih (hs.within hw), hs.frame hw b a hb]

/-- Two steps of jobs that do not conflict can be exchanged. -/
theorem swap_step {U W U' W' : Nat → Prop} {ts ts1 us us1 : Tasks V} {m m1 m2 : Mem V}
    (h : TaskStep ts m ts1 m1) (h' : TaskStep us m1 us1 m2) (hw : TWithin U W ts) (hw' : TWithin U' W' us)
    (h1 : ∀ b, W b → ¬ U' b) (h2 : ∀ b, W' b → ¬ U b) :
    ∃ n, TaskStep us m us1 n ∧ TaskStep ts n ts1 m2 := by
  have e1 : ∀ b a, U b → m2 b a = m1 b a := fun b a hb => h'.frame hw' b a fun hb' => h2 b hb' hb
  cases h with
  | @read i b a k hi =>
    refine ⟨m2, h', ?_⟩
    rw [← e1 b a (hw _ (List.mem_of_getElem? hi)).1]
    exact .read hi
  | stop hi => exact ⟨m2, h', .stop hi⟩
  | @write i b a v k hi =>
    have hb := (hw _ (List.mem_of_getElem? hi)).2.1
    cases h' with
    | @read i' b' a' k' hi' =>
      have hb' := (hw' _ (List.mem_of_getElem? hi')).1
      have hne : b' ≠ b := by rintro rfl; exact h1 _ hb hb'
      refine ⟨m, ?_, .write hi⟩
      rw [show m.write b a v b' a' = m b' a' by simp only [Mem.write, hne, false_and, if_false]]
      exact .read hi'
    | stop hi' => exact ⟨m, .stop hi', .write hi⟩
    | @write i' b' a' v' k' hi' =>
      have hb' := (hw' _ (List.mem_of_getElem? hi')).1
      have hne : b' ≠ b := by rintro rfl; exact h1 _ hb hb'
      refine ⟨m.write b' a' v', .write hi', ?_⟩
      rw [show (m.write b a v).write b' a' v' = (m.write b' a' v').write b a v by
        funext x y
        simp only [Mem.write]
        split
        · rename_i h
          rw [if_neg (by rintro ⟨rfl, -⟩; exact hne h.1.symm)]
        · rfl]
      exact .write hi

/-- A step of one job and the following steps of another can be exchanged. -/
theorem swap_alone {U W U' W' : Nat → Prop} {ts ts1 us us1 : Tasks V} {m m1 m2 : Mem V} {k : Nat}
    (h : TaskStep ts m ts1 m1) (h' : Alone us m1 k us1 m2) (hw : TWithin U W ts) (hw' : TWithin U' W' us)
    (h1 : ∀ b, W b → ¬ U' b) (h2 : ∀ b, W' b → ¬ U b) :
    ∃ n, Alone us m k us1 n ∧ TaskStep ts n ts1 m2 := by
  induction h' generalizing m with
  | nil => exact ⟨m, .nil, h⟩
  | cons hs _ ih =>
    obtain ⟨n, n1, n2⟩ := swap_step h hs hw hw' h1 h2
    obtain ⟨q, q1, q2⟩ := ih n2 (hs.within hw')
    exact ⟨q, .cons n1 q1, q2⟩

/-- Interleaved steps of several jobs: job `j` makes steps only if `Ok j` and when all earlier jobs `i` with `C i j`
have ended. -/
inductive ARun : (C : Nat → Nat → Prop) → (Ok : Nat → Prop) → List (Tasks V) → Mem V → Nat → List (Tasks V) → Mem V → Prop where
  | nil {C Ok L m} : ARun C Ok L m 0 L m
  | cons {C Ok L m j ts ts1 m1 k L2 m2} : Ok j → L[j]? = some ts →
      (∀ i us, i < j → C i j → L[i]? = some us → Ended us) → TaskStep ts m ts1 m1 →
      ARun C Ok (L.set j ts1) m1 k L2 m2 → ARun C Ok L m (k + 1) L2 m2

theorem ARun.snoc {C : Nat → Nat → Prop} {Ok : Nat → Prop} {L L1 : List (Tasks V)} {m m1 m2 : Mem V} {k j : Nat}
    {ts ts1 : Tasks V} (h : ARun C Ok L m k L1 m1) (ho : Ok j) (hj : L1[j]? = some ts)
    (hc : ∀ i us, i < j → C i j → L1[i]? = some us → Ended us) (hs : TaskStep ts m1 ts1 m2) :
    ARun C Ok L m (k + 1) (L1.set j ts1) m2 := by
  induction h with
  | nil => exact .cons ho hj hc hs .nil
  | cons h1 h2 h3 h4 _ ih => exact .cons h1 h2 h3 h4 (ih hj hc hs)

theorem ARun.length {C : Nat → Nat → Prop} {Ok : Nat → Prop} {L L1 : List (Tasks V)} {m m1 : Mem V} {k : Nat}
    (h : ARun C Ok L m k L1 m1) : L1.length = L.length := by
  induction h with
  | nil => rfl
  | cons _ _ _ _ _ ih => rw [ih, List.length_set]

theorem ARun.mono {C : Nat → Nat → Prop} {Ok Ok' : Nat → Prop} {L L1 : List (Tasks V)} {m m1 : Mem V} {k : Nat}
    (h : ARun C Ok L m k L1 m1) (ho : ∀ j, Ok j → Ok' j) : ARun C Ok' L m k L1 m1 := by
  induction h with
  | nil => exact .nil
  | cons h1 h2 h3 h4 _ ih => exact .cons (ho _ h1) h2 h3 h4 ih

/-- The jobs stay within their blocks. -/
def AllWithin (U W : Nat → Nat → Prop) (L : List (Tasks V)) : Prop := ∀ j ts, L[j]? = some ts → TWithin (U j) (W j) ts

theorem AllWithin.set {U W : Nat → Nat → Prop} {L : List (Tasks V)} {j : Nat} {ts : Tasks V} (h : AllWithin U W L)
    (ht : TWithin (U j) (W j) ts) : AllWithin U W (L.set j ts) := by
  intro i us hi
  rw [List.getElem?_set] at hi
  split at hi
  · split at hi
    · injection hi with hi; subst hi; rename_i h _; subst h; exact ht
    · cases hi
  · exact h i us hi

/-- The jobs conflict in no block. -/
def Apart (U W : Nat → Nat → Prop) (i j : Nat) : Prop := (∀ b, W i b → ¬ U j b) ∧ ∀ b, W j b → ¬ U i b

/-- The steps of the first job can be moved to the front. -/
theorem front {C : Nat → Nat → Prop} {Ok : Nat → Prop} {U W : Nat → Nat → Prop}
    (hc : ∀ i j, i < j → ¬ C i j → Apart U W i j) {L1 L2 : List (Tasks V)} {m m2 : Mem V} {k : Nat}
    (h : ARun C Ok L1 m k L2 m2) : ∀ {T : Tasks V} {L : List (Tasks V)}, L1 = T :: L → AllWithin U W L1 →
    ∃ T' L' k1 k2 m1, L2 = T' :: L' ∧ k = k1 + k2 ∧ Alone T m k1 T' m1 ∧
      ARun (fun i j => C (i + 1) (j + 1)) (fun j => ¬ Ended T' → ¬ C 0 (j + 1)) L m1 k2 L' m2 := by
  induction h with
  | nil => intro T L e _; exact ⟨T, L, 0, 0, _, e, rfl, .nil, .nil⟩
  | @cons L0 m j ts ts1 m1 k L2 m2 h1 h2 h3 h4 _ ih =>
    intro T L e hw
    subst e
    cases j with
    | zero =>
      simp only [List.length_cons, Nat.zero_lt_succ, List.getElem?_eq_getElem, List.getElem_cons_zero, Option.some.injEq] at h2
      subst h2
      obtain ⟨T', L', k1, k2, n, e1, e2, e3, e4⟩ := ih rfl (hw.set (h4.within (hw 0 _ rfl)))
      exact ⟨T', L', k1 + 1, k2, n, e1, by omega, .cons h4 e3, e4⟩
    | succ j =>
      rw [List.getElem?_cons_succ] at h2
      have hts := hw (j + 1) ts h2
      obtain ⟨T', L', k1, k2, n, e1, e2, e3, e4⟩ := ih rfl (hw.set (h4.within hts))
      have h3' : ∀ i us, i < j → C (i + 1) (j + 1) → L[i]? = some us → Ended us :=
        fun i us hi hC hL => h3 (i + 1) us (by omega) hC (by rw [List.getElem?_cons_succ]; exact hL)
      by_cases hT : Ended T
      · cases e3 with
        | nil => exact ⟨T, L', 0, k2 + 1, m, e1, by omega, .nil, .cons (fun h => absurd hT h) h2 h3' h4 e4⟩
        | cons hs _ =>
          exfalso
          cases hs with
          | read hi => cases hT _ (List.mem_of_getElem? hi)
          | write hi => cases hT _ (List.mem_of_getElem? hi)
          | stop hi => cases hT _ (List.mem_of_getElem? hi)
      · have hnc : ¬ C 0 (j + 1) := fun hC => hT (h3 0 T (by omega) hC rfl)
        obtain ⟨a1, a2⟩ := hc 0 (j + 1) (by omega) hnc
        obtain ⟨q, q1, q2⟩ := swap_alone h4 e3 hts (hw 0 T rfl) a2 a1
        exact ⟨T', L', k1, k2 + 1, q, e1, by omega, q1, .cons (fun _ => hnc) h2 h3' q2 e4⟩

/-- Steps of jobs that do not use the blocks in `X` are the same in a memory with other contents of `X`. -/
theorem transport {C : Nat → Nat → Prop} {Ok : Nat → Prop} {U W : Nat → Nat → Prop} {X : Nat → Prop}
    (hx : ∀ j, Ok j → ∀ b, X b → ¬ U j b) {L L2 : List (Tasks V)} {m m2 : Mem V} {k : Nat} (h : ARun C Ok L m k L2 m2)
    (hw : AllWithin U W L) {n : Mem V} (ha : ∀ b a, ¬ X b → m b a = n b a) : ∃ n2, ARun C Ok L n k L2 n2 := by
  induction h generalizing n with
  | nil => exact ⟨n, .nil⟩
  | cons h1 h2 h3 h4 _ ih =>
    obtain ⟨n', a1, a2, -⟩ := h4.agree (hw _ _ h2) (hx _ h1) ha
    obtain ⟨n2, hn⟩ := ih (hw.set (h4.within (hw _ _ h2))) a2
    exact ⟨n2, .cons h1 h2 h3 a1 hn⟩

/-- The job, alone, ends after a bounded number of steps, never gets stuck, and leaves memory `m'`. -/
def Settles (T : Tasks V) (m m' : Mem V) : Prop :=
  (∃ B, ∀ k T' m1, Alone T m k T' m1 → k ≤ B) ∧
  ∀ k T' m1, Alone T m k T' m1 → (¬ Ended T' → ∃ T2 m2, TaskStep T' m1 T2 m2) ∧ (Ended T' → m1 = m')

theorem settles_ends {T : Tasks V} {m m' : Mem V} (h : Settles T m m') {k : Nat} {T' : Tasks V} {m1 : Mem V}
    (ha : Alone T m k T' m1) : ∃ k' T2, Alone T' m1 k' T2 m' ∧ Ended T2 := by
  obtain ⟨⟨B, hB⟩, hp⟩ := h
  obtain ⟨f, hf⟩ : ∃ f, B - k ≤ f := ⟨_, le_rfl⟩
  induction f generalizing k T' m1 with
  | zero =>
    by_cases he : Ended T'
    · exact ⟨0, T', by rw [(hp _ _ _ ha).2 he]; exact .nil, he⟩
    · obtain ⟨T2, m2, hs⟩ := (hp _ _ _ ha).1 he
      have := hB _ _ _ (ha.trans (.one hs))
      omega
  | succ f ih =>
    by_cases he : Ended T'
    · exact ⟨0, T', by rw [(hp _ _ _ ha).2 he]; exact .nil, he⟩
    · obtain ⟨T2, m2, hs⟩ := (hp _ _ _ ha).1 he
      obtain ⟨k', T3, h1, h2⟩ := ih (ha.trans (.one hs)) (by omega)
      exact ⟨k' + 1, T3, .cons hs h1, h2⟩

/-- The jobs one after the other. -/
inductive Chain : List (Tasks V) → Mem V → Mem V → Prop where
  | nil {m : Mem V} : Chain [] m m
  | cons {T : Tasks V} {L : List (Tasks V)} {m m1 m2 : Mem V} : Settles T m m1 → Chain L m1 m2 → Chain (T :: L) m m2

theorem shift_apart {C : Nat → Nat → Prop} {U W : Nat → Nat → Prop} (hc : ∀ i j, i < j → ¬ C i j → Apart U W i j) :
    ∀ i j, i < j → ¬ C (i + 1) (j + 1) → Apart (fun i => U (i + 1)) (fun i => W (i + 1)) i j :=
  fun i j hij hn => hc (i + 1) (j + 1) (by omega) hn

theorem shift_within {U W : Nat → Nat → Prop} {T : Tasks V} {L : List (Tasks V)} (h : AllWithin U W (T :: L)) :
    AllWithin (fun i => U (i + 1)) (fun i => W (i + 1)) L :=
  fun j ts hj => h (j + 1) ts (by rw [List.getElem?_cons_succ]; exact hj)

/-- Interleaved runs are bounded. -/
theorem chain_bound {L : List (Tasks V)} {m m' : Mem V} (h : Chain L m m') : ∀ {C : Nat → Nat → Prop} {U W : Nat → Nat → Prop},
    (∀ i j, i < j → ¬ C i j → Apart U W i j) → AllWithin U W L →
    ∃ B, ∀ Ok k L2 m2, ARun C Ok L m k L2 m2 → k ≤ B := by
  induction h with
  | nil =>
    intro C U W _ _
    refine ⟨0, fun Ok k L2 m2 hr => ?_⟩
    cases hr with
    | nil => exact le_rfl
    | cons _ h2 _ _ _ => simp at h2
  | @cons T L m m1 m2 hs _ ih =>
    intro C U W hc hw
    obtain ⟨B, hB⟩ := ih (shift_apart hc) (shift_within hw)
    obtain ⟨B0, hB0⟩ := hs.1
    refine ⟨B0 + B, fun Ok k L2 n hr => ?_⟩
    obtain ⟨T', L', k1, k2, q, e1, e2, e3, e4⟩ := front hc hr rfl hw
    have b1 := hB0 _ _ _ e3
    suffices hk : k2 ≤ B by omega
    by_cases hT : Ended T'
    · rw [(hs.2 _ _ _ e3).2 hT] at e4
      exact hB _ _ _ _ e4
    · obtain ⟨k', T2, f1, f2⟩ := settles_ends hs e3
      have hT' := e3.within (hw 0 T rfl)
      obtain ⟨n2, hn⟩ := transport (X := W 0)
        (fun j hj b hb => (hc 0 (j + 1) (by omega) (hj hT)).1 b hb) e4 (shift_within hw)
        (fun b a hb => (f1.frame hT' b a hb).symm)
      exact hB _ _ _ _ hn

/-- The first job that has not ended can go on, if it has the turn. -/
theorem chain_progress {L : List (Tasks V)} {m m' : Mem V} (h : Chain L m m') : ∀ {C : Nat → Nat → Prop}
    {U W : Nat → Nat → Prop}, (∀ i j, i < j → ¬ C i j → Apart U W i j) → AllWithin U W L →
    ∀ {Ok : Nat → Prop} {k : Nat} {L2 : List (Tasks V)} {m2 : Mem V}, ARun C Ok L m k L2 m2 → ∀ {j : Nat} {ts : Tasks V}, L2[j]? = some ts →
      (∀ (i : Nat) (us : Tasks V), i < j → L2[i]? = some us → Ended us) → ¬ Ended ts → ∃ ts' m3, TaskStep ts m2 ts' m3 := by
  induction h with
  | nil =>
    intro C U W _ _ Ok k L2 m2 hr j ts hj
    cases hr with
    | nil => simp at hj
    | cons _ h2 _ _ _ => simp at h2
  | @cons T L m m1 m2 hs _ ih =>
    intro C U W hc hw Ok k L2 n hr j ts hj hbefore hne
    obtain ⟨T', L', k1, k2, q, e1, e2, e3, e4⟩ := front hc hr rfl hw
    subst e1
    cases j with
    | zero =>
      simp only [List.length_cons, Nat.zero_lt_succ, List.getElem?_eq_getElem, List.getElem_cons_zero, Option.some.injEq] at hj
      subst hj
      obtain ⟨T2, m3, h3⟩ := (hs.2 _ _ _ e3).1 hne
      cases h3 with
      | read hi => exact ⟨_, _, .read hi⟩
      | write hi => exact ⟨_, _, .write hi⟩
      | stop hi => exact ⟨_, _, .stop hi⟩
    | succ j =>
      have hT := hbefore 0 T' (by omega) rfl
      rw [(hs.2 _ _ _ e3).2 hT] at e4
      refine ih (shift_apart hc) (shift_within hw) e4 (by rw [List.getElem?_cons_succ] at hj; exact hj) ?_ hne
      intro i us hi hL
      exact hbefore (i + 1) us (by omega) (by rw [List.getElem?_cons_succ]; exact hL)

/-- A run in which all jobs have ended leaves the memory of the jobs one after the other. -/
theorem chain_final {L : List (Tasks V)} {m m' : Mem V} (h : Chain L m m') : ∀ {C : Nat → Nat → Prop}
    {U W : Nat → Nat → Prop}, (∀ i j, i < j → ¬ C i j → Apart U W i j) → AllWithin U W L →
    ∀ {Ok : Nat → Prop} {k : Nat} {L2 : List (Tasks V)} {m2 : Mem V}, ARun C Ok L m k L2 m2 → (∀ ts ∈ L2, Ended ts) → m2 = m' := by
  induction h with
  | nil =>
    intro C U W _ _ Ok k L2 m2 hr _
    cases hr with
    | nil => rfl
    | cons _ h2 _ _ _ => simp at h2
  | @cons T L m m1 m2 hs _ ih =>
    intro C U W hc hw Ok k L2 n hr hend
    obtain ⟨T', L', k1, k2, q, e1, e2, e3, e4⟩ := front hc hr rfl hw
    subst e1
    rw [(hs.2 _ _ _ e3).2 (hend T' (List.mem_cons_self ..))] at e4
    exact ih (shift_apart hc) (shift_within hw) e4 fun ts hts => hend ts (List.mem_cons_of_mem _ hts)

end Str
end SpatialOps
