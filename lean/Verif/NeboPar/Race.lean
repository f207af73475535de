import Verif.NeboPar.Model
import Mathlib.Algebra.BigOperators.Group.Finset.Basic
import Mathlib.Algebra.BigOperators.Group.Finset.Piecewise
import Mathlib.Algebra.BigOperators.Intervals

/-!
# Lemmas: tasks with disjoint write sets do not influence each other
-/

namespace SpatialOps
namespace Nebo

/-- Run alone from memory `v`, the task ends after `n` accesses with memory `v'`,
writes only in `W`, and reads only in `W` or outside `All`. -/
inductive Act.Runs {V : Type} (W All : Nat → Int → Prop) : Mem V → Act V → Nat → Mem V → Prop where
  | done {v : Mem V} : Act.Runs W All v .done 0 v
  | read {v v' : Mem V} {b a k n} : (W b a ∨ ¬ All b a) → Act.Runs W All v (k (v b a)) n v' →
      Act.Runs W All v (.read b a k) (n + 1) v'
  | write {v v' : Mem V} {b a x k n} : W b a → Act.Runs W All (v.write b a x) k n v' →
      Act.Runs W All v (.write b a x k) (n + 1) v'

/-- What is known about one task: its own cells hold what it has computed so far as if
alone; `f` accesses (and the post) are left. -/
def TaskOk {V : Type} (W : Nat → Nat → Int → Prop) (All : Nat → Int → Prop) (m0 : Mem V)
    (fin : Nat → Mem V) (m : Mem V) (i f : Nat) : Option (Act V) → Prop
  | some A => ∃ v n, f = n + 1 ∧ Act.Runs (W i) All v A n (fin i) ∧ (∀ b a, W i b a → m b a = v b a) ∧
      (∀ b a, ¬ W i b a → v b a = m0 b a)
  | none => f = 0 ∧ ∀ b a, W i b a → m b a = fin i b a

/-- Number of tasks that have posted. -/
def posted {V : Type} (l : List (Option (Act V))) : Nat := l.countP (·.isNone)

/-- The invariant of the running system; `T` steps are left. -/
structure Inv {V : Type} (W : Nat → Nat → Int → Prop) (All : Nat → Int → Prop) (m0 : Mem V)
    (fin : Nat → Mem V) (N T : Nat) (s : ParState V) : Prop where
  len : s.tasks.length = N
  task : ∃ f : Nat → Nat, (∑ i ∈ Finset.range N, f i) + s.waits = T ∧
    ∀ i t, s.tasks[i]? = some t → TaskOk W All m0 fin s.mem i (f i) t
  rest : ∀ b a, ¬ All b a → s.mem b a = m0 b a
  sem : s.sem + N = posted s.tasks + s.waits

theorem posted_set_none {V : Type} {l : List (Option (Act V))} {i : Nat} {A : Act V}
    (h : l[i]? = some (some A)) : posted (l.set i none) = posted l + 1 := by
  induction l generalizing i with
  | nil => simp at h
  | cons x xs ih =>
    cases i with
    | zero =>
      simp at h
      subst h
      simp [posted]
    | succ i =>
      simp at h
      have := ih h
      unfold posted at this ⊢
      simp only [List.set_cons_succ, List.countP_cons]
      omega

theorem posted_set_some {V : Type} {l : List (Option (Act V))} {i : Nat} {A B : Act V}
    (h : l[i]? = some (some A)) : posted (l.set i (some B)) = posted l := by
  induction l generalizing i with
  | nil => simp at h
  | cons x xs ih =>
    cases i with
    | zero =>
      simp at h
      subst h
      simp [posted]
    | succ i =>
      simp at h
      have := ih h
      unfold posted at this ⊢
      simp only [List.set_cons_succ, List.countP_cons]
      omega

theorem sum_update {N i : Nat} (hi : i < N) (f : Nat → Nat) (x : Nat) (h : f i = x + 1) :
    (∑ j ∈ Finset.range N, f j) = (∑ j ∈ Finset.range N, Function.update f i x j) + 1 := by
  rw [Finset.sum_update_of_mem (Finset.mem_range.2 hi),
    Finset.sum_eq_add_sum_sdiff_singleton_of_mem (Finset.mem_range.2 hi) f, h]
  omega

theorem Inv.step {V : Type} {W : Nat → Nat → Int → Prop} {All : Nat → Int → Prop} {m0 : Mem V}
    {fin : Nat → Mem V} {N T : Nat} {s s' : ParState V}
    (hdisj : ∀ i j b a, i < N → j < N → W i b a → W j b a → i = j)
    (hall : ∀ i b a, i < N → W i b a → All b a)
    (h : Inv W All m0 fin N T s) (hs : ParStep s s') : ∃ T', T = T' + 1 ∧ Inv W All m0 fin N T' s' := by
  obtain ⟨hl, ⟨f, hsum, hf⟩, hr, hm⟩ := h
  have lt_of : ∀ {i : Nat} {t}, s.tasks[i]? = some t → i < N := by
    intro i t h
    rw [← hl]
    exact (List.getElem?_eq_some_iff.1 h).1
  cases hs with
  | @read i b a k hi =>
    obtain ⟨v, n, e, hrun, hv, hv0⟩ := hf i _ hi
    cases hrun with
    | @read _ _ _ _ _ n hwa hrun =>
      have hval : s.mem b a = v b a := by
        by_cases hw : W i b a
        · exact hv b a hw
        · rw [hv0 b a hw]
          exact hr b a (hwa.resolve_left hw)
      refine ⟨(∑ j ∈ Finset.range N, Function.update f i (n + 1) j) + s.waits, ?_, ?_, ⟨_, rfl, ?_⟩, hr, ?_⟩
      · rw [← hsum, sum_update (lt_of hi) f (n + 1) e]; omega
      · simp [hl]
      · intro j t hj
        dsimp only at hj ⊢
        rw [List.getElem?_set] at hj
        by_cases hij : i = j
        · subst hij
          rw [if_pos rfl, if_pos (by rw [hl]; exact lt_of hi)] at hj
          injection hj with hj
          subst hj
          rw [Function.update_self]
          exact ⟨v, n, rfl, by rw [hval]; exact hrun, hv, hv0⟩
        · rw [if_neg hij] at hj
          rw [Function.update_of_ne (Ne.symm hij)]
          exact hf j t hj
      · dsimp only
        rw [posted_set_some hi]; exact hm
  | @write i b a x k hi =>
    obtain ⟨v, n, e, hrun, hv, hv0⟩ := hf i _ hi
    cases hrun with
    | @write _ _ _ _ _ _ n hw hrun =>
      refine ⟨(∑ j ∈ Finset.range N, Function.update f i (n + 1) j) + s.waits, ?_, ?_, ⟨_, rfl, ?_⟩, ?_, ?_⟩
      · rw [← hsum, sum_update (lt_of hi) f (n + 1) e]; omega
      · simp [hl]
      · intro j t hj
        dsimp only at hj ⊢
        rw [List.getElem?_set] at hj
        by_cases hij : i = j
        · subst hij
          rw [if_pos rfl, if_pos (by rw [hl]; exact lt_of hi)] at hj
          injection hj with hj
          subst hj
          rw [Function.update_self]
          refine ⟨v.write b a x, n, rfl, hrun, ?_, ?_⟩
          · intro b' a' hw'
            unfold Mem.write
            split
            · rfl
            · exact hv b' a' hw'
          · intro b' a' hw'
            unfold Mem.write
            rw [if_neg]
            · exact hv0 b' a' hw'
            · rintro ⟨rfl, rfl⟩; exact hw' hw
        · rw [if_neg hij] at hj
          rw [Function.update_of_ne (Ne.symm hij)]
          have hne : ∀ b' a', W j b' a' → s.mem.write b a x b' a' = s.mem b' a' := by
            intro b' a' hw'
            unfold Mem.write
            rw [if_neg]
            rintro ⟨rfl, rfl⟩
            exact hij (hdisj i j _ _ (lt_of hi) (lt_of hj) hw hw')
          have := hf j t hj
          cases t with
          | none => exact ⟨this.1, fun b' a' hw' => (hne b' a' hw').trans (this.2 b' a' hw')⟩
          | some A =>
            obtain ⟨u, n', h1, h2, h3, h4⟩ := this
            exact ⟨u, n', h1, h2, fun b' a' hw' => (hne b' a' hw').trans (h3 b' a' hw'), h4⟩
      · intro b' a' hn
        dsimp only
        unfold Mem.write
        rw [if_neg, hr b' a' hn]
        rintro ⟨rfl, rfl⟩
        exact hn (hall i _ _ (lt_of hi) hw)
      · dsimp only
        rw [posted_set_some hi]; exact hm
  | @post i hi =>
    obtain ⟨v, n, e, hrun, hv, hv0⟩ := hf i _ hi
    generalize hfin : fin i = w at hrun
    cases hrun with
    | done =>
      refine ⟨(∑ j ∈ Finset.range N, Function.update f i 0 j) + s.waits, ?_, ?_, ⟨_, rfl, ?_⟩, hr, ?_⟩
      · rw [← hsum, sum_update (lt_of hi) f 0 e]; omega
      · simp [hl]
      · intro j t hj
        dsimp only at hj ⊢
        rw [List.getElem?_set] at hj
        by_cases hij : i = j
        · subst hij
          rw [if_pos rfl, if_pos (by rw [hl]; exact lt_of hi)] at hj
          injection hj with hj
          subst hj
          rw [Function.update_self]
          refine ⟨rfl, fun b a hw => ?_⟩
          rw [hv b a hw, hfin]
        · rw [if_neg hij] at hj
          rw [Function.update_of_ne (Ne.symm hij)]
          exact hf j t hj
      · dsimp only
        rw [posted_set_none hi]; omega
  | wait h1 h2 =>
    refine ⟨(∑ j ∈ Finset.range N, f j) + (s.waits - 1), ?_, hl, ⟨f, rfl, hf⟩, hr, ?_⟩
    · rw [← hsum]; omega
    · dsimp only; omega

theorem posted_all {V : Type} {l : List (Option (Act V))} (h : posted l = l.length) :
    ∀ (i : Nat) t, l[i]? = some t → t = none := by
  intro i t hi
  have := List.countP_eq_length.1 h t (List.mem_of_getElem? hi)
  cases t with
  | none => rfl
  | some _ => simp at this

/-- When the assigning thread returns, every task has finished. -/
theorem Inv.finished {V : Type} {W : Nat → Nat → Int → Prop} {All : Nat → Int → Prop} {m0 : Mem V}
    {fin : Nat → Mem V} {N T : Nat} {s : ParState V}
    (h : Inv W All m0 fin N T s) (hw : s.waits = 0) :
    (∀ i < N, ∀ b a, W i b a → s.mem b a = fin i b a) ∧ (∀ i < N, s.tasks[i]? = some none) := by
  have hle : posted s.tasks ≤ s.tasks.length := List.countP_le_length
  have hp : posted s.tasks = s.tasks.length := by
    have := h.sem; have := h.len; omega
  obtain ⟨f, -, hf⟩ := h.task
  have key : ∀ i < N, s.tasks[i]? = some none := by
    intro i hi
    have hlt : i < s.tasks.length := by rw [h.len]; exact hi
    have h1 := posted_all hp i _ (List.getElem?_eq_getElem hlt)
    rw [List.getElem?_eq_getElem hlt, h1]
  refine ⟨fun i hi => (hf i _ (key i hi)).2, key⟩

theorem posted_lt {V : Type} {l : List (Option (Act V))} (h : posted l < l.length) :
    ∃ (i : Nat) (A : Act V), l[i]? = some (some A) := by
  induction l with
  | nil => simp at h
  | cons x xs ih =>
    cases x with
    | some A => exact ⟨0, A, rfl⟩
    | none =>
      obtain ⟨i, A, hi⟩ := ih (by simpa [posted] using h)
      exact ⟨i + 1, A, by simpa using hi⟩

/-- Until then, something can happen. -/
theorem Inv.progress {V : Type} {W : Nat → Nat → Int → Prop} {All : Nat → Int → Prop} {m0 : Mem V}
    {fin : Nat → Mem V} {N T : Nat} {s : ParState V}
    (h : Inv W All m0 fin N T s) (hw : s.waits ≠ 0) : ∃ s', ParStep s s' := by
  by_cases hs : 0 < s.sem
  · exact ⟨_, .wait hs (by omega)⟩
  · have hlt : posted s.tasks < s.tasks.length := by
      have := h.sem; have := h.len; omega
    obtain ⟨i, A, hi⟩ := posted_lt hlt
    obtain ⟨f, -, hf⟩ := h.task
    obtain ⟨v, n, -, hr, -⟩ := hf i _ hi
    cases hr with
    | done => exact ⟨_, .post hi⟩
    | read => exact ⟨_, .read hi⟩
    | write => exact ⟨_, .write hi⟩

end Nebo
end SpatialOps
