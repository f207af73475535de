import Verif.Fork.Seq

/-!
# The merge sort example run step by step
-/

namespace SpatialOps.Fork
variable {V L : Type}

theorem cells_add (m : Nat → V) (pos a b : Nat) : cells m pos (a + b) = cells m pos a ++ cells m (pos + a) b := by
  unfold cells
  rw [List.range_add, List.map_append, List.map_map]
  congr 1
  apply List.map_congr_left
  intro i _
  simp only [Function.comp, Nat.add_assoc]

theorem cells_congr {m m' : Nat → V} {pos len : Nat} (h : ∀ c, pos ≤ c → c < pos + len → m c = m' c) :
    cells m pos len = cells m' pos len := by
  unfold cells
  apply List.map_congr_left
  intro i hi
  rw [List.mem_range] at hi
  exact h _ (by omega) (by omega)

theorem cells_length (m : Nat → V) (pos len : Nat) : (cells m pos len).length = len := by
  unfold cells; simp

theorem cells_one (m : Nat → V) (pos : Nat) : cells m pos 1 = [m pos] := by
  unfold cells; rfl

open List.MergeSort.Internal in
/-- The library's merge sort splits in the middle. -/
theorem mergeSort_halves (le : V → V → Bool) {xs ys : List V} (h : xs.length = ys.length) (h0 : 0 < xs.length) :
    (xs ++ ys).mergeSort le = List.merge (xs.mergeSort le) (ys.mergeSort le) le := by
  cases xs with
  | nil => simp at h0
  | cons a xs =>
    cases hxy : xs ++ ys with
    | nil =>
      rw [List.append_eq_nil_iff] at hxy
      rw [hxy.2] at h
      simp at h
    | cons b zs =>
      have e : a :: xs ++ ys = a :: b :: zs := by rw [List.cons_append, hxy]
      have hl : zs.length + 1 = xs.length + ys.length := by
        have := congrArg List.length hxy
        simpa using this.symm
      simp only [List.length_cons] at h
      rw [e, List.mergeSort]
      simp only [splitInTwo_fst, splitInTwo_snd]
      have hh : ((a :: b :: zs).length + 1) / 2 = (a :: xs).length := by
        simp only [List.length_cons]
        omega
      rw [hh, ← e, List.take_left, List.drop_left]

section
variable {le : V → V → Bool} {merge : Nat → Nat → Job V L}

/-- The merges of one step of the sort. -/
theorem sort_step (trans : ∀ a b c, le a b → le b c → le a c) (total : ∀ a b, le a b || le b a)
    (hm : InplaceMerge le merge) {h N : Nat} (h0 : 0 < h) {m0 M : Nat → V}
    (hM : ∀ i, i < 2 * N → cells M (i * h) h = (cells m0 (i * h) h).mergeSort le) :
    ∃ M', Seq ((List.range N).map fun p => merge (p * (2 * h)) (2 * h)) M M' ∧
      (∀ i, i < N → cells M' (i * (2 * h)) (2 * h) = (cells m0 (i * (2 * h)) (2 * h)).mergeSort le) ∧
      ∀ c, N * (2 * h) ≤ c → M' c = M c := by
  have key : ∀ k, k ≤ N → ∃ M', Seq ((List.range k).map fun p => merge (p * (2 * h)) (2 * h)) M M' ∧
      (∀ i, i < k → cells M' (i * (2 * h)) (2 * h) = (cells m0 (i * (2 * h)) (2 * h)).mergeSort le) ∧
      ∀ c, k * (2 * h) ≤ c → M' c = M c := by
    intro k
    induction k with
    | zero => exact fun _ => ⟨M, .nil, fun _ hi => absurd hi (by omega), fun _ _ => rfl⟩
    | succ k ih =>
      intro hk
      obtain ⟨M1, q1, q2, q3⟩ := ih (by omega)
      have e1 : (2 * k) * h = k * (2 * h) := by rw [Nat.mul_comm 2 k, Nat.mul_assoc]
      have e2 : (2 * k + 1) * h = k * (2 * h) + h := by rw [Nat.add_mul, e1, Nat.one_mul]
      have c1 : cells M1 (k * (2 * h)) h = (cells m0 (k * (2 * h)) h).mergeSort le := by
        have := hM (2 * k) (by omega)
        rw [e1] at this
        rw [← this]
        exact cells_congr fun c hc _ => q3 c hc
      have c2 : cells M1 (k * (2 * h) + h) h = (cells m0 (k * (2 * h) + h) h).mergeSort le := by
        have := hM (2 * k + 1) (by omega)
        rw [e2] at this
        rw [← this]
        exact cells_congr fun c hc _ => q3 c (by omega)
      obtain ⟨n, M2, s1, s2⟩ := hm.merges (k * (2 * h)) h M1
        (by rw [c1]; exact List.pairwise_mergeSort trans total _)
        (by rw [c2]; exact List.pairwise_mergeSort trans total _)
      have off : ∀ c, ¬ (k * (2 * h) ≤ c ∧ c < k * (2 * h) + 2 * h) → M2 c = M1 c := by
        obtain ⟨l, s1, _⟩ := s1
        exact steps_off (hm.within _ _) s1
      refine ⟨M2, ?_, ?_, ?_⟩
      · rw [List.range_succ, List.map_append]
        exact seq_append q1 (.cons s1 .nil)
      · intro i hi
        by_cases hik : i = k
        · subst hik
          rw [s2, c1, c2, ← mergeSort_halves le (by rw [cells_length, cells_length]) (by rw [cells_length]; exact h0)]
          congr 1
          rw [← cells_add]
          congr 1
          omega
        · rw [← q2 i (by omega)]
          apply cells_congr
          intro c _ hc
          apply off
          rintro ⟨h3, _⟩
          have : (i + 1) * (2 * h) ≤ k * (2 * h) := Nat.mul_le_mul_right _ (by omega)
          rw [Nat.add_mul, Nat.one_mul] at this
          omega
      · intro c hc
        rw [Nat.add_mul, Nat.one_mul] at hc
        rw [off c (by omega)]
        exact q3 c (by omega)
  exact key N (Nat.le_refl _)

/-- All steps. -/
theorem sort_seq (trans : ∀ a b c, le a b → le b c → le a c) (total : ∀ a b, le a b || le b a)
    (hm : InplaceMerge le merge) (exponent : Nat) (m0 : Nat → V) {s : Nat} (hs : s ≤ exponent) :
    ∃ M, Seq ((sortProg merge exponent).take s).flatten m0 M ∧
      (∀ i, i < 2 ^ (exponent - s) → cells M (i * 2 ^ s) (2 ^ s) = (cells m0 (i * 2 ^ s) (2 ^ s)).mergeSort le) ∧
      ∀ c, 2 ^ exponent ≤ c → M c = m0 c := by
  induction s with
  | zero =>
    refine ⟨m0, .nil, fun i _ => ?_, fun _ _ => rfl⟩
    simp only [Nat.pow_zero]
    rw [cells_one]
    simp
  | succ s ih =>
    obtain ⟨M, q1, q2, q3⟩ := ih (by omega)
    have hd : 2 ^ (exponent - s) = 2 * 2 ^ (exponent - (s + 1)) := by
      rw [← Nat.pow_succ']
      congr 1
      omega
    have hp : 2 ^ (s + 1) = 2 * 2 ^ s := by rw [Nat.pow_succ']
    have hN : 2 ^ exponent / 2 ^ (s + 1) = 2 ^ (exponent - (s + 1)) :=
      Nat.pow_div hs (by omega)
    have hE : 2 ^ (exponent - (s + 1)) * 2 ^ (s + 1) = 2 ^ exponent := by
      rw [← Nat.pow_add]
      congr 1
      omega
    have hb : (sortProg merge exponent)[s]? =
        some ((List.range (2 ^ exponent / 2 ^ (s + 1))).map fun p => merge (p * 2 ^ (s + 1)) (2 ^ (s + 1))) := by
      unfold sortProg
      rw [List.getElem?_map, List.getElem?_range (by omega)]
      rfl
    obtain ⟨M', r1, r2, r3⟩ := sort_step trans total hm (h := 2 ^ s) (N := 2 ^ (exponent - (s + 1)))
      (Nat.pow_pos (by omega)) (m0 := m0) (M := M) (by rw [← hd]; exact q2)
    rw [← hp] at r1 r2 r3
    rw [hE] at r3
    refine ⟨M', ?_, r2, fun c hc => ?_⟩
    · rw [List.take_add_one, hb, List.flatten_append]
      refine seq_append q1 ?_
      rw [hN]
      simpa using r1
    · rw [r3 c hc, q3 c hc]

theorem range_some {n i x : Nat} (h : (List.range n)[i]? = some x) : i = x := by
  by_cases hi : i < n
  · rw [List.getElem?_range hi] at h
    exact Option.some.inj h
  · rw [List.getElem?_eq_none (by simp; omega)] at h
    cases h

/-- The cells of the partition of a task. -/
def part (t : Task) (c : Nat) : Prop := t.2 * 2 ^ (t.1 + 1) ≤ c ∧ c < t.2 * 2 ^ (t.1 + 1) + 2 ^ (t.1 + 1)

theorem sort_job {exponent b k : Nat} {j : Job V L} (hj : job (sortProg merge exponent) (b, k) = some j) :
    b < exponent ∧ k < 2 ^ exponent / 2 ^ (b + 1) ∧ j = merge (k * 2 ^ (b + 1)) (2 ^ (b + 1)) := by
  unfold job sortProg at hj
  rw [List.getElem?_map] at hj
  obtain ⟨js, h1, h2⟩ := Option.bind_eq_some_iff.1 hj
  obtain ⟨b', h3, rfl⟩ := Option.map_eq_some_iff.1 h1
  have eb : b' = b := (range_some h3).symm
  subst eb
  dsimp only at h2
  rw [List.getElem?_map] at h2
  obtain ⟨k', h4, rfl⟩ := Option.map_eq_some_iff.1 h2
  have ek : k' = k := (range_some h4).symm
  subst ek
  have q1 := List.getElem?_eq_some_iff.1 h3
  have q2 := List.getElem?_eq_some_iff.1 h4
  obtain ⟨q1, _⟩ := q1
  obtain ⟨q2, _⟩ := q2
  rw [List.length_range] at q1 q2
  exact ⟨q1, q2, rfl⟩

theorem sort_within (hm : InplaceMerge le merge) (exponent : Nat) :
    ∀ t j, job (sortProg merge exponent) t = some j → Within j (part t) (part t) := by
  rintro ⟨b, k⟩ j hj
  obtain ⟨_, _, rfl⟩ := sort_job hj
  exact hm.within _ _

theorem part_disjoint {b k k' c : Nat} (h1 : part (b, k) c) (h2 : part (b, k') c) : k = k' := by
  unfold part at h1 h2
  dsimp only at h1 h2
  have hpos : 0 < 2 ^ (b + 1) := Nat.pow_pos (by omega)
  by_contra hne
  rcases Nat.lt_or_gt_of_ne hne with hlt | hgt
  · have := Nat.mul_le_mul_right (2 ^ (b + 1)) (show k + 1 ≤ k' by omega)
    rw [Nat.add_mul, Nat.one_mul] at this
    omega
  · have := Nat.mul_le_mul_right (2 ^ (b + 1)) (show k' + 1 ≤ k by omega)
    rw [Nat.add_mul, Nat.one_mul] at this
    omega

/-- The jobs of one step work on different parts of the array. -/
theorem sort_raceFree (hm : InplaceMerge le merge) (exponent : Nat) : RaceFree (sortProg merge exponent) :=
  ⟨part, part, sort_within hm exponent, fun _ _ _ _ _ _ h1 h2 => part_disjoint h1 h2⟩

/-- The halves of a partition are sorted when the batches before are done. -/
theorem halves_sorted (trans : ∀ a b c, le a b → le b c → le a c) (total : ∀ a b, le a b || le b a)
    (hm : InplaceMerge le merge) {exponent b k : Nat} (hb : b < exponent) (hk : k < 2 ^ exponent / 2 ^ (b + 1))
    {m M : Nat → V} (hs : Seq ((sortProg merge exponent).take b).flatten m M) :
    (cells M (k * 2 ^ (b + 1)) (2 ^ b)).Pairwise (fun a b => le a b) ∧
    (cells M (k * 2 ^ (b + 1) + 2 ^ b) (2 ^ b)).Pairwise (fun a b => le a b) := by
  obtain ⟨M', q1, q2, _⟩ := sort_seq trans total hm exponent m (s := b) (by omega)
  have e := seq_det hs q1
  subst e
  rw [Nat.pow_div (by omega) (by omega)] at hk
  have hp : 2 ^ (exponent - b) = 2 * 2 ^ (exponent - (b + 1)) := by
    rw [show exponent - b = (exponent - (b + 1)) + 1 by omega, Nat.pow_succ]; omega
  have e1 : k * 2 ^ (b + 1) = (2 * k) * 2 ^ b := by
    rw [Nat.pow_succ, Nat.mul_comm (2 ^ b) 2, ← Nat.mul_assoc, Nat.mul_comm k 2]
  have e2 : k * 2 ^ (b + 1) + 2 ^ b = (2 * k + 1) * 2 ^ b := by rw [e1, Nat.add_mul, Nat.one_mul]
  rw [e2, e1, q2 _ (by omega), q2 _ (by omega)]
  exact ⟨List.pairwise_mergeSort trans total _, List.pairwise_mergeSort trans total _⟩

end

/-! ## A merge that meets the specification: read all cells, write the result back -/

/-- Local state: reading, with what has been read; writing, with what is left. -/
inductive BufL (V : Type) where
  | rd (buf : List V)
  | wrt (i : Nat) (rest : List V)

/-- Write the next value, if any. -/
def bufWrite {V : Type} (pos len i : Nat) : List V → Op V (BufL V)
  | [] => .ret
  | v :: rest => if i < len then .write (pos + i) v (.wrt (i + 1) rest) else .ret

/-- Insert the front list into `bs`, `go` merging what follows the first element. -/
def mergeInto {V : Type} (le : V → V → Bool) (a : V) (as : List V) (go : List V → List V) : List V → List V
  | [] => a :: as
  | b :: bs => if le a b then a :: go (b :: bs) else b :: mergeInto le a as go bs

/-- Stable merge. -/
def mergeS {V : Type} (le : V → V → Bool) : List V → List V → List V
  | [] => fun bs => bs
  | a :: as => mergeInto le a as (mergeS le as)

theorem mergeS_eq (le : V → V → Bool) (as bs : List V) : mergeS le as bs = List.merge as bs le := by
  induction as generalizing bs with
  | nil => simp [mergeS]
  | cons a as ih =>
    unfold mergeS
    induction bs with
    | nil => simp [mergeInto]
    | cons b bs ih2 =>
      unfold mergeInto
      rw [List.cons_merge_cons, ih, ih2]

/-- Merge with a buffer. -/
def bufMerge {V : Type} (le : V → V → Bool) (pos len : Nat) : Job V (BufL V) where
  init := .rd []
  code
    | .rd buf =>
      if buf.length < len then .read (pos + buf.length) fun v => .rd (buf ++ [v])
      else bufWrite pos len 0 (mergeS le (buf.take (len / 2)) (buf.drop (len / 2)))
    | .wrt i rest => bufWrite pos len i rest

theorem bufMerge_ok (le : V → V → Bool) : InplaceMerge le (bufMerge le) := by
  refine ⟨fun pos len => ⟨fun _ h => h, fun l => ?_⟩, fun pos half m _ _ => ?_⟩
  · have hw : ∀ i (rest : List V), Allowed (fun c => pos ≤ c ∧ c < pos + len)
        (fun c => pos ≤ c ∧ c < pos + len) (bufWrite pos len i rest) := by
      intro i rest
      cases rest with
      | nil => exact trivial
      | cons v rest =>
        simp only [bufWrite]
        by_cases hi : i < len
        · rw [if_pos hi]
          unfold Allowed
          dsimp only
          omega
        · rw [if_neg hi]
          exact trivial
    cases l with
    | rd buf =>
      simp only [bufMerge]
      by_cases hb : buf.length < len
      · rw [if_pos hb]
        unfold Allowed
        dsimp only
        omega
      · rw [if_neg hb]
        exact hw _ _
    | wrt i rest => exact hw i rest
  · have reads : ∀ k, k ≤ 2 * half →
        Steps (bufMerge le pos (2 * half)) k (.rd []) m (.rd (cells m pos k)) m := by
      intro k
      induction k with
      | zero => exact fun _ => .refl
      | succ k ih =>
        intro hk
        rw [cells_add, cells_one]
        refine Steps.read (ih (by omega)) ?_ (k := fun v => .rd (cells m pos k ++ [v])) (c := pos + k)
        simp only [bufMerge, cells_length]
        rw [if_pos (by omega)]
    have hl : (List.merge (cells m pos half) (cells m (pos + half) half) le).length = 2 * half := by
      rw [List.length_merge, cells_length, cells_length]; omega
    have hsplit : (cells m pos (2 * half)).take half = cells m pos half ∧
        (cells m pos (2 * half)).drop half = cells m (pos + half) half := by
      rw [show 2 * half = half + half by omega, cells_add]
      constructor
      · rw [List.take_left' (cells_length m pos half)]
      · rw [List.drop_left' (cells_length m pos half)]
    generalize hr : List.merge (cells m pos half) (cells m (pos + half) half) le = res at hl ⊢
    have writes : ∀ k, k ≤ 2 * half → ∃ l mk, Steps (bufMerge le pos (2 * half)) (2 * half + k) (.rd []) m l mk ∧
        (bufMerge le pos (2 * half)).code l = bufWrite pos (2 * half) k (res.drop k) ∧
        ∀ i, i < k → res[i]? = some (mk (pos + i)) := by
      intro k
      induction k with
      | zero =>
        intro _
        refine ⟨_, m, reads _ (Nat.le_refl _), ?_, fun i hi => absurd hi (by omega)⟩
        simp only [bufMerge, cells_length]
        rw [Nat.add_zero, if_neg (by omega), show 2 * half / 2 = half by omega, hsplit.1, hsplit.2, mergeS_eq, hr]
        rfl
      | succ k ih =>
        intro hk
        obtain ⟨l, mk, h1, h2, h3⟩ := ih (by omega)
        rw [List.drop_eq_getElem_cons (by omega)] at h2
        simp only [bufWrite] at h2
        rw [if_pos (by omega)] at h2
        refine ⟨_, _, Steps.write h1 h2, rfl, fun i hi => ?_⟩
        by_cases e : i = k
        · subst e
          rw [if_pos rfl]
          exact List.getElem?_eq_getElem (by omega)
        · rw [if_neg (by omega)]
          exact h3 i (by omega)
    obtain ⟨l, mk, h1, h2, h3⟩ := writes (2 * half) (Nat.le_refl _)
    refine ⟨_, mk, ⟨l, h1, ?_⟩, ?_⟩
    · rw [h2, List.drop_eq_nil_of_le (by omega)]
      rfl
    · apply List.ext_getElem?
      intro i
      by_cases hi : i < 2 * half
      · rw [h3 i hi]
        unfold cells
        rw [List.getElem?_map, List.getElem?_range hi]
        rfl
      · rw [List.getElem?_eq_none (by rw [cells_length]; omega), List.getElem?_eq_none (by omega)]

end SpatialOps.Fork
