import Verif.Matlab.Spec
import Verif.Loops.Lemmas
import Verif.Round.Even
import Mathlib.Data.Nat.Digits.Lemmas
import Mathlib.Data.List.Basic
import Mathlib.Tactic.IntervalCases

/-!
# Lemmas: numbers as text, and the loop
-/

namespace SpatialOps
namespace Matlab

open Loops Nebo

/-! ## Digits -/

theorem digitValue_digitChar {d : Nat} (h : d < 10) : digitValue (Nat.digitChar d) = some d := by
  interval_cases d <;> decide

theorem decimal_map (ds : List Nat) (h : ∀ d ∈ ds, d < 10) (hne : ds ≠ []) :
    Decimal (ds.map Nat.digitChar) (ds.foldl (fun n d => 10 * n + d) 0) := by
  induction ds using List.reverseRecOn with
  | nil => exact absurd rfl hne
  | append_singleton l a ih =>
    have ha := digitValue_digitChar (h a (by simp))
    rw [List.map_append, List.foldl_append]
    by_cases hl : l = []
    · subst hl
      simpa using Decimal.one ha
    · exact Decimal.more (ih (fun d hd => h d (by simp [hd])) hl) ha

theorem foldl_zeros (k : Nat) : (List.replicate k 0).foldl (fun n d => 10 * n + d) 0 = 0 := by
  induction k with
  | zero => rfl
  | succ k ih => simpa [List.replicate_succ] using ih

theorem digits_eq (k n : Nat) : digits k n =
    (List.replicate (k - (Nat.digits 10 n).length) 0 ++ (Nat.digits 10 n).reverse).map Nat.digitChar := by
  unfold digits
  simp only [List.length_reverse, List.length_map, List.map_append, List.map_replicate, List.map_reverse]
  rfl

theorem digits_decimal {k n : Nat} (hk : 1 ≤ k) : Decimal (digits k n) n := by
  rw [digits_eq]
  have h := decimal_map (List.replicate (k - (Nat.digits 10 n).length) 0 ++ (Nat.digits 10 n).reverse) (by
    intro d hd
    rw [List.mem_append] at hd
    rcases hd with hd | hd
    · rw [List.eq_of_mem_replicate hd]; norm_num
    · exact Nat.digits_lt_base (by norm_num) (List.mem_reverse.1 hd)) (by
    intro h
    have := congrArg List.length h
    simp only [List.length_append, List.length_replicate, List.length_reverse, List.length_nil] at this
    omega)
  rw [List.foldl_append, foldl_zeros, List.foldl_reverse] at h
  have e : (Nat.digits 10 n).foldr (fun d n => 10 * n + d) 0 = n := by
    conv_rhs => rw [← Nat.ofDigits_digits 10 n, Nat.ofDigits_eq_foldr]
    congr 1
    funext a b
    simp only [Nat.cast_id]
    omega
  rwa [e] at h

theorem digits_length {k n : Nat} (h : n < 10 ^ k) : (digits k n).length = k := by
  have : (Nat.digits 10 n).length ≤ k := (Nat.digits_length_le_iff (by norm_num) n).2 h
  rw [digits_eq]
  simp only [List.length_map, List.length_append, List.length_replicate, List.length_reverse]
  omega

/-! ## The number printed -/

section
variable {K : Type} [Field K] [LinearOrder K] [IsStrictOrderedRing K] [FloorRing K]

theorem decade {x : K} (hx : x ≠ 0) : (10 : K) ^ Int.log 10 |x| ≤ |x| ∧ |x| < 10 ^ (Int.log 10 |x| + 1) :=
  ⟨by exact_mod_cast Int.zpow_log_le_self (b := 10) (by norm_num) (abs_pos.2 hx),
    by exact_mod_cast Int.lt_zpow_succ_log_self (b := 10) (by norm_num) |x|⟩

theorem nearest_nonneg {y : K} (h : 0 ≤ y) : 0 ≤ Round.nearestEven y := by
  have := Round.nearestEven_mono h
  rwa [show Round.nearestEven (0 : K) = 0 by simpa using Round.nearestEven_int (K := K) 0] at this

/-- What is printed: at most `p + 1` digits, within half a unit of the last one; exact if `x` has no more digits. -/
theorem scaled_spec (p : Nat) {x : K} (hx : x ≠ 0) :
    (scaled p x).1 < 10 ^ (p + 1) ∧
    abs (((scaled p x).1 : K) * 10 ^ ((scaled p x).2 - p) - |x|) ≤ |x| / (2 * 10 ^ p) ∧
    (HasDigits (p + 1) x → ((scaled p x).1 : K) * 10 ^ ((scaled p x).2 - p) = |x|) := by
  obtain ⟨h1, h2⟩ := decade hx
  set e := Int.log 10 |x| with he
  have t0 : (0 : K) < 10 ^ (e - (p : Int)) := by positivity
  have ht : (10 : K) ≠ 0 := by norm_num
  set y := |x| / 10 ^ (e - (p : Int)) with hy
  have hyx : y * 10 ^ (e - (p : Int)) = |x| := by rw [hy]; field_simp
  have y0 : 0 ≤ y := by positivity
  have yhi : y < 10 ^ (p + 1) := by
    rw [hy, div_lt_iff₀ t0, ← zpow_natCast, ← zpow_add₀ ht]
    refine lt_of_lt_of_eq h2 ?_
    congr 1; push_cast; ring
  set N := Round.nearestEven y with hN
  have N0 : 0 ≤ N := nearest_nonneg y0
  have Nhi : N ≤ 10 ^ (p + 1) := by
    have := Round.nearestEven_mono yhi.le
    rwa [show Round.nearestEven ((10 : K) ^ (p + 1)) = 10 ^ (p + 1) by
      simpa using Round.nearestEven_int (K := K) (10 ^ (p + 1))] at this
  have near : abs ((N : K) * 10 ^ (e - (p : Int)) - |x|) ≤ |x| / (2 * 10 ^ p) := by
    have hh := Round.nearestEven_near y
    rw [← hN] at hh
    have : (N : K) * 10 ^ (e - (p : Int)) - |x| = (N - y) * 10 ^ (e - (p : Int)) := by rw [sub_mul, hyx]
    rw [this, abs_mul, abs_of_pos t0]
    calc |(N : K) - y| * 10 ^ (e - (p : Int)) ≤ 1 / 2 * 10 ^ (e - (p : Int)) := by gcongr
      _ = 10 ^ e / (2 * 10 ^ p) := by rw [zpow_sub₀ ht, zpow_natCast]; field_simp
      _ ≤ |x| / (2 * 10 ^ p) := by gcongr
  have exact' : HasDigits (p + 1) x → (N : K) * 10 ^ (e - (p : Int)) = |x| := by
    rintro ⟨M, j, hM, rfl⟩
    have habs : |(M : K) * 10 ^ j| = (|M| : Int) * 10 ^ j := by
      rw [abs_mul, abs_of_pos (zpow_pos (by norm_num : (0 : K) < 10) j), Int.cast_abs]
    have hj : e - (p : Int) ≤ j := by
      by_contra hlt
      have h3 : (10 : K) ^ e < 10 ^ (p + 1) * 10 ^ j := by
        refine lt_of_le_of_lt h1 ?_
        rw [habs]
        have : ((|M| : Int) : K) < ((10 ^ (p + 1) : Int) : K) := Int.cast_lt.2 hM
        push_cast at this ⊢
        exact mul_lt_mul_of_pos_right this (zpow_pos (by norm_num) j)
      rw [← zpow_natCast, ← zpow_add₀ ht] at h3
      have := (zpow_lt_zpow_iff_right₀ (by norm_num : (1 : K) < 10)).1 h3
      push_cast at this
      omega
    obtain ⟨i, hi⟩ := Int.eq_ofNat_of_zero_le (sub_nonneg.2 hj)
    have hyM : y = ((|M| * 10 ^ i : Int) : K) := by
      rw [hy, habs, div_eq_iff t0.ne', Int.cast_mul, Int.cast_pow, mul_assoc]
      congr 1
      push_cast
      rw [← zpow_natCast, ← zpow_add₀ ht]
      congr 1
      omega
    have : N = |M| * 10 ^ i := by rw [hN, hyM]; exact Round.nearestEven_int _
    rw [this, ← hyM, hyx]
  have hcast : ((N.toNat : Nat) : K) = (N : K) := by
    rw [← Int.cast_natCast, Int.toNat_of_nonneg N0]
  have key : scaled p x = if N.toNat = 10 ^ (p + 1) then (10 ^ p, e + 1) else (N.toNat, e) := by
    unfold scaled
    rw [if_neg hx]
  rw [key]
  split
  · next h =>
    have hNN : (N : K) = 10 ^ (p + 1) := by rw [← hcast, h]; push_cast; rfl
    have same : ((10 ^ p : Nat) : K) * 10 ^ (e + 1 - (p : Int)) = (N : K) * 10 ^ (e - (p : Int)) := by
      rw [hNN, show e + 1 - (p : Int) = (e - p) + 1 by ring, zpow_add₀ ht]
      push_cast
      rw [zpow_one, pow_succ]
      ring
    dsimp only
    rw [same]
    exact ⟨Nat.pow_lt_pow_right (by norm_num) (by omega), near, exact'⟩
  · next h =>
    dsimp only
    rw [hcast]
    have : N.toNat ≤ 10 ^ (p + 1) := by
      have : ((N.toNat : Nat) : Int) ≤ ((10 ^ (p + 1) : Nat) : Int) := by rw [Int.toNat_of_nonneg N0]; push_cast; exact Nhi
      exact_mod_cast this
    exact ⟨lt_of_le_of_ne this h, near, exact'⟩

omit [IsStrictOrderedRing K] in
theorem scaled_zero (p : Nat) : scaled p (0 : K) = (0, 0) := if_pos rfl

theorem scientific_numeral (p : Nat) (x : K) :
    ∃ y, Numeral (scientific p x) y ∧ |y - x| ≤ |x| / (2 * 10 ^ p) ∧ (HasDigits (p + 1) x → y = x) := by
  have ht : (10 : K) ≠ 0 := by norm_num
  have hlt : (scaled p x).1 < 10 ^ (p + 1) := by
    by_cases hx : x = 0
    · subst hx; rw [scaled_zero]; positivity
    · exact (scaled_spec p hx).1
  set n := (scaled p x).1 with hn
  set e := (scaled p x).2 with he
  have hlen := digits_length hlt
  refine ⟨(if x < 0 then -1 else 1) * ((n : K) * 10 ^ (e - p)), ?_, ?_⟩
  · refine ⟨if x < 0 then ['-'] else [], (digits (p + 1) n).take 1, (digits (p + 1) n).drop 1,
      if e < 0 then ['-'] else ['+'], digits 2 e.natAbs, if x < 0 then -1 else 1, if e < 0 then -1 else 1, n, e.natAbs, rfl, ?_, ?_, ?_,
      ?_, digits_decimal (by norm_num), ?_⟩
    · split
      · exact .minus
      · exact .none
    · split
      · exact .minus
      · exact .plus
    · intro h
      have := congrArg List.length h
      rw [List.length_take, hlen] at this
      simp at this
    · rw [List.take_append_drop]
      exact digits_decimal (by omega)
    · have h1 : (if e < 0 then (-1 : Int) else 1) * (e.natAbs : Int) = e := by split <;> omega
      have h2 : ((if x < 0 then (-1 : Int) else 1 : Int) : K) = if x < 0 then -1 else 1 := by split <;> simp
      rw [h1, h2, List.length_drop, hlen, Nat.add_sub_cancel, zpow_sub₀ ht, zpow_natCast]
      field_simp
  · by_cases hx : x = 0
    · subst hx
      rw [scaled_zero] at hn
      simp [hn]
    · obtain ⟨-, h2, h3⟩ := scaled_spec p hx
      rw [← hn, ← he] at h2 h3
      rcases lt_or_gt_of_ne hx with hneg | hpos
      · rw [if_pos hneg]
        constructor
        · rw [abs_of_neg hneg] at h2 ⊢
          rw [← abs_neg]
          convert h2 using 2
          ring
        · intro h
          rw [h3 h, abs_of_neg hneg]
          ring
      · rw [if_neg (by exact not_lt.2 hpos.le)]
        constructor
        · rw [abs_of_pos hpos] at h2 ⊢
          rw [one_mul]
          exact h2
        · intro h
          rw [h3 h, abs_of_pos hpos, one_mul]

theorem scaled_near_one {p : Nat} {x : K} (h1 : 1 ≤ x) (h2 : (x - 1) * 10 ^ p < 1 / 2) : scaled p x = (10 ^ p, 0) := by
  have hp : (1 : K) ≤ 10 ^ p := one_le_pow₀ (by norm_num)
  have hx10 : x < 10 := by nlinarith
  have hlog : Int.log 10 |x| = 0 := by
    rw [abs_of_pos (by linarith)]
    have a : 0 ≤ Int.log 10 x := (Int.zpow_le_iff_le_log (b := 10) (by norm_num) (by linarith : 0 < x)).1 (by simpa using h1)
    have b : Int.log 10 x < 1 := (Int.lt_zpow_iff_log_lt (b := 10) (by norm_num) (by linarith : 0 < x)).1 (by simpa using hx10)
    omega
  have hn : Round.nearestEven (|x| / 10 ^ ((0 : Int) - p)) = (10 ^ p : Int) := by
    refine Round.nearestEven_of_lt ?_
    rw [abs_of_pos (by linarith : 0 < x), zero_sub, zpow_neg, div_inv_eq_mul, zpow_natCast, abs_of_nonneg]
    · push_cast; linarith
    · push_cast; nlinarith
  unfold scaled
  rw [if_neg (by linarith)]
  dsimp only
  rw [hlog, hn]
  have : ((10 ^ p : Int)).toNat = 10 ^ p := by
    rw [show (10 ^ p : Int) = ((10 ^ p : Nat) : Int) by push_cast; rfl, Int.toNat_natCast]
  rw [this, if_neg (by rw [pow_succ]; have : 0 < 10 ^ p := by positivity
                       omega)]

end

/-! ## Reading numerals -/

theorem decimal_ne_nil {s : List Char} {n : Nat} (h : Decimal s n) : s ≠ [] := by cases h <;> simp

theorem decimal_digit {s : List Char} {n : Nat} (h : Decimal s n) : ∀ c ∈ s, digitValue c ≠ none := by
  induction h with
  | one h => intro c hc; rw [List.mem_singleton.1 hc, h]; simp
  | more _ h ih =>
    intro c hc
    rcases List.mem_append.1 hc with hc | hc
    · exact ih c hc
    · rw [List.mem_singleton.1 hc, h]; simp

theorem decimal_unique {s : List Char} {n k : Nat} (h : Decimal s n) (h' : Decimal s k) : n = k := by
  induction h generalizing k with
  | @one c d hc =>
    generalize hs : [c] = t at h'
    cases h' with
    | one hc' =>
      injection hs with hs
      subst hs
      rw [hc] at hc'
      injection hc'
    | @more s' n' c' d' h1 h2 =>
      have := congrArg List.length hs
      have h3 := List.length_pos_iff.2 (decimal_ne_nil h1)
      simp only [List.length_append, List.length_singleton] at this
      omega
  | @more s n c d h1 hc ih =>
    generalize hs : s ++ [c] = t at h'
    cases h' with
    | one hc' =>
      have := congrArg List.length hs
      have h3 := List.length_pos_iff.2 (decimal_ne_nil h1)
      simp only [List.length_append, List.length_singleton] at this
      omega
    | more h1' hc' =>
      obtain ⟨rfl, h2⟩ := List.append_inj' hs rfl
      injection h2 with h2
      subst h2
      rw [hc] at hc'
      injection hc' with hc'
      rw [ih h1', hc']

theorem sign_chars {s : List Char} {σ : Int} (h : Sign s σ) : ∀ c ∈ s, c = '+' ∨ c = '-' := by
  cases h <;> simp

theorem numeral_chars {K : Type} [Field K] {s : List Char} {x : K} (h : Numeral s x) :
    s ≠ [] ∧ ∀ c ∈ s, c ≠ '\n' := by
  obtain ⟨sgn, a, b, esgn, c, σ, τ, n, k, rfl, h1, h2, ha, h3, h4, -⟩ := h
  refine ⟨by simp, fun ch hc => ?_⟩
  have hd : digitValue '\n' = none := by decide
  simp only [List.mem_append, List.mem_singleton] at hc
  rintro rfl
  rcases hc with (((((hc | hc) | hc) | hc) | hc) | hc) | hc
  · rcases sign_chars h1 _ hc with h | h <;> exact absurd h (by decide)
  · exact decimal_digit h3 _ (List.mem_append_left _ hc) hd
  · exact absurd hc (by decide)
  · exact decimal_digit h3 _ (List.mem_append_right _ hc) hd
  · exact absurd hc (by decide)
  · rcases sign_chars h2 _ hc with h | h <;> exact absurd h (by decide)
  · exact decimal_digit h4 _ hc hd

theorem signed_inj {s s' a a' : List Char} {σ σ' : Int} (hs : Sign s σ) (hs' : Sign s' σ')
    (ha : a ≠ [] ∧ ∀ c ∈ a, digitValue c ≠ none) (ha' : a' ≠ [] ∧ ∀ c ∈ a', digitValue c ≠ none)
    (h : s ++ a = s' ++ a') : s = s' ∧ a = a' ∧ σ = σ' := by
  have hp : digitValue '+' = none := by decide
  have hm : digitValue '-' = none := by decide
  obtain ⟨x, l, rfl⟩ := List.exists_cons_of_ne_nil ha.1
  obtain ⟨x', l', rfl⟩ := List.exists_cons_of_ne_nil ha'.1
  have h1 := ha.2 x (by simp)
  have h2 := ha'.2 x' (by simp)
  cases hs <;> cases hs' <;>
    simp only [List.nil_append, List.cons_append, List.cons.injEq] at h ⊢ <;>
    first
    | exact ⟨trivial, h, trivial⟩
    | exact ⟨trivial, h.2, trivial⟩
    | (exact ⟨⟨trivial, trivial⟩, h.2, trivial⟩)
    | (exact absurd h.1 (by decide))
    | (rw [h.1] at h1; exact absurd ‹_› h1)
    | (rw [← h.1] at h2; exact absurd ‹_› h2)

theorem split_unique {d : Char} {l l' r r' : List Char} (hl : d ∉ l) (hl' : d ∉ l') (h : l ++ d :: r = l' ++ d :: r') :
    l = l' ∧ r = r' := by
  induction l generalizing l' with
  | nil =>
    cases l' with
    | nil => simpa using h
    | cons a l' =>
      simp only [List.nil_append, List.cons_append, List.cons.injEq] at h
      exact absurd (by simp [h.1]) hl'
  | cons a l ih =>
    cases l' with
    | nil =>
      simp only [List.nil_append, List.cons_append, List.cons.injEq] at h
      exact absurd (by simp [h.1]) hl
    | cons a' l' =>
      simp only [List.cons_append, List.cons.injEq] at h
      obtain ⟨rfl, rfl⟩ := ih (fun hm => hl (by simp [hm])) (fun hm => hl' (by simp [hm])) h.2
      exact ⟨by rw [h.1], rfl⟩

theorem numeral_unique {K : Type} [Field K] {s : List Char} {x y : K} (hx : Numeral s x) (hy : Numeral s y) : x = y := by
  obtain ⟨sgn, a, b, esgn, c, σ, τ, n, k, rfl, h1, h2, ha, h3, h4, rfl⟩ := hx
  obtain ⟨sgn', a', b', esgn', c', σ', τ', n', k', he, h1', h2', ha', h3', h4', rfl⟩ := hy
  have nodot : ∀ {s a b : List Char} {σ : Int} {n : Nat}, Sign s σ → Decimal (a ++ b) n → '.' ∉ s ++ a := by
    intro s a b σ n hs hd hmem
    rcases List.mem_append.1 hmem with h | h
    · rcases sign_chars hs _ h with h | h <;> exact absurd h (by decide)
    · exact decimal_digit hd _ (List.mem_append_left _ h) (by decide)
  have noe : ∀ {a b : List Char} {n : Nat}, Decimal (a ++ b) n → 'e' ∉ b :=
    fun hd h => decimal_digit hd _ (List.mem_append_right _ h) (by decide)
  simp only [List.append_assoc, List.cons_append, List.nil_append] at he
  rw [← List.append_assoc, ← List.append_assoc] at he
  obtain ⟨e1, e2⟩ := split_unique (nodot h1 h3) (nodot h1' h3') he
  obtain ⟨rfl, e3⟩ := split_unique (noe h3) (noe h3') e2
  have dig : ∀ {a b : List Char} {n : Nat}, Decimal (a ++ b) n → ∀ c ∈ a, digitValue c ≠ none :=
    fun hd c hc => decimal_digit hd _ (List.mem_append_left _ hc)
  obtain ⟨-, rfl, rfl⟩ := signed_inj h1 h1' ⟨ha, dig h3⟩ ⟨ha', dig h3'⟩ e1
  obtain ⟨-, rfl, rfl⟩ := signed_inj h2 h2' ⟨decimal_ne_nil h4, decimal_digit h4⟩ ⟨decimal_ne_nil h4', decimal_digit h4'⟩ e3
  rw [decimal_unique h3 h3', decimal_unique h4 h4']

/-! ## Reading files -/

theorem intercalate_cons (sep s : List Char) (ss : List (List Char)) :
    List.intercalate sep (s :: ss) = s ++ ss.flatMap (sep ++ ·) := by
  induction ss generalizing s with
  | nil => simp [List.intercalate]
  | cons t ts ih =>
    have : List.intercalate sep (s :: t :: ts) = s ++ sep ++ List.intercalate sep (t :: ts) := by
      simp [List.intercalate, List.intersperse]
    rw [this, ih]
    simp

theorem lines_inj {us vs : List (List Char)} (hu : ∀ s ∈ us, '\n' ∉ s) (hv : ∀ s ∈ vs, '\n' ∉ s) {s t : List Char}
    (hs : '\n' ∉ s) (ht : '\n' ∉ t)
    (h : s ++ us.flatMap ("\n, ".toList ++ ·) = t ++ vs.flatMap ("\n, ".toList ++ ·)) : s = t ∧ us = vs := by
  induction us generalizing vs s t with
  | nil =>
    cases vs with
    | nil => simpa using h
    | cons v vs =>
      exfalso
      rw [List.flatMap_nil, List.append_nil] at h
      exact hs (h ▸ by simp)
  | cons u us ih =>
    cases vs with
    | nil =>
      exfalso
      rw [List.flatMap_nil, List.append_nil] at h
      exact ht (h ▸ by simp)
    | cons v vs =>
      simp only [List.flatMap_cons] at h
      have e : ∀ (w : List Char) (ws : List (List Char)), "\n, ".toList ++ w ++ ws.flatMap ("\n, ".toList ++ ·) =
          '\n' :: ',' :: ' ' :: (w ++ ws.flatMap ("\n, ".toList ++ ·)) := fun w ws => rfl
      rw [e, e] at h
      obtain ⟨rfl, h2⟩ := split_unique hs ht h
      simp only [List.cons.injEq, true_and] at h2
      obtain ⟨rfl, rfl⟩ := ih (fun s hs => hu s (by simp [hs])) (fun s hs => hv s (by simp [hs])) (hu u (by simp)) (hv v (by simp)) h2
      exact ⟨rfl, rfl⟩

/-! ## The loop -/

section
variable {V : Type}

theorem rest_const (text : V → List Char) {x y : V} (h : text x = text y) (fuel : Nat) (c : Cur) (e : It) (out : List Char) :
    rest text (fun _ _ => x) fuel c e out = rest text (fun _ _ => y) fuel c e out := by
  have hg : ∀ (c : Cur) (v : V), c.get (fun _ _ => v) = (c.get fun _ _ => ()) >>= fun _ => .ok v := by
    intro c v
    unfold Cur.get
    cases c.it.it.deref with
    | ok a => simp only [Outcome.ok_bind]; cases elemAt c.it.base c.size a <;> rfl
    | abort => rfl
    | throws => rfl
    | ub => rfl
  induction fuel generalizing c out with
  | zero => unfold rest; rfl
  | succ fuel ih =>
    unfold rest
    split
    · rfl
    · dsimp only
      rw [hg c x, hg c y]
      cases c.get fun _ _ => () with
      | ok u => simp only [Outcome.ok_bind]; rw [h]; exact ih _ _
      | abort => rfl
      | throws => rfl
      | ub => rfl

theorem sent_const (text : V → List Char) {x y : V} (h : text x = text y) (f : FieldObj) (pre : List Char) (g : Bool) :
    sent text (fun _ _ => x) f pre g = sent text (fun _ _ => y) f pre g := by
  have hg : ∀ (c : Cur) (v : V), c.get (fun _ _ => v) = (c.get fun _ _ => ()) >>= fun _ => .ok v := by
    intro c v
    unfold Cur.get
    cases c.it.it.deref with
    | ok a => simp only [Outcome.ok_bind]; cases elemAt c.it.base c.size a <;> rfl
    | abort => rfl
    | throws => rfl
    | ub => rfl
  have hr : ∀ n c e out, row text (fun _ _ => x) n c e out = row text (fun _ _ => y) n c e out := by
    intro n c e out
    unfold row
    rw [hg c x, hg c y]
    cases c.get fun _ _ => () with
    | ok u => simp only [Outcome.ok_bind]; rw [h]; exact rest_const text h _ _ _ _
    | abort => rfl
    | throws => rfl
    | ub => rfl
  unfold sent
  simp only [hr]

/-- The values from cell `k` on. -/
def cells (m : Mem V) (s : Nat × Window) (k n : Nat) : List V :=
  (List.range' k n).map fun i => m s.1 (winAddr s.2 (nthLoc s.2 i))

theorem rest_ok (text : V → List Char) (m : Mem V) {s : Nat × Window} (hs : Proper s.2) (n k : Nat)
    (hk : k + n = s.2.localNpts.toNat) (fuel : Nat) (hf : n ≤ fuel) (out : List Char) :
    rest text m fuel (curAt s k) (It.nth 0 s.2 s.2.localNpts.toNat) out =
      (out ++ (cells m s k n).flatMap (fun v => lit "\n, " ++ text v) ++ lit " ];\n", .ok ()) := by
  induction n generalizing k fuel out with
  | zero =>
    have : k = s.2.localNpts.toNat := by omega
    subst this
    unfold rest
    rw [if_pos (by simp [curAt, It.eqOp])]
    simp [cells]
  | succ n ih =>
    have h0 := It.localNpts_nonneg hs.2
    have hlt : (k : Int) < s.2.localNpts := by omega
    obtain ⟨fuel, rfl⟩ : ∃ g, fuel = g + 1 := ⟨fuel - 1, by omega⟩
    unfold rest
    rw [if_neg (by show ¬ (It.nth 0 s.2 k).eqOp _ = true; rw [It.nth_ne_end hs.1 hs.2 0 hlt]; simp)]
    dsimp only
    rw [get_ok hs hlt]
    dsimp only
    rw [curAt_inc, ih (k + 1) (by omega) fuel (by omega)]
    simp [cells, List.range'_succ]

theorem row_ok (text : V → List Char) (m : Mem V) {s : Nat × Window} (hs : Proper s.2) (out : List Char) :
    row text m s.2.localNpts.toNat (curAt s 0) (It.nth 0 s.2 s.2.localNpts.toNat) out =
      (out ++ lit "x = [ " ++ List.intercalate (lit "\n, ") ((cells m s 0 s.2.localNpts.toNat).map text) ++ lit " ];\n", .ok ()) := by
  have h0 : 0 < s.2.localNpts := by
    obtain ⟨e0, e1, e2⟩ := hs.2
    simp only [IntVec.zero_x, IntVec.zero_y, IntVec.zero_z] at e0 e1 e2
    unfold Window.localNpts; positivity
  obtain ⟨n, hn⟩ : ∃ n, s.2.localNpts.toNat = n + 1 := ⟨s.2.localNpts.toNat - 1, by omega⟩
  unfold row
  rw [get_ok hs (by exact_mod_cast h0)]
  dsimp only
  rw [curAt_inc, rest_ok text m hs n 1 (by omega) _ (by omega)]
  have : cells m s 0 s.2.localNpts.toNat = m s.1 (winAddr s.2 (nthLoc s.2 0)) :: cells m s 1 n := by
    rw [hn]; simp [cells, List.range'_succ]
  rw [this, List.map_cons, intercalate_cons]
  simp [List.flatMap_map]

theorem cells_of (m : Mem V) {s : Nat × Window} (hs : Proper s.2) : CellsOf m s.1 s.2 (cells m s 0 s.2.localNpts.toNat) := by
  have h0 := It.localNpts_nonneg hs.2
  constructor
  · simp [cells]; omega
  · intro k loc v hv hloc
    unfold cells at hv
    rw [List.getElem?_map, Option.map_eq_some_iff] at hv
    obtain ⟨i, hi, rfl⟩ := hv
    obtain ⟨hlt, hi⟩ := List.getElem?_eq_some_iff.1 hi
    rw [List.getElem_range'] at hi
    rw [List.length_range'] at hlt
    have hik : i = k := by omega
    subst hik
    have h2 := nthLoc_spec hs.1 hs.2 (k := i) (by omega)
    rw [element_eq]
    congr 2
    exact fortranPos_inj h2.1 hloc.1 (h2.2.trans hloc.2.symm)

end

end Matlab
end SpatialOps
