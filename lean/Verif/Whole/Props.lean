import Verif.Whole.Spec
import Verif.Range.Programs

/-!
# Property C109: results that need no rounding
-/

namespace SpatialOps
namespace Whole

open Nebo Round Stencil Range

section
variable {K : Type} [Field K] [LinearOrder K] {rnd : K → K}

omit [LinearOrder K] in
theorem sum_exact {A : Type} (t : A → Fl rnd) (x : A → K) (pts : Pts A) (ht : ∀ a ∈ pts.toList, (t a).val = x a)
    (h : ∀ l, l <+: pts.toList.map x → rnd l.sum = l.sum) : (pts.sum t).val = (pts.toList.map x).sum := by
  induction pts with
  | one a =>
    simp only [Pts.sum, Pts.toList, List.map_cons, List.map_nil, List.sum_cons, List.sum_nil, add_zero]
    exact ht a (by simp [Pts.toList])
  | more e a ih =>
    have h1 := ih (fun b hb => ht b (by simp [Pts.toList, hb])) fun l hl => h l (by
      simp only [Pts.toList, List.map_append]
      exact hl.trans (List.prefix_append _ _))
    have h2 := h _ (List.prefix_refl _)
    simp only [Pts.toList, List.map_append, List.map_cons, List.map_nil, List.sum_append, List.sum_cons, List.sum_nil, add_zero] at h2 ⊢
    show rnd ((e.sum t).val + (t a).val) = _
    rw [h1, ht a (by simp [Pts.toList]), h2]

omit [LinearOrder K] in
/-- Formulas whose results need no rounding. -/
theorem value_exact (m : Mem (Fl rnd)) (f : Formula rnd) (c : IntVec) (h : Kept m f c) : (f.expr.value m c : Fl rnd).val = f.exact m c := by
  induction f generalizing c with
  | const v => rfl
  | field f => rfl
  | single f => rfl
  | add a b iha ihb =>
    show rnd ((a.expr.value m c : Fl rnd).val + (b.expr.value m c : Fl rnd).val) = _
    rw [iha c h.1, ihb c h.2.1, h.2.2]
    rfl
  | sub a b iha ihb =>
    show rnd ((a.expr.value m c : Fl rnd).val - (b.expr.value m c : Fl rnd).val) = _
    rw [iha c h.1, ihb c h.2.1, h.2.2]
    rfl
  | mul a b iha ihb =>
    show rnd ((a.expr.value m c : Fl rnd).val * (b.expr.value m c : Fl rnd).val) = _
    rw [iha c h.1, ihb c h.2.1, h.2.2]
    rfl
  | neg a iha => exact congrArg Neg.neg (iha c h)
  | overConst a v iha =>
    show rnd ((a.expr.value m c : Fl rnd).val / v.val) = _
    rw [iha c h.1, h.2]
    rfl
  | overField a f iha =>
    show rnd ((a.expr.value m c : Fl rnd).val / (valueAt m f c).val) = _
    rw [iha c h.1, h.2]
    rfl
  | stencil pts a iha =>
    refine sum_exact (fun q => (a.expr.value m (c + q.1) : Fl rnd) * q.2) (fun q => a.exact m (c + q.1) * q.2.val) pts (fun q hq => ?_) h.2
    show rnd ((a.expr.value m (c + q.1) : Fl rnd).val * q.2.val) = _
    rw [iha _ (h.1 q hq).1, (h.1 q hq).2]
  | sumStencil pts a iha =>
    exact sum_exact (fun q => (a.expr.value m (c + q) : Fl rnd)) (fun q => a.exact m (c + q)) pts (fun q hq => iha _ (h.1 q hq)) h.2
  | cond t a b iha ihb =>
    show (if t.value m c then (a.expr.value m c : Fl rnd) else b.expr.value m c).val = if t.value m c then a.exact m c else b.exact m c
    simp only [Kept] at h
    by_cases ht : t.value m c = true
    · rw [if_pos ht] at h ⊢
      rw [if_pos ht]
      exact iha c h
    · rw [if_neg ht] at h ⊢
      rw [if_neg ht]
      exact ihb c h

end

section
variable {K : Type} [Field K] [LinearOrder K] [IsStrictOrderedRing K] {rnd : K → K} {N : Nat}

theorem upto_of {x : K} (h : ∃ k : Int, x = k) (hb : |x| ≤ N) : Upto N x := by
  obtain ⟨k, rfl⟩ := h
  refine ⟨k, rfl, ?_⟩
  have h1 : ((|k| : Int) : K) ≤ ((N : Int) : K) := by rw [Int.cast_abs, Int.cast_natCast]; exact hb
  exact Int.cast_le.1 h1

theorem upto_abs {x : K} (h : Upto N x) : |x| ≤ N := by
  obtain ⟨k, rfl, hk⟩ := h
  have h1 : ((|k| : Int) : K) ≤ ((N : Int) : K) := Int.cast_le.2 hk
  rw [Int.cast_abs, Int.cast_natCast] at h1
  exact h1

theorem prefix_whole (l l' : List K) (hp : l' <+: l) (hi : ∀ x ∈ l, ∃ k : Int, x = k) (hb : (l.map fun x => |x|).sum ≤ N) : Upto N l'.sum := by
  obtain ⟨t, rfl⟩ := hp
  have nn : ∀ s : List K, 0 ≤ (s.map fun x => |x|).sum := by
    intro s
    induction s with
    | nil => simp
    | cons a s ih => simp only [List.map_cons, List.sum_cons]; exact add_nonneg (abs_nonneg a) ih
  have le : ∀ s : List K, |s.sum| ≤ (s.map fun x => |x|).sum := by
    intro s
    induction s with
    | nil => simp
    | cons a s ih => simp only [List.map_cons, List.sum_cons]; exact (abs_add_le _ _).trans (add_le_add le_rfl ih)
  have int : ∀ s : List K, (∀ x ∈ s, ∃ k : Int, x = k) → ∃ k : Int, s.sum = k := by
    intro s hs
    induction s with
    | nil => exact ⟨0, by simp⟩
    | cons a s ih =>
      obtain ⟨j, hj⟩ := hs a (by simp)
      obtain ⟨k, hk⟩ := ih fun x hx => hs x (by simp [hx])
      exact ⟨j + k, by rw [List.sum_cons, hj, hk]; push_cast; rfl⟩
  refine upto_of (int l' fun x hx => hi x (by simp [hx])) ?_
  rw [List.map_append, List.sum_append] at hb
  linarith [nn t, le l']

/-- Formulas over whole numbers: what they mean is a whole number, and needs no rounding. -/
theorem small_kept (hN : ∀ k : Int, |k| ≤ N → rnd (k : K) = k) (m : Mem (Fl rnd)) (f : Formula rnd) (c : IntVec) (h : Small N m f c) :
    Kept m f c ∧ Upto N (f.exact m c) := by
  have keep : ∀ x : K, Upto N x → rnd x = x := by
    rintro x ⟨k, rfl, hk⟩
    exact hN k hk
  have both : ∀ {x : K}, Upto N x → rnd x = x ∧ Upto N x := fun h => ⟨keep _ h, h⟩
  induction f generalizing c with
  | const v => exact ⟨trivial, h⟩
  | field f => exact ⟨trivial, h⟩
  | single f => exact ⟨trivial, h⟩
  | add a b iha ihb =>
    obtain ⟨h1, h2, h3⟩ := h
    obtain ⟨a1, i, hi, -⟩ := iha c h1
    obtain ⟨b1, j, hj, -⟩ := ihb c h2
    obtain ⟨e1, e2⟩ := both (upto_of ⟨i + j, by rw [hi, hj]; push_cast; rfl⟩ h3)
    exact ⟨⟨a1, b1, e1⟩, e2⟩
  | sub a b iha ihb =>
    obtain ⟨h1, h2, h3⟩ := h
    obtain ⟨a1, i, hi, -⟩ := iha c h1
    obtain ⟨b1, j, hj, -⟩ := ihb c h2
    obtain ⟨e1, e2⟩ := both (upto_of ⟨i - j, by rw [hi, hj]; push_cast; rfl⟩ h3)
    exact ⟨⟨a1, b1, e1⟩, e2⟩
  | mul a b iha ihb =>
    obtain ⟨h1, h2, h3⟩ := h
    obtain ⟨a1, i, hi, -⟩ := iha c h1
    obtain ⟨b1, j, hj, -⟩ := ihb c h2
    obtain ⟨e1, e2⟩ := both (upto_of ⟨i * j, by rw [hi, hj]; push_cast; rfl⟩ h3)
    exact ⟨⟨a1, b1, e1⟩, e2⟩
  | neg a iha =>
    obtain ⟨a1, i, hi, hb⟩ := iha c h
    exact ⟨a1, -i, by show -a.exact m c = _; rw [hi]; push_cast; rfl, by rwa [abs_neg]⟩
  | overConst a v iha => exact h.elim
  | overField a f iha => exact h.elim
  | stencil pts a iha =>
    obtain ⟨h1, h2⟩ := h
    have int : ∀ q ∈ pts.toList, ∃ k : Int, a.exact m (c + q.1) * q.2.val = k := by
      intro q hq
      obtain ⟨-, i, hi, -⟩ := iha _ (h1 q hq).1
      obtain ⟨j, hj, -⟩ := (h1 q hq).2
      exact ⟨i * j, by rw [hi, hj]; push_cast; rfl⟩
    have all : ∀ l, l <+: (pts.toList.map fun q => a.exact m (c + q.1) * q.2.val) → Upto N l.sum := fun l hl =>
      prefix_whole _ l hl (by
        intro x hx
        obtain ⟨q, hq, rfl⟩ := List.mem_map.1 hx
        exact int q hq) (by rw [List.map_map]; exact h2)
    have one : ∀ q ∈ pts.toList, Upto N (a.exact m (c + q.1) * q.2.val) := by
      intro q hq
      refine upto_of (int q hq) (le_trans ?_ h2)
      exact List.single_le_sum (by
        intro x hx
        obtain ⟨p, -, rfl⟩ := List.mem_map.1 hx
        exact abs_nonneg _) _ (List.mem_map_of_mem (f := fun q : IntVec × Fl rnd => |a.exact m (c + q.1) * q.2.val|) hq)
    exact ⟨⟨fun q hq => ⟨(iha _ (h1 q hq).1).1, keep _ (one q hq)⟩, fun l hl => keep _ (all l hl)⟩, all _ (List.prefix_refl _)⟩
  | sumStencil pts a iha =>
    obtain ⟨h1, h2⟩ := h
    have all : ∀ l, l <+: (pts.toList.map fun q => a.exact m (c + q)) → Upto N l.sum := fun l hl =>
      prefix_whole _ l hl (by
        intro x hx
        obtain ⟨q, hq, rfl⟩ := List.mem_map.1 hx
        obtain ⟨-, i, hi, -⟩ := iha _ (h1 q hq)
        exact ⟨i, hi⟩) (by rw [List.map_map]; exact h2)
    exact ⟨⟨fun q hq => (iha _ (h1 q hq)).1, fun l hl => keep _ (all l hl)⟩, all _ (List.prefix_refl _)⟩
  | cond t a b iha ihb =>
    simp only [Small] at h
    simp only [Kept, Formula.exact]
    by_cases ht : t.value m c = true
    · rw [if_pos ht] at h
      rw [if_pos ht, if_pos ht]
      exact iha c h
    · rw [if_neg ht] at h
      rw [if_neg ht, if_neg ht]
      exact ihb c h

omit [LinearOrder K] [IsStrictOrderedRing K] in
/-- C109. Assignments whose results need no rounding are exact. -/
theorem _root_.SpatialOps.C109_exact (n : IntVec) (hn : IntVec.Lt 0 n) (l : FieldObj) (b : Nat) (ht : Target n l b)
    (f : Formula rnd) (he : f.expr.Wf n) (hd : ∀ c, Interior n l c → f.expr.DefinedAt n c) (hi : f.expr.Independent l 0) (m : Mem (Fl rnd)) :
    (∃ m', assign l f.expr m = .ok m' ∧ ∀ c, Stored n l c → f.expr.DefinedAt n c → Kept m f c → (m' b (cellAddr l.geo c)).val = f.exact m c) ∧
    (∃ m', interiorAssign l f.expr m = .ok m' ∧ ∀ c, Interior n l c → Kept m f c → (m' b (cellAddr l.geo c)).val = f.exact m c) := by
  constructor
  · obtain ⟨m', h1, h2, -⟩ := C22_assign_pointwise n hn l b ht f.expr he hd hi m
    refine ⟨m', h1, fun c hs hc hk => ?_⟩
    rw [h2 c ⟨hs, hc⟩]
    exact value_exact m f c hk
  · obtain ⟨m', h1, h2, -⟩ := C22_interior_assign_pointwise n hn l b ht f.expr he hd hi m
    refine ⟨m', h1, fun c hc hk => ?_⟩
    rw [h2 c hc]
    exact value_exact m f c hk

/-- C109. Assignments of whole numbers are exact as long as no number that comes up exceeds `N`, if the format has all whole numbers up to that, as `double` has
up to `2^53`. The values written are whole numbers up to `N` again. -/
theorem _root_.SpatialOps.C109_assign (hN : ∀ k : Int, |k| ≤ N → rnd (k : K) = k) (n : IntVec) (hn : IntVec.Lt 0 n) (l : FieldObj) (b : Nat)
    (ht : Target n l b) (f : Formula rnd) (he : f.expr.Wf n) (hd : ∀ c, Interior n l c → f.expr.DefinedAt n c) (hi : f.expr.Independent l 0)
    (m : Mem (Fl rnd)) :
    (∃ m', assign l f.expr m = .ok m' ∧ ∀ c, Stored n l c → f.expr.DefinedAt n c → Small N m f c →
      (m' b (cellAddr l.geo c)).val = f.exact m c ∧ Upto N (f.exact m c)) ∧
    (∃ m', interiorAssign l f.expr m = .ok m' ∧ ∀ c, Interior n l c → Small N m f c →
      (m' b (cellAddr l.geo c)).val = f.exact m c ∧ Upto N (f.exact m c)) := by
  obtain ⟨⟨x, h1, h2⟩, y, h3, h4⟩ := C109_exact n hn l b ht f he hd hi m
  refine ⟨⟨x, h1, fun c hs hc hk => ?_⟩, y, h3, fun c hc hk => ?_⟩
  · obtain ⟨k1, k2⟩ := small_kept hN m f c hk
    exact ⟨h2 c hs hc k1, k2⟩
  · obtain ⟨k1, k2⟩ := small_kept hN m f c hk
    exact ⟨h4 c hc k1, k2⟩

theorem foldl_exact (hN : ∀ k : Int, |k| ≤ N → rnd (k : K) = k) {A : Type} (t : A → Fl rnd) (rest : List A) (r : Fl rnd)
    (hr : ∃ k : Int, r.val = k) (ht : ∀ a ∈ rest, ∃ k : Int, (t a).val = k) (hb : |r.val| + (rest.map fun a => |(t a).val|).sum ≤ N) :
    (rest.foldl (fun s a => s + t a) r).val = r.val + (rest.map fun a => (t a).val).sum := by
  induction rest generalizing r with
  | nil => simp
  | cons a rest ih =>
    simp only [List.map_cons, List.sum_cons] at hb ⊢
    obtain ⟨i, hi⟩ := hr
    obtain ⟨j, hj⟩ := ht a (by simp)
    have nn : 0 ≤ (rest.map fun a => |(t a).val|).sum := by
      clear * -
      induction rest with
      | nil => simp
      | cons a s ih => simp only [List.map_cons, List.sum_cons]; exact add_nonneg (abs_nonneg _) ih
    have hs : |r.val + (t a).val| ≤ |r.val| + |(t a).val| := abs_add_le _ _
    obtain ⟨k, hk, hk2⟩ : Upto N (r.val + (t a).val) := upto_of ⟨i + j, by rw [hi, hj]; push_cast; rfl⟩ (by linarith)
    have e : (r + t a : Fl rnd).val = r.val + (t a).val := by
      show rnd (r.val + (t a).val) = _
      rw [hk, hN k hk2]
    have h1 := ih (r + t a) ⟨k, by rw [e, hk]⟩ (fun b hb => ht b (by simp [hb])) (by rw [e]; linarith)
    rw [List.foldl_cons, h1, e, add_assoc]

/-- C109. `nebo_sum` and `nebo_sum_interior` of whole numbers are exact if the sum of the absolute values does not exceed `N`. -/
theorem _root_.SpatialOps.C109_sum (hN : ∀ k : Int, |k| ≤ N → rnd (k : K) = k) (n : IntVec) (hn : IntVec.Lt 0 n) (f : Formula rnd) (he : f.expr.Wf n)
    (hs : f.expr.StencilFree) (ho : f.expr.HasOperand) (hd : ∀ c, InBlock n c → f.expr.DefinedAt n c) (m : Mem (Fl rnd)) :
    (∃ (cells : List IntVec) (r : Fl rnd), Lists cells (f.expr.DefinedAt n) ∧ Returns (neboSum f.expr m) r ∧
      ((∀ c ∈ cells, Small N m f c) → (cells.map fun c => |f.exact m c|).sum ≤ N → r.val = (cells.map (f.exact m)).sum)) ∧
    (∃ (cells : List IntVec) (r : Fl rnd), Lists cells (InBlock n) ∧ Returns (neboSumInterior f.expr m) r ∧
      ((∀ c ∈ cells, Small N m f c) → (cells.map fun c => |f.exact m c|).sum ≤ N → r.val = (cells.map (f.exact m)).sum)) := by
  have key : ∀ (first : IntVec) (rest : List IntVec), (∀ c ∈ first :: rest, Small N m f c) → ((first :: rest).map fun c => |f.exact m c|).sum ≤ N →
      (rest.foldl (fun s c => s + f.expr.value m c) (f.expr.value m first : Fl rnd)).val = ((first :: rest).map (f.exact m)).sum := by
    intro first rest hc hb
    have ex : ∀ c ∈ first :: rest, (f.expr.value m c : Fl rnd).val = f.exact m c ∧ ∃ k : Int, f.exact m c = k := by
      intro c h
      obtain ⟨k1, k, hk, -⟩ := small_kept hN m f c (hc c h)
      exact ⟨value_exact m f c k1, k, hk⟩
    have e1 : (rest.map fun c => |(f.expr.value m c : Fl rnd).val|) = rest.map fun c => |f.exact m c| :=
      List.map_congr_left fun c h => by rw [(ex c (by simp [h])).1]
    have e2 : (rest.map fun c => (f.expr.value m c : Fl rnd).val) = rest.map (f.exact m) :=
      List.map_congr_left fun c h => (ex c (by simp [h])).1
    obtain ⟨a1, a2⟩ := ex first (by simp)
    rw [foldl_exact hN (fun c => (f.expr.value m c : Fl rnd)) rest _ (by rw [a1]; exact a2)
      (fun c h => by rw [(ex c (by simp [h])).1]; exact (ex c (by simp [h])).2) (by rw [e1, a1]; simpa using hb), e2, a1, List.map_cons, List.sum_cons]
  constructor
  · obtain ⟨first, rest, h1, h2⟩ := C27_reduce_all_cells n hn f.expr he hs ho hd (fun a b => a + b) m
    exact ⟨_, _, h1, h2, key first rest⟩
  · obtain ⟨first, rest, h1, h2⟩ := C28_interior_reduce n hn f.expr he hs ho hd (fun a b => a + b) m
    exact ⟨_, _, h1, h2, key first rest⟩

omit [LinearOrder K] [IsStrictOrderedRing K] in
/-- C109. A program of assignments, any of which may run in any number of parts on the pool, in a format and in exact arithmetic. If every operation yields a number of
the format, all finished runs of both leave exactly the same numbers in all of memory, whatever the schedules. -/
theorem _root_.SpatialOps.C109_programs (n : IntVec) (hn : IntVec.Lt 0 n) (p : List (Twin rnd (fun x : K => x)))
    (hs : ∀ s ∈ p, Same s.f s.f' ∧ s.one.Ready n ∧ s.two.Ready n) (m : Mem (Fl rnd)) (m' : Mem (Fl (fun x : K => x)))
    (hm : ∀ b x, (m b x).val = (m' b x).val) (hr : AllMeet (fun x => rnd x = x) n p m) (i j : Nat) (x : Mem (Fl rnd)) (y : Mem (Fl (fun x : K => x)))
    (hx : ProgRun (.idle (p.map Twin.one) m) i (.idle [] x)) (hy : ProgRun (.idle (p.map Twin.two) m') j (.idle [] y)) (b : Nat) (a : Int) :
    (x b a).val = (y b a).val := by
  obtain ⟨x0, y0, e1, e2, e3⟩ := same_run (fun x h => h) n hn p hs m m' hm hr
  have r1 : ∀ st ∈ p.map Twin.one, st.Ready n := by
    intro st h
    obtain ⟨s, h1, rfl⟩ := List.mem_map.1 h
    exact (hs s h1).2.1
  have r2 : ∀ st ∈ p.map Twin.two, st.Ready n := by
    intro st h
    obtain ⟨s, h1, rfl⟩ := List.mem_map.1 h
    exact (hs s h1).2.2
  obtain ⟨x1, a1, -, a2⟩ := C81_program n hn (p.map Twin.one) r1 m
  obtain ⟨y1, b1, -, b2⟩ := C81_program n hn (p.map Twin.two) r2 m'
  rw [e1] at a1
  rw [e2] at b1
  injection a1 with a1
  injection b1 with b1
  rw [(a2 i _ hx).2.2.2 x rfl, (b2 j _ hy).2.2.2 y rfl, ← a1, ← b1]
  exact e3 b a

end

section
variable {K : Type} [Field K] [LinearOrder K] [IsStrictOrderedRing K] [FloorRing K]

/-- With `p` digits all whole numbers up to `2^p` are numbers of the format. -/
theorem roundEven_whole {p : Nat} (hp : 1 ≤ p) (k : Int) (hk : |k| ≤ 2 ^ p) : roundEven p (k : K) = k := by
  by_cases h0 : k = 0
  · rw [h0, Int.cast_zero, roundEven_zero]
  have hne : (k : K) ≠ 0 := Int.cast_ne_zero.2 h0
  obtain ⟨j, h1, h2⟩ := exists_unit p hne
  have hle : |(k : K)| ≤ 2 ^ (p : Int) := by
    rw [zpow_nat, ← Int.cast_abs]
    exact Int.cast_le.2 hk
  by_cases hj : j ≤ 0
  · have e : (k : K) = ((k * 2 ^ (-j).toNat : Int) : K) * 2 ^ j := by
      rw [Int.cast_mul, ← zpow_nat, mul_assoc, ← zpow_add₀ (by norm_num), show ((-j).toNat : Int) + j = 0 by omega, zpow_zero, mul_one]
    have := roundEven_int (K := K) p (k * 2 ^ (-j).toNat) j
    rw [← e] at this
    exact this h1 h2
  · have h3 : (2 : K) ^ (p : Int) ≤ |(k : K)| := (zpow_le_zpow_right₀ (by norm_num) (by omega)).trans h1
    have h4 : |(k : K)| = 2 ^ (p : Int) := le_antisymm hle h3
    rcases abs_choice (k : K) with h5 | h5
    · rw [h5] at h4
      rw [h4, roundEven_two_pow hp]
    · have h6 : (k : K) = -2 ^ (p : Int) := by rw [← h4, h5, neg_neg]
      rw [h6, roundEven_neg, roundEven_two_pow hp]

/-- C109. `double` has all whole numbers up to `2^53`, but not the next one: adding one to `2^53` changes nothing. -/
theorem _root_.SpatialOps.C109_double (special : K → K) :
    (∀ k : Int, |k| ≤ (2 ^ 53 : Nat) → ieee special (k : K) = k) ∧ ieee special ((2 : K) ^ 53 + 1) = 2 ^ 53 := by
  have hlo : (2 : K) ^ (-1022 : Int) ≤ 1 := by
    rw [← zpow_zero (2 : K)]
    exact zpow_le_zpow_right₀ (by norm_num) (by norm_num)
  have hhi : (2 : K) ^ (54 : Int) ≤ (2 ^ 53 - 1) * 2 ^ (971 : Int) :=
    (zpow_le_zpow_right₀ (by norm_num) (by norm_num)).trans (le_mul_of_one_le_left (show (0 : K) ≤ 2 ^ (971 : Int) by positivity) (by norm_num))
  constructor
  · intro k hk
    have hk' : |k| ≤ 2 ^ 53 := by rw [Nat.cast_pow, Nat.cast_ofNat] at hk; exact hk
    rw [normal_alike special (k : K) ?_, roundEven_whole (by norm_num) k hk']
    by_cases h0 : k = 0
    · exact .inl (by rw [h0, Int.cast_zero])
    · refine .inr ⟨hlo.trans ?_, le_trans ?_ hhi⟩
      · rw [← Int.cast_abs]
        exact_mod_cast Int.one_le_abs h0
      · rw [← Int.cast_abs]
        refine le_trans (Int.cast_le.2 hk') ?_
        norm_num
  · have hpos : (0 : K) ≤ 2 ^ 53 + 1 := by norm_num
    rw [normal_alike special _ (.inr ⟨hlo.trans (by rw [abs_of_nonneg hpos]; norm_num), le_trans (by rw [abs_of_nonneg hpos]; norm_num) hhi⟩),
      roundEven_unit 53 (j := 1) (by rw [abs_of_nonneg hpos]; norm_num) (by rw [abs_of_nonneg hpos]; norm_num),
      nearestEven_of_even (M := 2 ^ 52) (by norm_num [abs_of_pos]) (by norm_num)]
    norm_num

end

/-- Example: for fields of whole numbers up to 1000 in absolute value, `(a + b) * a - 3` and the difference of two neighbours meet the condition of `C109_assign`
for `double`. -/
example (m : Mem (Fl RangeEx.R)) (a b : FieldObj) (c : IntVec) (ha : ∀ c, Upto 1000 (valueAt m a c).val) (hb : Upto 1000 (valueAt m b c).val) :
    Small (2 ^ 53) m (.sub (.mul (.add (.field a) (.field b)) (.field a)) (.const ⟨3⟩)) c ∧
    Small (2 ^ 53) m (.stencil (.more (.one (0, ⟨-1⟩)) (⟨1, 0, 0⟩, ⟨1⟩)) (.field a)) c := by
  have up : ∀ x : ℚ, Upto 1000 x → Upto (2 ^ 53) x := by
    rintro x ⟨k, rfl, hk⟩
    exact ⟨k, rfl, hk.trans (by norm_num)⟩
  have main : ∀ x y : ℚ, Upto 1000 x → Upto 1000 y → |x + y| ≤ (2 ^ 53 : Nat) ∧ |(x + y) * x| ≤ (2 ^ 53 : Nat) ∧ |(x + y) * x - 3| ≤ (2 ^ 53 : Nat) ∧
      |x * (-1)| + |y * 1| ≤ (2 ^ 53 : Nat) := by
    intro x y hx hy
    have h1 := upto_abs hx
    have h2 := upto_abs hy
    have h3 := abs_add_le x y
    have h4 : |(x + y) * x| ≤ 2000 * 1000 := by
      rw [abs_mul]
      exact mul_le_mul (by norm_num at h1 h2; linarith) (by exact_mod_cast h1) (abs_nonneg _) (by norm_num)
    have h5 := abs_sub ((x + y) * x) 3
    rw [abs_mul x, abs_mul y]
    norm_num at h1 h2 h4 h5 ⊢
    refine ⟨by linarith, by linarith, by linarith, by linarith⟩
  obtain ⟨e1, e2, e3, -⟩ := main _ _ (ha c) hb
  obtain ⟨-, -, -, e4⟩ := main _ _ (ha (c + 0)) (ha (c + ⟨1, 0, 0⟩))
  refine ⟨⟨⟨⟨up _ (ha c), up _ hb, e1⟩, up _ (ha c), e2⟩, ⟨3, by norm_num, by norm_num⟩, e3⟩, fun q hq => ⟨up _ (ha _), ?_⟩, ?_⟩
  · simp only [Pts.toList, List.cons_append, List.nil_append, List.mem_cons, List.not_mem_nil, or_false] at hq
    rcases hq with rfl | rfl
    · exact ⟨-1, by norm_num, by norm_num⟩
    · exact ⟨1, by norm_num, by norm_num⟩
  · simp only [Pts.toList, List.cons_append, List.nil_append, List.map_cons, List.map_nil, List.sum_cons, List.sum_nil, add_zero]
    exact e4

/-- Example: `double` meets the condition on the format. -/
example := C109_assign (N := 2 ^ 53) (C109_double (fun _ : ℚ => 7)).1 ⟨4, 3, 1⟩ (by decide) (NeboEx.fld false 4) 4 (NeboEx.target false 4)
  (.field (NeboEx.fld false 1)) ⟨NeboEx.onMesh false, by decide⟩

/-- Example: a program of two assignments meets the conditions of `C109_programs` if the numbers it doubles are whole and up to 1000. -/
example (m : Mem (Fl RangeEx.R)) (hc : ∀ c, Upto 1000 (valueAt m (NeboEx.fld false 1) c).val) :
    AllMeet (fun x => RangeEx.R x = x) ⟨4, 3, 1⟩ (RangeEx.twins fun x => x) m := by
  refine ⟨fun c _ => ⟨trivial, trivial, ?_⟩, fun x _ => ⟨fun c _ => ⟨fun q _ => trivial, trivial⟩, fun _ _ => trivial⟩⟩
  have key : ∀ x : ℚ, Upto 1000 x → RangeEx.R (x + x) = x + x := by
    rintro x ⟨k, rfl, hk⟩
    have h := (C109_double (fun _ : ℚ => 7)).1 (k + k) (by
      have := abs_add_le k k
      norm_num at hk ⊢
      omega)
    rw [Int.cast_add] at h
    exact h
  exact key _ (hc c)

end Whole
end SpatialOps
