import Verif.GpuKern.Vec
import Verif.GpuKern.Props

/-!
# C91: element-wise operations on vectors on the device
-/

namespace SpatialOps
namespace GpuKern

section
variable {V : Type}

/-- The element of a thread. -/
def elem (n : Int) (t : Tid) : Int := blockWidth n * t.b1 + t.x

/-- What is left to do after `p` of the three accesses. -/
def vcode (op : V → V → V) (v w : Int → V) (n : Int) (t : Tid) : Nat → Code V
  | 0 => .read (.glob 0 (elem n t)) fun v => .read (.glob 1 (elem n t)) fun w => .write (.glob 2 (elem n t)) (op v w) .halt
  | 1 => .read (.glob 1 (elem n t)) fun b => .write (.glob 2 (elem n t)) (op (v (elem n t)) b) .halt
  | 2 => .write (.glob 2 (elem n t)) (op (v (elem n t)) (w (elem n t))) .halt
  | _ => .halt

/-- The invariant; `pos t` is the number of accesses made, 3 from the start for a thread beyond the vector. -/
structure VInv (op : V → V → V) (v w old : Int → V) (n : Int) (L : Launch) (s : KState V) (pos : Tid → Nat) : Prop where
  code : ∀ t, L.Valid t → s.code t = vcode op v w n t (pos t)
  le : ∀ t, pos t ≤ 3
  inn : ∀ t, L.Valid t → pos t < 3 → elem n t < n
  g0 : s.glob 0 = v
  g1 : s.glob 1 = w
  out : ∀ t, L.Valid t → elem n t < n → pos t = 3 → s.glob 2 (elem n t) = op (v (elem n t)) (w (elem n t))
  rest : ∀ i, (∀ t, L.Valid t → elem n t < n → pos t = 3 → i ≠ elem n t) → s.glob 2 i = old i

theorem vec_launch {n : Int} (hn : 1 ≤ n) : ∃ L, vecLaunch n = .ok L ∧ L.gy = 1 ∧ L.wy = 1 ∧ (L.wx : Int) = blockWidth n ∧ 0 < blockWidth n ∧
    (∀ a, L.size a = n) ∧ (∀ i, 0 ≤ i → i < n → ∃ t, L.Valid t ∧ elem n t = i) ∧
    (∀ t t', L.Valid t → L.Valid t' → elem n t = elem n t' → t = t') ∧ L.gx * L.wx ≤ (n + 255).toNat := by
  have hb : 0 < blockWidth n := by unfold blockWidth; split <;> omega
  have hb2 : blockWidth n ≤ 256 := by unfold blockWidth; split <;> omega
  have hb3 : blockWidth n ≤ n := by unfold blockWidth; split <;> omega
  refine ⟨_, by rw [vecLaunch, Outcome.ubUnless_true (by omega)]; rfl, rfl, rfl, ?_, hb, fun _ => rfl, ?_, ?_, ?_⟩
  · dsimp only; omega
  · intro i h0 h1
    refine ⟨⟨(i / blockWidth n).toNat, 0, (i % blockWidth n).toNat, 0⟩, ⟨?_, by dsimp only; omega, ?_, by dsimp only; omega⟩, ?_⟩
    · dsimp only
      rw [Int.tdiv_eq_ediv_of_nonneg (by omega), Int.tmod_eq_emod_of_nonneg (by omega)]
      have d0 : 0 ≤ i / blockWidth n := Int.ediv_nonneg h0 hb.le
      have a1 := Int.mul_ediv_add_emod i (blockWidth n)
      have a2 := Int.mul_ediv_add_emod n (blockWidth n)
      have m1 := Int.emod_nonneg i hb.ne'
      have m2 := Int.emod_nonneg n hb.ne'
      have m3 := Int.emod_lt_of_pos n hb
      split
      · rename_i hz
        have : i / blockWidth n < n / blockWidth n := by
          by_contra hc
          have := mul_mono_left hb.le (show n / blockWidth n ≤ i / blockWidth n by omega)
          omega
        omega
      · have : i / blockWidth n ≤ n / blockWidth n := Int.ediv_le_ediv hb (by omega)
        omega
    · dsimp only
      have m1 := Int.emod_nonneg i hb.ne'
      have m3 := Int.emod_lt_of_pos i hb
      omega
    · unfold elem
      dsimp only
      have d0 : 0 ≤ i / blockWidth n := Int.ediv_nonneg h0 hb.le
      have m1 := Int.emod_nonneg i hb.ne'
      have a1 := Int.mul_ediv_add_emod i (blockWidth n)
      rw [Int.toNat_of_nonneg d0, Int.toNat_of_nonneg m1]; exact a1
  · rintro ⟨b1, b2, x, y⟩ ⟨b1', b2', x', y'⟩ ⟨-, h2, h3, h4⟩ ⟨-, h2', h3', h4'⟩ e
    unfold elem at e
    dsimp only at *
    have ex : (x : Int) = x' := by
      have a := congrArg (· % blockWidth n) e
      simp only [Int.mul_add_emod_self_left] at a
      rwa [Int.emod_eq_of_lt (by omega) (by omega), Int.emod_eq_of_lt (by omega) (by omega)] at a
    have eb : (b1 : Int) = b1' := Int.eq_of_mul_eq_mul_left hb.ne' (by omega)
    simp only [Tid.mk.injEq]
    omega
  · dsimp only
    rw [Int.tdiv_eq_ediv_of_nonneg (by omega), Int.tmod_eq_emod_of_nonneg (by omega)]
    have a2 := Int.mul_ediv_add_emod n (blockWidth n)
    have m2 := Int.emod_nonneg n hb.ne'
    have d0 : 0 ≤ n / blockWidth n := Int.ediv_nonneg (by omega) hb.le
    zify
    rw [Int.toNat_of_nonneg (by split <;> omega), Int.toNat_of_nonneg hb.le, Int.toNat_of_nonneg (by omega), mul_comm, mul_add]
    split
    · omega
    · have : n % blockWidth n ≠ 0 := by assumption
      omega

theorem VInv.step {op : V → V → V} {v w old : Int → V} {n : Int} {L : Launch} {s s' : KState V} {pos : Tid → Nat}
    (I : VInv op v w old n L s pos) (hw : 0 < L.wx ∧ 0 < L.wy) (h : KStep L s s') :
    ∃ t, L.Valid t ∧ pos t < 3 ∧ VInv op v w old n L s' (Function.update pos t (pos t + 1)) := by
  -- the parts that do not depend on the step
  have hle : ∀ t, pos t < 3 → ∀ u, Function.update pos t (pos t + 1) u ≤ 3 := fun t ht u => by
    by_cases e : u = t
    · subst e; simp; omega
    · simp only [Function.update_of_ne e]; exact I.le u
  have hinn : ∀ t, pos t < 3 → ∀ u, L.Valid u → Function.update pos t (pos t + 1) u < 3 → elem n u < n := fun t ht u hu h => by
    by_cases e : u = t
    · subst e; exact I.inn u hu ht
    · simp only [Function.update_of_ne e] at h; exact I.inn u hu h
  have hcode : ∀ t c, L.Valid t → c = vcode op v w n t (pos t + 1) → ∀ u, L.Valid u →
      Function.update s.code t c u = vcode op v w n u (Function.update pos t (pos t + 1) u) := fun t c _ hc u hu => by
    by_cases e : u = t
    · subst e; simp [hc]
    · simp only [Function.update_of_ne e]; exact I.code u hu
  have hupd : ∀ t, pos t + 1 < 3 → ∀ u, Function.update pos t (pos t + 1) u = 3 ↔ pos u = 3 := fun t ht u => by
    by_cases e : u = t
    · subst e; simp; omega
    · simp only [Function.update_of_ne e]
  cases h with
  | @read t a k hv hc hh =>
    rw [I.code t hv] at hc
    have hp := I.le t
    rcases hpt : pos t with _ | _ | _ | q <;> rw [hpt] at hc
    · simp only [vcode] at hc
      injection hc with ha hk
      subst ha hk
      have h3 : pos t + 1 < 3 := by omega
      refine ⟨t, hv, by omega, ⟨?_, hle t (by omega), hinn t (by omega), I.g0, I.g1, fun u hu he h => ?_, fun i hi => ?_⟩⟩
      · exact hcode t _ hv (by rw [hpt]; simp only [KState.fetch, I.g0, vcode])
      · rw [hupd t h3] at h; exact I.out u hu he h
      · refine I.rest i fun u hu he h => hi u hu he ?_
        rw [hupd t h3]; exact h
    · simp only [vcode, Nat.zero_add] at hc
      injection hc with ha hk
      subst ha hk
      have h3 : pos t + 1 < 3 := by omega
      refine ⟨t, hv, by omega, ⟨?_, hle t (by omega), hinn t (by omega), I.g0, I.g1, fun u hu he h => ?_, fun i hi => ?_⟩⟩
      · exact hcode t _ hv (by rw [hpt]; simp only [KState.fetch, I.g1, vcode])
      · rw [hupd t h3] at h; exact I.out u hu he h
      · refine I.rest i fun u hu he h => hi u hu he ?_
        rw [hupd t h3]; exact h
    · simp [vcode] at hc
    · simp [vcode] at hc
  | @write t a x c hv hc hh =>
    rw [I.code t hv] at hc
    have hp := I.le t
    rcases hpt : pos t with _ | _ | _ | q <;> rw [hpt] at hc
    · simp [vcode] at hc
    · simp [vcode] at hc
    · simp only [vcode, Nat.zero_add] at hc
      injection hc with ha hk hk'
      subst ha hk hk'
      have het := I.inn t hv (by omega)
      refine ⟨t, hv, by omega, ⟨?_, hle t (by omega), hinn t (by omega), ?_, ?_, fun u hu he h => ?_, fun i hi => ?_⟩⟩
      · exact hcode t _ hv (by rw [hpt]; rfl)
      · rw [← I.g0]; funext i; simp [KState.put]
      · rw [← I.g1]; funext i; simp [KState.put]
      · simp only [KState.put, Loc.glob.injEq, true_and]
        by_cases e : elem n t = elem n u
        · rw [if_pos e, e]
        · rw [if_neg e]
          have hne : u ≠ t := fun h => e (by rw [h])
          simp only [Function.update_of_ne hne] at h
          exact I.out u hu he h
      · have hne : ¬ elem n t = i := fun e => hi t hv het (by simp [hpt]) e.symm
        simp only [KState.put, Loc.glob.injEq, true_and]
        rw [if_neg hne]
        refine I.rest i fun u hu he h => hi u hu he ?_
        have hne : u ≠ t := fun e => by subst e; omega
        simp only [Function.update_of_ne hne]; exact h
    · simp [vcode] at hc
  | barrier p q hp hq hs =>
    exfalso
    obtain ⟨c, hc⟩ := hs ⟨p, q, 0, 0⟩ ⟨hp, hq, hw.1, hw.2⟩ rfl rfl
    have hv : L.Valid ⟨p, q, 0, 0⟩ := ⟨hp, hq, hw.1, hw.2⟩
    rw [I.code _ hv] at hc
    have := I.le ⟨p, q, 0, 0⟩
    rcases hpt : pos ⟨p, q, 0, 0⟩ with _ | _ | _ | q' <;> rw [hpt] at hc <;> simp [vcode] at hc

theorem vinv_run {op : V → V → V} {v w old : Int → V} {n : Int} {L : Launch} (hwx : (L.wx : Int) = blockWidth n) (hpos : 0 < blockWidth n) (hwy : L.wy = 1)
    (sh : Nat → Nat → Int → V) {m : Nat} {s : KState V}
    (run : KRun L (vecStart op v w old n L sh) m s) :
    ∃ pos, VInv op v w old n L s pos ∧ m ≤ ∑ t ∈ threads L, pos t := by
  induction run with
  | start =>
    refine ⟨fun t => if elem n t < n then 0 else 3, ⟨?_, ?_, ?_, rfl, rfl, ?_, ?_⟩, Nat.zero_le _⟩
    · intro t hv
      simp only [vecStart, launch, if_pos hv, vecKernel]
      change (if elem n t < n then _ else _) = _
      by_cases h : elem n t < n
      · rw [if_pos h, if_pos h]; rfl
      · rw [if_neg h, if_neg h]; rfl
    · intro t; split <;> omega
    · intro t _ h
      split at h
      · assumption
      · omega
    · intro t _ he h
      simp [he] at h
    · intro i _; rfl
  | step _ hs ih =>
    obtain ⟨pos, I, hm⟩ := ih
    obtain ⟨t, hv, hp, I'⟩ := I.step ⟨by omega, by omega⟩ hs
    refine ⟨_, I', ?_⟩
    have := Finset.sum_lt_sum (s := threads L) (f := pos) (g := Function.update pos t (pos t + 1)) (fun u _ => by
      by_cases e : u = t
      · subst e; simp
      · simp only [Function.update_of_ne e]; exact le_rfl) ⟨t, mem_threads.2 hv, by simp⟩
    omega

/-- **C91.** Adding or multiplying two vectors of any length from 1 up on the device: however the threads are interleaved there is no race and no
access out of bounds, the kernel ends, and then every element of the result is the sum or product of the elements of the operands; the operands are
unchanged. -/
theorem _root_.SpatialOps.C91_vectors_partial (op : V → V → V) (v w old : Int → V) {n : Int} (hn : 1 ≤ n) (sh : Nat → Nat → Int → V) :
    ∃ L, vecLaunch n = .ok L ∧
      (∀ m s, KRun L (vecStart op v w old n L sh) m s →
        ¬ s.Race L ∧ ¬ s.Fault L ∧ (s.Done L ∨ ∃ s', KStep L s s') ∧ (m : Int) ≤ 3 * (n + 255) ∧
        (s.Done L → (∀ i, 0 ≤ i → i < n → s.glob 2 i = op (v i) (w i)) ∧ s.glob 0 = v ∧ s.glob 1 = w)) ∧
      ∃ m s, KRun L (vecStart op v w old n L sh) m s ∧ s.Done L := by
  obtain ⟨L, hL, hgy, hwy, hwx, hpos, hsize, hcover, hinj, hcard⟩ := vec_launch hn
  have main : ∀ m s, KRun L (vecStart op v w old n L sh) m s →
        ¬ s.Race L ∧ ¬ s.Fault L ∧ (s.Done L ∨ ∃ s', KStep L s s') ∧ (m : Int) ≤ 3 * (n + 255) ∧
        (s.Done L → (∀ i, 0 ≤ i → i < n → s.glob 2 i = op (v i) (w i)) ∧ s.glob 0 = v ∧ s.glob 1 = w) := by
    intro m s run
    obtain ⟨pos, I, hm⟩ := vinv_run hwx hpos hwy sh run
    have acc : ∀ t a b, L.Valid t → (s.code t).access = some (a, b) →
        pos t < 3 ∧ ((b = false ∧ ∃ c, c < 2 ∧ a = .glob c (elem n t)) ∨ (b = true ∧ a = .glob 2 (elem n t))) := by
      intro t a b hv h
      rw [I.code t hv] at h
      have hp := I.le t
      rcases hpt : pos t with _ | _ | _ | q <;> rw [hpt] at h <;>
        simp only [vcode, Code.access, Nat.zero_add, Option.some.injEq, Prod.mk.injEq, reduceCtorEq] at h <;> obtain ⟨rfl, rfl⟩ := h
      · exact ⟨by omega, .inl ⟨rfl, 0, by omega, rfl⟩⟩
      · exact ⟨by omega, .inl ⟨rfl, 1, by omega, rfl⟩⟩
      · exact ⟨by omega, .inr ⟨rfl, rfl⟩⟩
    have has : ∀ t a b, L.Valid t → (s.code t).access = some (a, b) → L.Has a := by
      intro t a b hv h
      obtain ⟨hp, h⟩ := acc t a b hv h
      have hlt := I.inn t hv hp
      have h0 : 0 ≤ elem n t := by
        unfold elem
        have := Int.mul_nonneg hpos.le (show (0 : Int) ≤ t.b1 by omega)
        omega
      rcases h with ⟨-, c, -, rfl⟩ | ⟨-, rfl⟩ <;> simp only [Launch.Has, hsize] <;> exact ⟨h0, hlt⟩
    refine ⟨?_, fun ⟨t, a, b, hv, h, hno⟩ => hno (has t a b hv h), ?_, ?_, ?_⟩
    · rintro ⟨t, t', a, b, b', hv, hv', hne, h, h', hb, -⟩
      obtain ⟨-, h⟩ := acc t a b hv h
      obtain ⟨-, h'⟩ := acc t' a b' hv' h'
      rcases h with ⟨e, c, hc, rfl⟩ | ⟨e, rfl⟩ <;> rcases h' with ⟨e', c', hc', d⟩ | ⟨e', d⟩ <;> subst e e' <;> injection d with d1 d2
      · simp at hb
      · omega
      · omega
      · exact hne (hinj t t' hv hv' d2)
    · by_cases hd : s.Done L
      · exact .inl hd
      · simp only [KState.Done, not_forall] at hd
        obtain ⟨t, hv, ht⟩ := hd
        right
        have hne : ∃ a b, (s.code t).access = some (a, b) := by
          rw [I.code t hv] at ht ⊢
          rcases hpt : pos t with _ | _ | _ | q <;> rw [hpt] at ht
          · exact ⟨_, _, rfl⟩
          · exact ⟨_, _, rfl⟩
          · exact ⟨_, _, rfl⟩
          · exact absurd rfl ht
        obtain ⟨a, b, h⟩ := hne
        exact access_steps hv h (has t a b hv h)
    · have h1 := Finset.sum_le_card_nsmul (threads L) pos 3 fun t _ => I.le t
      have h1 : ∑ t ∈ threads L, pos t ≤ _ := h1
      have h2 := card_threads L
      rw [hgy, hwy, Nat.mul_one, Nat.mul_one] at h2
      rw [nsmul_eq_mul, Nat.cast_id] at h1
      have h3 : (threads L).card * 3 ≤ (n + 255).toNat * 3 := Nat.mul_le_mul_right _ (h2.trans hcard)
      omega
    · intro hd
      refine ⟨fun i h0 h1 => ?_, I.g0, I.g1⟩
      obtain ⟨t, hv, rfl⟩ := hcover i h0 h1
      refine I.out t hv h1 ?_
      have h := hd t hv
      rw [I.code t hv] at h
      have hp := I.le t
      rcases hpt : pos t with _ | _ | _ | q <;> rw [hpt] at h <;> simp [vcode] at h
      omega
  refine ⟨L, hL, main, run_to_done (b := (3 * (n + 255)).toNat) fun m s run => ⟨?_, (main m s run).2.2.1⟩⟩
  have := (main m s run).2.2.2.1
  omega

example : ∃ L, vecLaunch 1000 = .ok L ∧ L.gx = 4 ∧ L.wx = 256 ∧
    ∃ m s, KRun L (vecStart (· + ·) (fun i : Int => i) (fun i => 2 * i) (fun _ => 0) 1000 L fun _ _ _ => 0) m s ∧ s.glob 2 999 = 2997 := by
  obtain ⟨L, hL, main, m, s, run, hd⟩ := C91_vectors_partial (· + ·) (fun i : Int => i) (fun i => 2 * i) (fun _ => 0) (n := 1000) (by omega) fun _ _ _ => 0
  have e : vecLaunch 1000 = .ok ⟨4, 1, 256, 1, fun _ => 1000, 0⟩ := rfl
  refine ⟨L, hL, ?_, ?_, m, s, run, ?_⟩
  · rw [e] at hL; injection hL with hL; rw [← hL]
  · rw [e] at hL; injection hL with hL; rw [← hL]
  · rw [((main m s run).2.2.2.2 hd).1 999 (by omega) (by omega)]; norm_num

/-- **C91, violated.** Vectors without elements: the number of blocks is a division by zero. -/
theorem _root_.SpatialOps.C91_empty : vecLaunch 0 = .ub := rfl

theorem vecCheck_iff (op : V → V → V) (ne : V → V → Bool) (v w res : Int → V) : ∀ (r : Nat) (i : Int),
    (vecCheck op ne v w res r i = 1 ↔ ∀ l, i ≤ l → l < i + r → ne (res l) (op (v l) (w l)) = false) ∧
    (vecCheck op ne v w res r i = 1 ∨ vecCheck op ne v w res r i = 0)
  | 0, i => ⟨⟨fun _ l a b => by omega, fun _ => rfl⟩, .inl rfl⟩
  | r + 1, i => by
    have ih := vecCheck_iff op ne v w res r (i + 1)
    simp only [vecCheck]
    by_cases h : ne (res i) (op (v i) (w i)) = true
    · rw [if_pos h]
      refine ⟨⟨fun e => by omega, fun hall => ?_⟩, .inr rfl⟩
      have := hall i le_rfl (by push_cast; omega)
      rw [h] at this; cases this
    · rw [if_neg h]
      refine ⟨ih.1.trans ⟨fun hall l a b => ?_, fun hall l a b => hall l (by omega) (by push_cast; omega)⟩, ih.2⟩
      by_cases e : l = i
      · subst e; simpa using h
      · exact hall l (by omega) (by push_cast at b; omega)

/-- **C91.** The test of these operations: for every length from 1 up it returns 1, or 0 if some sum or product is not equal to itself. -/
theorem _root_.SpatialOps.C91_test (op : V → V → V) (ne : V → V → Bool) (v w old : Int → V) {n : Int} (hn : 1 ≤ n) (sh : Nat → Nat → Int → V)
    {L : Launch} (hL : vecLaunch n = .ok L) {m : Nat} {s : KState V} (run : KRun L (vecStart op v w old n L sh) m s) (hd : s.Done L) :
    (vecCheck op ne v w (s.glob 2) n.toNat 0 = 1 ↔ ∀ i, 0 ≤ i → i < n → ne (op (v i) (w i)) (op (v i) (w i)) = false) ∧
    (vecCheck op ne v w (s.glob 2) n.toNat 0 = 1 ∨ vecCheck op ne v w (s.glob 2) n.toNat 0 = 0) := by
  obtain ⟨L', hL', main, -⟩ := C91_vectors_partial op v w old hn sh
  rw [hL] at hL'
  injection hL' with hL'
  subst hL'
  have hval := ((main m s run).2.2.2.2 hd).1
  obtain ⟨a, b⟩ := vecCheck_iff op ne v w (s.glob 2) n.toNat 0
  refine ⟨a.trans ⟨fun h i h0 h1 => ?_, fun h l h0 h1 => ?_⟩, b⟩
  · rw [← h i h0 (by omega), hval i h0 h1]
  · rw [hval l h0 (by omega)]; exact h l h0 (by omega)

end
end GpuKern
end SpatialOps
