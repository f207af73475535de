import Verif.ParticleRound.Spec
import Verif.Particle.Props
import Verif.Round.Lemmas
import Verif.Round.Even
import Verif.Round.Ops
import Verif.Round.Props

/-!
# Property C106: particle operators in floating point
-/

namespace SpatialOps
namespace ParticleRound

open Round Particle

section
variable {K : Type} [Field K] [LinearOrder K] [IsStrictOrderedRing K] {u : K} {rnd : K → K}

omit [LinearOrder K] [IsStrictOrderedRing K] in
theorem val_sub (a b : Fl rnd) : (a - b).val = rnd (a.val - b.val) := rfl

omit [Field K] [IsStrictOrderedRing K] in
theorem lt_iff (a b : Fl rnd) : a < b ↔ a.val < b.val := Iff.rfl

/-! ## Pieces -/

omit [IsStrictOrderedRing K] in
/-- The right bound of a piece is the smaller of the particle's right end and the cell's. -/
theorem right_eq {o : Op (Fl rnd)} {right rb : Fl rnd} {i : Int} (h : o.right right i = .ok rb) :
    (0 ≤ i ∧ i < o.coord.n) ∧ rb.val = min right.val (cellEnd o i) := by
  unfold Op.right at h
  obtain ⟨x, h1, h⟩ := Outcome.bind_eq_ok.1 h
  unfold Line.get at h1
  split_ifs at h1 with hi
  injection h1 with h1
  subst h1
  refine ⟨hi, ?_⟩
  injection h with h
  rw [← h]
  unfold cellEnd
  split_ifs with hx
  · exact (min_eq_left (le_of_lt hx)).symm
  · exact (min_eq_right (not_lt.1 hx)).symm

/-- One piece: three roundings. -/
theorem piece_err (hf : Format u rnd) (src rb left size : Fl rnd) (hs : 0 < size.val) (hw : left.val ≤ rb.val) :
    Err u 3 (src * (rb - left) / size).val (src.val * (rb.val - left.val) / size.val)
      (|src.val| * (rb.val - left.val) / size.val) := by
  have u0 := hf.nonneg
  have h1 : Err u 1 (rb - left).val (rb.val - left.val) (rb.val - left.val) := by
    have := (Err.self (u := u) (rb.val - left.val)).rounded hf
    rwa [abs_of_nonneg (sub_nonneg.2 hw)] at this
  have h2 := ((Err.self (u := u) src.val).mul u0 h1).rounded hf
  have h3 := (h2.div u0 size.val).rounded hf
  rw [abs_of_pos hs] at h3
  exact h3

omit [LinearOrder K] [IsStrictOrderedRing K] in
/-- A function that is `v` at `i` and agrees with `w` elsewhere, summed. -/
theorem sum_put (n : Nat) (i : Int) (hi : 0 ≤ i ∧ i < n) (v : K) (w : Int → K) (h0 : w i = 0) :
    ∑ j ∈ Finset.range n, (if (j : Int) = i then v else w j) = v + ∑ j ∈ Finset.range n, w j := by
  have hm : i.toNat ∈ Finset.range n := by simp; omega
  rw [← Finset.add_sum_erase _ _ hm, ← Finset.add_sum_erase _ (fun j : Nat => w j) hm,
    show ((i.toNat : Nat) : Int) = i by omega, if_pos rfl, h0, zero_add]
  congr 1
  apply Finset.sum_congr rfl
  intro j hj
  rw [if_neg]
  have := (Finset.mem_erase.1 hj).1
  omega

omit [IsStrictOrderedRing K] in
theorem ordered_le {o : Op (Fl rnd)} (hm : Ordered o) {i : Int} (h0 : 0 ≤ i) : (d : Nat) → i + d < o.coord.n → cellEnd o i ≤ cellEnd o (i + d)
  | 0, _ => by simp
  | d + 1, h => by
    refine (ordered_le hm h0 d (by push_cast at h; omega)).trans ?_
    have := hm (i + d) (by omega) (by push_cast at h; omega)
    rwa [show i + ((d + 1 : Nat) : Int) = i + d + 1 by push_cast; ring]

/-- The portions of a particle of which the part in cell `i` has been treated. -/
theorem portion_next {o : Op (Fl rnd)} (hm : Ordered o) {i : Int} (h0 : 0 ≤ i) {l r : K} (hl : l ≤ cellEnd o i) {j : Int} (hj : i < j)
    (hn : j < o.coord.n) : portion o (i + 1) (min r (cellEnd o i)) r j = portion o i l r j := by
  unfold portion
  rw [if_neg (show ¬ j < i + 1 by omega), if_neg (show ¬ j < i by omega), if_neg (show ¬ j = i by omega)]
  have hij : cellEnd o i ≤ cellEnd o (j - 1) := by
    have := ordered_le hm h0 (j - 1 - i).toNat (by omega)
    rwa [show i + ((j - 1 - i).toNat : Int) = j - 1 by omega] at this
  rw [max_eq_right (hl.trans hij)]
  split_ifs with h
  · subst h
    rw [show i + 1 - 1 = i by ring] at hij ⊢
    have hc := hm i h0 hn
    rcases le_total r (cellEnd o i) with a | a
    · rw [min_eq_left a, min_eq_left (a.trans hc), sub_self, max_self, max_eq_left (sub_nonpos.2 a)]
    · rw [min_eq_right a]
  · rw [max_eq_right ((min_le_right _ _).trans hij)]

omit [IsStrictOrderedRing K] in
theorem portion_none [IsStrictOrderedRing K] {o : Op (Fl rnd)} {i : Int} {l r : K} (h : r ≤ l) (j : Int) : portion o i l r j = 0 := by
  unfold portion
  split_ifs
  · rfl
  · exact max_eq_left (sub_nonpos.2 ((min_le_left _ _).trans h))
  · exact max_eq_left (sub_nonpos.2 ((min_le_left _ _).trans (h.trans (le_max_left _ _))))

/-- What one particle adds to the cells. -/
theorem spread_err (hf : Format u rnd) (o : Op (Fl rnd)) (hm : Ordered o) (src size right : Fl rnd) (hs : 0 < size.val) :
    (fuel : Nat) → (i : Int) → (left : Fl rnd) → (dest dest' : Line (Fl rnd)) →
    (left.val < right.val → i < o.coord.n → left.val ≤ cellEnd o i) →
    o.spread src size right fuel i left dest = .ok dest' →
    dest'.n = dest.n ∧ ∃ w : Int → K, (∀ j, 0 ≤ w j) ∧ (∀ j, j < i → w j = 0) ∧
      ∑ j ∈ Finset.range dest.n, w (j : Int) = max 0 (right.val - left.val) ∧
      (∀ j, j < i → dest'.at' j = dest.at' j) ∧ (∀ j : Int, j < o.coord.n → w j = portion o i left.val right.val j) ∧
      ∀ j k D E, 3 ≤ k → Err u k (dest.at' j).val D E →
        Err u (k + 1) (dest'.at' j).val (D + src.val * w j / size.val) (E + |src.val| * w j / size.val)
  | 0, _, _, _, _, _, h => by simp [Op.spread] at h
  | fuel + 1, i, left, dest, dest', hl, h => by
    have u0 := hf.nonneg
    unfold Op.spread at h
    split_ifs at h with hlt
    · rw [lt_iff] at hlt
      obtain ⟨rb, h1, h⟩ := Outcome.bind_eq_ok.1 h
      obtain ⟨d1, h2, h⟩ := Outcome.bind_eq_ok.1 h
      obtain ⟨hi, hrb⟩ := right_eq h1
      have hle : left.val ≤ rb.val := by
        rw [hrb]
        exact le_min hlt.le (hl hlt hi.2)
      have hrr : rb.val ≤ right.val := by rw [hrb]; exact min_le_left _ _
      unfold Line.add at h2
      split_ifs at h2 with hd
      injection h2 with h2
      subst h2
      obtain ⟨i1, w, w1, w2, w3, w4, w6, w5⟩ := spread_err hf o hm src size right hs fuel (i + 1) rb _ dest' (by
        intro a1 a2
        rw [hrb] at a1 ⊢
        exact (min_le_right _ _).trans (hm i hi.1 a2)) h
      refine ⟨i1, fun j => if j = i then rb.val - left.val else w j, ?_, ?_, ?_, ?_, ?_, ?_⟩
      · intro j
        dsimp only
        split_ifs
        · exact sub_nonneg.2 hle
        · exact w1 j
      · intro j hj
        dsimp only
        rw [if_neg (by omega), w2 j (by omega)]
      · rw [sum_put dest.n i hd _ w (w2 i (by omega)), w3, max_eq_right (sub_nonneg.2 hrr),
          max_eq_right (sub_nonneg.2 hlt.le)]
        ring
      · intro j hj
        rw [w4 j (by omega)]
        exact if_neg (by omega)
      · intro j hj
        dsimp only
        split_ifs with hji
        · subst hji
          unfold portion
          rw [if_neg (lt_irrefl _), if_pos rfl, ← hrb, max_eq_right (sub_nonneg.2 hle)]
        · rcases Int.lt_or_lt_of_ne hji with a | a
          · rw [w2 j (by omega)]
            unfold portion
            rw [if_pos a]
          · rw [w6 j hj, hrb, portion_next hm hi.1 (hl hlt hi.2) a hj]
      · intro j k D E hk he
        dsimp only
        by_cases hji : j = i
        · subst hji
          rw [if_pos rfl, w4 j (by omega)]
          dsimp only
          rw [if_pos rfl]
          exact (he.add ((piece_err hf src rb left size hs hle).mono u0 hk)).rounded hf
        · rw [if_neg hji]
          refine w5 j k D E hk ?_
          dsimp only
          rw [if_neg hji]
          exact he
    · rw [lt_iff] at hlt
      injection h with h
      subst h
      refine ⟨rfl, fun _ => 0, fun _ => le_rfl, fun _ _ => rfl, ?_, fun _ _ => rfl, fun j _ => (portion_none (not_lt.1 hlt) j).symm, fun j k D E _ he => ?_⟩
      · rw [Finset.sum_const_zero, max_eq_left (sub_nonpos.2 (not_lt.1 hlt))]
      · simpa using he.mono u0 (Nat.le_succ k)

/-- What a particle receives from the cells. -/
theorem gather_err (hf : Format u rnd) (o : Op (Fl rnd)) (hm : Ordered o) (src : Line (Fl rnd)) (size right : Fl rnd) (hs : 0 < size.val) :
    (fuel : Nat) → (i : Int) → (left val v : Fl rnd) →
    (left.val < right.val → i < o.coord.n → left.val ≤ cellEnd o i) →
    o.gather src size right (fuel + 1) i left val = .ok v →
    ∃ w : Int → K, (∀ j, 0 ≤ w j) ∧ (∀ j, j < i → w j = 0) ∧
      ∑ j ∈ Finset.range src.n, w (j : Int) = max 0 (right.val - left.val) ∧ (∀ j : Int, j < o.coord.n → w j = portion o i left.val right.val j) ∧
      ∀ k D E, 3 ≤ k → Err u k val.val D E →
        Err u (k + fuel) v.val (D + ∑ j ∈ Finset.range src.n, (src.at' (j : Int)).val * w j / size.val)
          (E + ∑ j ∈ Finset.range src.n, |(src.at' (j : Int)).val| * w j / size.val)
  | fuel, i, left, val, v, hl, h => by
    have u0 := hf.nonneg
    unfold Op.gather at h
    split_ifs at h with hlt
    · rw [lt_iff] at hlt
      obtain ⟨rb, h1, h⟩ := Outcome.bind_eq_ok.1 h
      obtain ⟨s, h2, h⟩ := Outcome.bind_eq_ok.1 h
      obtain ⟨hi, hrb⟩ := right_eq h1
      have hle : left.val ≤ rb.val := by
        rw [hrb]
        exact le_min hlt.le (hl hlt hi.2)
      have hrr : rb.val ≤ right.val := by rw [hrb]; exact min_le_left _ _
      unfold Line.get at h2
      split_ifs at h2 with hd
      injection h2 with h2
      subst h2
      match fuel, h with
      | 0, h => simp [Op.gather] at h
      | fuel + 1, h =>
      obtain ⟨w, w1, w2, w3, w6, w4⟩ := gather_err hf o hm src size right hs fuel (i + 1) rb _ v (by
        intro a1 a2
        rw [hrb] at a1 ⊢
        exact (min_le_right _ _).trans (hm i hi.1 a2)) h
      refine ⟨fun j => if j = i then rb.val - left.val else w j, ?_, ?_, ?_, ?_, ?_⟩
      · intro j
        dsimp only
        split_ifs
        · exact sub_nonneg.2 hle
        · exact w1 j
      · intro j hj
        dsimp only
        rw [if_neg (by omega), w2 j (by omega)]
      · rw [sum_put src.n i hd _ w (w2 i (by omega)), w3, max_eq_right (sub_nonneg.2 hrr),
          max_eq_right (sub_nonneg.2 hlt.le)]
        ring
      · intro j hj
        dsimp only
        split_ifs with hji
        · subst hji
          unfold portion
          rw [if_neg (lt_irrefl _), if_pos rfl, ← hrb, max_eq_right (sub_nonneg.2 hle)]
        · rcases Int.lt_or_lt_of_ne hji with a | a
          · rw [w2 j (by omega)]
            unfold portion
            rw [if_pos a]
          · rw [w6 j hj, hrb, portion_next hm hi.1 (hl hlt hi.2) a hj]
      · intro k D E hk he
        have h0 := w2 i (by omega)
        have key : ∀ g : Int → K, ∑ j ∈ Finset.range src.n, g (j : Int) * (if (j : Int) = i then rb.val - left.val else w j) / size.val =
            g i * (rb.val - left.val) / size.val + ∑ j ∈ Finset.range src.n, g (j : Int) * w j / size.val := by
          intro g
          rw [← sum_put src.n i hd _ (fun j => g j * w j / size.val) (by simp [h0])]
          apply Finset.sum_congr rfl
          intro j _
          split_ifs with hj
          · rw [hj]
          · rfl
        have := w4 (k + 1) _ _ (by omega)
          ((he.add ((piece_err hf (src.at' i) rb left size hs hle).mono u0 hk)).rounded hf)
        rw [key (fun j => (src.at' j).val), key (fun j => |(src.at' j).val|)]
        rw [show k + 1 + fuel = k + (fuel + 1) by omega, add_assoc, add_assoc] at this
        exact this
    · rw [lt_iff] at hlt
      injection h with h
      subst h
      refine ⟨fun _ => 0, fun _ => le_rfl, fun _ _ => rfl, ?_, fun j _ => (portion_none (not_lt.1 hlt) j).symm, fun k D E _ he => ?_⟩
      · rw [Finset.sum_const_zero, max_eq_left (sub_nonpos.2 (not_lt.1 hlt))]
      · simpa using he.mono u0 (Nat.le_add_right k fuel)

/-! ## The length of a particle -/

theorem drift_nonneg (hf : Format u rnd) {p : Drop (Fl rnd)} (hs : 0 < p.size.val) : 0 ≤ drift u p := by
  have u0 := hf.nonneg
  unfold drift
  positivity

/-- The length of a particle between its computed ends is its size up to the drift. -/
theorem length_close (hf : Format u rnd) {p : Drop (Fl rnd)} (hs : 0 < p.size.val) {right : Fl rnd}
    (hr : right.val = rnd (p.loc.val + rnd (p.size.val / 2))) :
    |max 0 (right.val - leftEnd p) / p.size.val - 1| ≤ drift u p := by
  have u0 := hf.nonneg
  set s := p.size.val with hsdef
  set x := p.loc.val
  have hl : leftEnd p = rnd (x - rnd (s / 2)) := by
    unfold leftEnd
    rw [val_sub, val_div, val_two]
  have a1 := hf.close (s / 2)
  rw [abs_of_pos (half_pos hs)] at a1
  generalize rnd (s / 2) = t at *
  have a2 := hf.close (x + t)
  have a3 := hf.close (x - t)
  rw [hl, hr]
  generalize rnd (x + t) = b at *
  generalize rnd (x - t) = a at *
  have t1 : |t| ≤ (1 + u) * (s / 2) := by
    have := abs_add_le (t - s / 2) (s / 2)
    rw [sub_add_cancel, abs_of_pos (half_pos hs)] at this
    linarith
  have b1 : |x + t| ≤ |x| + (1 + u) * (s / 2) := (abs_add_le x t).trans (by linarith)
  have b2 : |x - t| ≤ |x| + (1 + u) * (s / 2) := (abs_sub x t).trans (by linarith)
  have c1 := mul_le_mul_of_nonneg_left b1 u0
  have c2 := mul_le_mul_of_nonneg_left b2 u0
  have key : |b - a - s| ≤ u * (2 * |x| + (2 + u) * s) := by
    rw [abs_le] at a1 a2 a3 ⊢
    constructor <;> nlinarith
  have key2 : |max 0 (b - a) - s| ≤ |b - a - s| := by
    rcases le_total 0 (b - a) with h | h
    · rw [max_eq_right h]
    · rw [max_eq_left h, abs_of_neg (by linarith), abs_of_neg (by linarith)]
      linarith
  rw [show max 0 (b - a) / s - 1 = (max 0 (b - a) - s) / s by field_simp, abs_div, abs_of_pos hs]
  unfold drift
  exact div_le_div_of_nonneg_right (key2.trans key) hs.le

/-! ## Depositing -/

theorem sum_scale (n : Nat) (c s : K) (w : Int → K) (L : K) (hw : ∑ j ∈ Finset.range n, w (j : Int) = L) :
    ∑ j ∈ Finset.range n, c * w (j : Int) / s = c * (L / s) := by
  rw [← hw, Finset.sum_div, Finset.mul_sum]
  exact Finset.sum_congr rfl fun j _ => by ring

theorem toCells_err [FloorRing K] (hf : Format u rnd) (o : Op (Fl rnd)) (hm : Ordered o) : (ps : List (Drop (Fl rnd) × Fl rnd)) →
    (dest dest' : Line (Fl rnd)) → (∀ p ∈ ps, 0 < p.1.size.val ∧ StartsBefore o dest.n p.1) →
    o.toCells ps dest = .ok dest' →
    dest'.n = dest.n ∧ ∃ F : List K, List.Forall₂ (fun p f => 0 ≤ f ∧ |f - 1| ≤ drift u p.1) ps F ∧
      ∀ k (D E : Int → K), 3 ≤ k → (∀ j, Err u k (dest.at' j).val (D j) (E j)) →
        ∃ D' E' : Int → K, (∀ j, Err u (k + ps.length) (dest'.at' j).val (D' j) (E' j)) ∧
          ∑ j ∈ Finset.range dest.n, D' (j : Int) = ∑ j ∈ Finset.range dest.n, D (j : Int) +
            ((ps.zip F).map fun q => q.1.2.val * q.2).sum ∧
          ∑ j ∈ Finset.range dest.n, E' (j : Int) = ∑ j ∈ Finset.range dest.n, E (j : Int) +
            ((ps.zip F).map fun q => |q.1.2.val| * q.2).sum
  | [], dest, dest', _, h => by
    injection h with h
    subst h
    exact ⟨rfl, [], .nil, fun k D E _ he => ⟨D, E, he, by simp, by simp⟩⟩
  | (p, src) :: ps, dest, dest', hp, h => by
    unfold Op.toCells at h
    obtain ⟨i, h0, h⟩ := Outcome.bind_eq_ok.1 h
    obtain ⟨d1, h1, h⟩ := Outcome.bind_eq_ok.1 h
    obtain ⟨hs, hb⟩ := hp (p, src) (by simp)
    obtain ⟨n1, w, w1, w2, w3, w4, -, w5⟩ := spread_err hf o hm src p.size _ hs _ i _ dest d1 (fun _ hi => hb i h0 hi) h1
    obtain ⟨n2, F, f1, f2⟩ := toCells_err hf o hm ps d1 dest' (fun q hq => by rw [n1]; exact hp q (by simp [hq])) h
    have hr : (p.loc + 1 / 2 * p.size).val = rnd (p.loc.val + rnd (p.size.val / 2)) := by
      rw [val_add, val_mul, val_div, val_one, val_two, hf.half]
      congr 3
      ring
    have hL := length_close hf hs hr
    refine ⟨n2.trans n1, _ :: F, .cons ⟨div_nonneg (le_max_left _ _) hs.le, hL⟩ f1, fun k D E hk he => ?_⟩
    obtain ⟨D', E', e1, e2, e3⟩ := f2 (k + 1) (fun j => D j + src.val * w j / p.size.val) (fun j => E j + |src.val| * w j / p.size.val)
      (by omega) (fun j => w5 j k _ _ hk (he j))
    refine ⟨D', E', fun j => ?_, ?_, ?_⟩
    · have := e1 j
      rwa [show k + 1 + ps.length = k + ((p, src) :: ps).length by simp; omega] at this
    · rw [← n1, e2, n1, Finset.sum_add_distrib, sum_scale _ _ _ _ _ w3, List.zip_cons_cons, List.map_cons, List.sum_cons]
      unfold leftEnd
      ring
    · rw [← n1, e3, n1, Finset.sum_add_distrib, sum_scale _ _ _ _ _ w3, List.zip_cons_cons, List.map_cons, List.sum_cons]
      unfold leftEnd
      ring

/-- C106. Depositing particles in floating point: whenever it succeeds, the exact sum of the numbers in the cells is the sum of the particles' values, up
to the drift of each particle and as many roundings as there are particles, and three more. -/
theorem _root_.SpatialOps.C106_deposit_conserves [FloorRing K] (hf : Format u rnd) (o : Op (Fl rnd)) (hm : Ordered o)
    (ps : List (Drop (Fl rnd) × Fl rnd)) (dest dest' : Line (Fl rnd)) (hp : ∀ p ∈ ps, 0 < p.1.size.val ∧ StartsBefore o dest.n p.1)
    (h : o.particleToCell ps dest = .ok dest') :
    |total dest' - (ps.map fun p => p.2.val).sum| ≤
      (ps.map fun p => |p.2.val| * (drift u p.1 + grow u (ps.length + 3) * (1 + drift u p.1))).sum := by
  have u0 := hf.nonneg
  obtain ⟨n1, F, f1, f2⟩ := toCells_err hf o hm ps ⟨dest.n, fun _ => 0⟩ dest' hp h
  obtain ⟨D, E, e1, e2, e3⟩ := f2 3 (fun _ => 0) (fun _ => 0) le_rfl (fun j => ⟨by simp [show (0 : Fl rnd).val = 0 from rfl], by simp⟩)
  rw [Finset.sum_const_zero, zero_add] at e2 e3
  dsimp only at n1 e2 e3
  have h1 : |total dest' - ((ps.zip F).map fun q => q.1.2.val * q.2).sum| ≤
      grow u (ps.length + 3) * ((ps.zip F).map fun q => |q.1.2.val| * q.2).sum := by
    rw [← e2, ← e3, Finset.mul_sum]
    unfold total
    rw [n1, ← Finset.sum_sub_distrib]
    refine (Finset.abs_sum_le_sum_abs _ _).trans (Finset.sum_le_sum fun j _ => ?_)
    rw [Nat.add_comm ps.length 3]
    exact (e1 j).1
  have h2 : |((ps.zip F).map fun q => q.1.2.val * q.2).sum - (ps.map fun p => p.2.val).sum| ≤ (ps.map fun p => |p.2.val| * drift u p.1).sum ∧
      ((ps.zip F).map fun q => |q.1.2.val| * q.2).sum ≤ (ps.map fun p => |p.2.val| * (1 + drift u p.1)).sum := by
    clear h1 e1 e2 e3 f2 h hp
    induction f1 with
    | nil => simp
    | @cons p f ps F hpf _ ih =>
      obtain ⟨ih1, ih2⟩ := ih
      simp only [List.zip_cons_cons, List.map_cons, List.sum_cons]
      constructor
      · have a1 : |p.2.val * f - p.2.val| ≤ |p.2.val| * drift u p.1 := by
          rw [show p.2.val * f - p.2.val = p.2.val * (f - 1) by ring, abs_mul]
          exact mul_le_mul_of_nonneg_left hpf.2 (abs_nonneg _)
        rw [add_sub_add_comm]
        exact (abs_add_le _ _).trans (add_le_add a1 ih1)
      · have a2 : f ≤ 1 + drift u p.1 := by
          have := (abs_le.1 hpf.2).2
          linarith
        exact add_le_add (mul_le_mul_of_nonneg_left a2 (abs_nonneg _)) ih2
  have h3 := abs_sub_le (total dest') ((ps.zip F).map fun q => q.1.2.val * q.2).sum (ps.map fun p => p.2.val).sum
  have h4 := mul_le_mul_of_nonneg_left h2.2 (grow_nonneg u0 (ps.length + 3))
  have h5 : (ps.map fun p => |p.2.val| * (drift u p.1 + grow u (ps.length + 3) * (1 + drift u p.1))).sum =
      (ps.map fun p => |p.2.val| * drift u p.1).sum + grow u (ps.length + 3) * (ps.map fun p => |p.2.val| * (1 + drift u p.1)).sum := by
    generalize grow u (ps.length + 3) = g
    clear * -
    induction ps with
    | nil => simp
    | cons p ps ih =>
      simp only [List.map_cons, List.sum_cons, ih]
      ring
  rw [h5]
  linarith [h2.1]

/-! ## Interpolation -/

/-- C106. Interpolating a field to particles in floating point: whenever it succeeds and the values of the field are within `r` of `c`, so are those of the particles,
up to the drift and as many roundings as there are cells, and three more. With `r = 0`: constants are kept up to rounding. -/
theorem _root_.SpatialOps.C106_interpolation_close [FloorRing K] (hf : Format u rnd) (o : Op (Fl rnd)) (hm : Ordered o) (src : Line (Fl rnd))
    (c r : K) (hc : ∀ i : Int, 0 ≤ i → i < src.n → |(src.at' i).val - c| ≤ r) (hr0 : 0 ≤ r) (ps : List (Drop (Fl rnd)))
    (hp : ∀ p ∈ ps, 0 < p.size.val ∧ StartsBefore o src.n p) (vs : List (Fl rnd)) (h : o.cellToParticle src ps = .ok vs) :
    List.Forall₂ (fun p v => |v.val - c| ≤ r * (1 + drift u p) + |c| * drift u p +
      grow u (o.coord.n + 3) * ((|c| + r) * (1 + drift u p))) ps vs := by
  have u0 := hf.nonneg
  induction ps generalizing vs with
  | nil => injection h with h; subst h; exact .nil
  | cons p ps ih =>
    unfold Op.cellToParticle at h
    obtain ⟨i, h0, h⟩ := Outcome.bind_eq_ok.1 h
    obtain ⟨v, h1, h⟩ := Outcome.bind_eq_ok.1 h
    obtain ⟨ws, h2, h⟩ := Outcome.bind_eq_ok.1 h
    injection h with h
    subst h
    obtain ⟨hs, hb⟩ := hp p (by simp)
    refine .cons ?_ (ih (fun q hq => hp q (by simp [hq])) ws h2)
    obtain ⟨w, w1, -, w3, -, w4⟩ := gather_err hf o hm src p.size _ hs _ i _ _ v (fun _ hi => hb i h0 hi) h1
    have hr : (p.loc + p.size / 2).val = rnd (p.loc.val + rnd (p.size.val / 2)) := by
      rw [val_add, val_div, val_two]
    have hL := length_close hf hs hr
    have hw := w4 3 0 0 le_rfl ⟨by simp [show (0 : Fl rnd).val = 0 from rfl], by simp⟩
    rw [zero_add, zero_add, Nat.add_comm 3] at hw
    have w3 : ∑ j ∈ Finset.range src.n, w (j : Int) = max 0 ((p.loc + p.size / 2).val - leftEnd p) := w3
    generalize max 0 ((p.loc + p.size / 2).val - leftEnd p) = L at *
    have hL0 : 0 ≤ L := w3 ▸ Finset.sum_nonneg fun j _ => w1 j
    have hq0 : 0 ≤ L / p.size.val := div_nonneg hL0 hs.le
    have hq1 : L / p.size.val ≤ 1 + drift u p := by
      have := (abs_le.1 hL).2
      linarith
    have b1 : |∑ j ∈ Finset.range src.n, (src.at' (j : Int)).val * w j / p.size.val - c * (L / p.size.val)| ≤ r * (L / p.size.val) := by
      rw [← sum_scale src.n c p.size.val w L w3, ← sum_scale src.n r p.size.val w L w3, ← Finset.sum_sub_distrib]
      refine (Finset.abs_sum_le_sum_abs _ _).trans (Finset.sum_le_sum fun j hj => ?_)
      have hj : j < src.n := Finset.mem_range.1 hj
      rw [show (src.at' (j : Int)).val * w j / p.size.val - c * w j / p.size.val = ((src.at' (j : Int)).val - c) * (w j / p.size.val) by ring,
        abs_mul, abs_of_nonneg (div_nonneg (w1 j) hs.le), mul_div_assoc]
      exact mul_le_mul_of_nonneg_right (hc j (by omega) (by omega)) (div_nonneg (w1 j) hs.le)
    have b2 : ∑ j ∈ Finset.range src.n, |(src.at' (j : Int)).val| * w j / p.size.val ≤ (|c| + r) * (L / p.size.val) := by
      rw [← sum_scale src.n (|c| + r) p.size.val w L w3]
      refine Finset.sum_le_sum fun j hj => ?_
      have hj : j < src.n := Finset.mem_range.1 hj
      have a1 := hc j (by omega) (by omega)
      have a2 := abs_add_le ((src.at' (j : Int)).val - c) c
      rw [sub_add_cancel] at a2
      rw [mul_div_assoc, mul_div_assoc]
      exact mul_le_mul_of_nonneg_right (by linarith) (div_nonneg (w1 j) hs.le)
    have c1 := hw.1.trans (mul_le_mul_of_nonneg_left b2 (grow_nonneg u0 (o.coord.n + 3)))
    have c2 : (|c| + r) * (L / p.size.val) ≤ (|c| + r) * (1 + drift u p) :=
      mul_le_mul_of_nonneg_left hq1 (by positivity)
    have c3 := mul_le_mul_of_nonneg_left c2 (grow_nonneg u0 (o.coord.n + 3))
    have c4 : |c * (L / p.size.val) - c| ≤ |c| * drift u p := by
      rw [show c * (L / p.size.val) - c = c * (L / p.size.val - 1) by ring, abs_mul]
      exact mul_le_mul_of_nonneg_left hL (abs_nonneg _)
    have c5 := mul_le_mul_of_nonneg_left hq1 hr0
    have d1 := abs_sub_le v.val (∑ j ∈ Finset.range src.n, (src.at' (j : Int)).val * w j / p.size.val) (c * (L / p.size.val))
    have d2 := abs_sub_le v.val (c * (L / p.size.val)) c
    linarith

/-! ## Where it goes -/

theorem right_half (hf : Format u rnd) (p : Drop (Fl rnd)) : (p.loc + 1 / 2 * p.size).val = rightEnd p := by
  unfold rightEnd
  rw [val_add, val_mul, val_div, val_one, val_two, hf.half, val_add, val_div, val_two]
  congr 3
  ring

/-- C106. Depositing particles in floating point: whenever it succeeds, the number in each cell is the sum, over the particles, of the value times the part of
the particle that lies in the cell, up to as many roundings as there are particles, and three more. -/
theorem _root_.SpatialOps.C106_deposit_placed [FloorRing K] (hf : Format u rnd) (o : Op (Fl rnd)) (hm : Ordered o)
    (ps : List (Drop (Fl rnd) × Fl rnd)) (dest dest' : Line (Fl rnd)) (hp : ∀ p ∈ ps, 0 < p.1.size.val ∧ StartsBefore o dest.n p.1)
    (h : o.particleToCell ps dest = .ok dest') :
    ∃ starts : List Int, List.Forall₂ (fun p i => o.start dest.n p.1 = .ok i) ps starts ∧
      ∀ j : Int, 0 ≤ j → j < o.coord.n →
        |(dest'.at' j).val - ((ps.zip starts).map fun q => q.1.2.val * (portion o q.2 (leftEnd q.1.1) (rightEnd q.1.1) j / q.1.1.size.val)).sum| ≤
          grow u (ps.length + 3) *
            ((ps.zip starts).map fun q => |q.1.2.val| * (portion o q.2 (leftEnd q.1.1) (rightEnd q.1.1) j / q.1.1.size.val)).sum := by
  have key : ∀ (ps : List (Drop (Fl rnd) × Fl rnd)) (dest dest' : Line (Fl rnd)),
      (∀ p ∈ ps, 0 < p.1.size.val ∧ StartsBefore o dest.n p.1) → o.toCells ps dest = .ok dest' →
      ∃ starts : List Int, List.Forall₂ (fun p i => o.start dest.n p.1 = .ok i) ps starts ∧
        ∀ j : Int, 0 ≤ j → j < o.coord.n → ∀ k D E, 3 ≤ k → Err u k (dest.at' j).val D E →
          Err u (k + ps.length) (dest'.at' j).val
            (D + ((ps.zip starts).map fun q => q.1.2.val * (portion o q.2 (leftEnd q.1.1) (rightEnd q.1.1) j / q.1.1.size.val)).sum)
            (E + ((ps.zip starts).map fun q => |q.1.2.val| * (portion o q.2 (leftEnd q.1.1) (rightEnd q.1.1) j / q.1.1.size.val)).sum) := by
    intro ps
    induction ps with
    | nil =>
      intro dest dest' _ h
      injection h with h
      subst h
      exact ⟨[], .nil, fun j _ _ k D E _ he => by simpa using he⟩
    | cons q ps ih =>
      obtain ⟨p, src⟩ := q
      intro dest dest' hp h
      unfold Op.toCells at h
      obtain ⟨i, h0, h⟩ := Outcome.bind_eq_ok.1 h
      obtain ⟨d1, h1, h⟩ := Outcome.bind_eq_ok.1 h
      obtain ⟨hs, hb⟩ := hp (p, src) (by simp)
      obtain ⟨n1, w, -, -, -, -, w6, w5⟩ := spread_err hf o hm src p.size _ hs _ i _ dest d1 (fun _ hi => hb i h0 hi) h1
      obtain ⟨S, s1, s2⟩ := ih d1 dest' (fun q hq => by rw [n1]; exact hp q (by simp [hq])) h
      rw [n1] at s1
      refine ⟨i :: S, .cons h0 s1, fun j j0 j1 k D E hk he => ?_⟩
      have e := s2 j j0 j1 (k + 1) _ _ (by omega) (w5 j k D E hk he)
      rw [w6 j j1, right_half hf] at e
      rw [List.zip_cons_cons, List.map_cons, List.map_cons, List.sum_cons, List.sum_cons, ← add_assoc D, ← add_assoc E,
        show k + ((p, src) :: ps).length = k + 1 + ps.length by simp; omega]
      dsimp only
      rw [← mul_div_assoc, ← mul_div_assoc]
      exact e
  obtain ⟨S, s1, s2⟩ := key ps ⟨dest.n, fun _ => 0⟩ dest' hp h
  refine ⟨S, s1, fun j j0 j1 => ?_⟩
  have := (s2 j j0 j1 3 0 0 le_rfl ⟨by simp [show (0 : Fl rnd).val = 0 from rfl], by simp⟩).1
  rwa [zero_add, zero_add, Nat.add_comm 3] at this

/-- C106. Interpolating a field to particles in floating point: whenever it succeeds, a particle receives the sum, over the cells, of the value times the part of
the particle that lies in the cell, up to as many roundings as there are cells, and three more. -/
theorem _root_.SpatialOps.C106_interpolation_weighted [FloorRing K] (hf : Format u rnd) (o : Op (Fl rnd)) (hm : Ordered o) (src : Line (Fl rnd))
    (hn : src.n = o.coord.n) (ps : List (Drop (Fl rnd))) (hp : ∀ p ∈ ps, 0 < p.size.val ∧ StartsBefore o src.n p) (vs : List (Fl rnd))
    (h : o.cellToParticle src ps = .ok vs) :
    List.Forall₂ (fun p v => ∃ i, o.start src.n p = .ok i ∧
      |v.val - ∑ j ∈ Finset.range src.n, (src.at' (j : Int)).val * (portion o i (leftEnd p) (rightEnd p) j / p.size.val)| ≤
        grow u (o.coord.n + 3) *
          ∑ j ∈ Finset.range src.n, |(src.at' (j : Int)).val| * (portion o i (leftEnd p) (rightEnd p) j / p.size.val)) ps vs := by
  induction ps generalizing vs with
  | nil => injection h with h; subst h; exact .nil
  | cons p ps ih =>
    unfold Op.cellToParticle at h
    obtain ⟨i, h0, h⟩ := Outcome.bind_eq_ok.1 h
    obtain ⟨v, h1, h⟩ := Outcome.bind_eq_ok.1 h
    obtain ⟨ws, h2, h⟩ := Outcome.bind_eq_ok.1 h
    injection h with h
    subst h
    obtain ⟨hs, hb⟩ := hp p (by simp)
    refine .cons ⟨i, h0, ?_⟩ (ih (fun q hq => hp q (by simp [hq])) ws h2)
    obtain ⟨w, -, -, -, w6, w4⟩ := gather_err hf o hm src p.size _ hs _ i _ _ v (fun _ hi => hb i h0 hi) h1
    have hw := (w4 3 0 0 le_rfl ⟨by simp [show (0 : Fl rnd).val = 0 from rfl], by simp⟩).1
    rw [zero_add, zero_add, Nat.add_comm 3] at hw
    have e : ∀ g : Nat → K, ∑ j ∈ Finset.range src.n, g j * w (j : Int) / p.size.val =
        ∑ j ∈ Finset.range src.n, g j * (portion o i (leftEnd p) (rightEnd p) (j : Int) / p.size.val) := by
      intro g
      refine Finset.sum_congr rfl fun j hj => ?_
      have hj := Finset.mem_range.1 hj
      rw [w6 j (by omega), mul_div_assoc]
      rfl
    rw [e, e] at hw
    exact hw

/-! ## On the mesh the operators assume -/

theorem mesh_end {o : Op (Fl rnd)} {n : Nat} (hm : Mesh o n) {i : Int} (h0 : 0 ≤ i) (h1 : i < n) :
    cellEnd o i = rnd ((i : K) * o.dx.val) := by
  unfold cellEnd
  rw [val_add, val_div, val_two, hm.half, hm.centre i h0 h1]
  congr 1
  ring

theorem mesh_ordered {o : Op (Fl rnd)} {n : Nat} (hn : Nearest rnd n) (hm : Mesh o n) : Ordered o := by
  intro i h0 h1
  rw [hm.count] at h1
  rw [mesh_end hm h0 (by omega), mesh_end hm (by omega) h1]
  apply hn.mono
  push_cast
  nlinarith [hm.spacing]

theorem mesh_start [FloorRing K] (hf : Format u rnd) {o : Op (Fl rnd)} {n : Nat} (hn : Nearest rnd n) (hm : Mesh o n) {p : Drop (Fl rnd)}
    (hp : OnLine u o n p) : ∃ i : Int, o.start n p = .ok i ∧ 1 ≤ i ∧ i < n ∧ leftEnd p ≤ cellEnd o i := by
  have u0 := hf.nonneg
  have hdx := hm.spacing
  have r0 : rnd 0 = 0 := by
    have := hf.close 0
    simpa using this
  have hl : leftEnd p = rnd (p.loc.val - p.size.val / 2) := by
    unfold leftEnd
    rw [val_sub, val_div, val_two, hp.half]
  have up : ∀ x : K, 0 ≤ x → rnd x ≤ (1 + u) * x := by
    intro x hx
    have := (abs_le.1 (hf.close x)).2
    rw [abs_of_nonneg hx] at this
    linarith
  have l0 : 0 ≤ leftEnd p := by
    rw [hl, ← r0]
    exact hn.mono _ _ hp.left
  have l1 : leftEnd p ≤ (1 + u) * (p.loc.val - p.size.val / 2) := by
    rw [hl]
    exact up _ hp.left
  have hq : ((p.loc - p.size / 2) / o.dx).val = rnd (leftEnd p / o.dx.val) := rfl
  have q0 : 0 ≤ leftEnd p / o.dx.val := div_nonneg l0 hdx.le
  have q1 : 0 ≤ rnd (leftEnd p / o.dx.val) := by
    rw [← r0]
    exact hn.mono _ _ q0
  have m1 : (1 + u) * (leftEnd p / o.dx.val) < (n : K) - 1 := by
    rw [← mul_div_assoc, div_lt_iff₀ hdx]
    refine lt_of_le_of_lt ?_ hp.margin
    have := mul_le_mul_of_nonneg_left l1 (show 0 ≤ 1 + u by linarith)
    calc _ ≤ _ := this
      _ = _ := by ring
  have m2 : rnd (leftEnd p / o.dx.val) < (n : K) - 1 := (up _ q0).trans_lt m1
  have m3 : leftEnd p / o.dx.val < (n : K) - 1 := by
    refine lt_of_le_of_lt ?_ m1
    nlinarith
  have g0 := Int.floor_nonneg.2 q1
  have g1 := Int.floor_le (rnd (leftEnd p / o.dx.val))
  have f0 := Int.floor_nonneg.2 q0
  have f1 := Int.floor_le (leftEnd p / o.dx.val)
  have f2 := Int.lt_floor_add_one (leftEnd p / o.dx.val)
  have below : ∀ k : Int, (k : K) < (n : K) - 1 → k + 1 < n := by
    intro k hk
    have : ((k + 1 : Int) : K) < ((n : Int) : K) := by
      push_cast
      linarith
    exact_mod_cast this
  have hg := below _ (g1.trans_lt m2)
  have hff := below _ (f1.trans_lt m3)
  have fg : ⌊leftEnd p / o.dx.val⌋ ≤ ⌊rnd (leftEnd p / o.dx.val)⌋ := by
    rw [Int.le_floor]
    have h1 : ((⌊leftEnd p / o.dx.val⌋.toNat : Nat) : K) = (⌊leftEnd p / o.dx.val⌋ : K) := by
      rw [← Int.cast_natCast, Int.toNat_of_nonneg f0]
    have h2 := hn.whole ⌊leftEnd p / o.dx.val⌋.toNat (by omega)
    rw [h1] at h2
    rw [← h2]
    exact hn.mono _ _ f1
  refine ⟨⌊rnd (leftEnd p / o.dx.val)⌋ + 1, ?_, by omega, by omega, ?_⟩
  · unfold Op.start
    have hne : o.dx ≠ 0 := fun h => hdx.ne' (by rw [h]; rfl)
    rw [Outcome.ubUnless_true hne, Outcome.ok_bind]
    have ht : ToInt.toInt ((p.loc - p.size / 2) / o.dx) = ⌊rnd (leftEnd p / o.dx.val)⌋ := by
      show trunc _ = _
      unfold trunc
      rw [hq, if_pos q1]
    rw [ht]
    dsimp only
    rw [Outcome.throwIf_false (by omega)]
    rfl
  · rw [mesh_end hm (by omega) (by omega)]
    have : leftEnd p = rnd (leftEnd p) := by rw [hl, hn.idem]
    refine this.trans_le (hn.mono _ _ ?_)
    rw [div_lt_iff₀ hdx] at f2
    have fg' : (⌊leftEnd p / o.dx.val⌋ : K) ≤ (⌊rnd (leftEnd p / o.dx.val)⌋ : K) := by exact_mod_cast fg
    push_cast
    nlinarith

omit [IsStrictOrderedRing K] in
theorem right_ok {o : Op (Fl rnd)} {n : Nat} (hm : Mesh o n) (right : Fl rnd) {i : Int} (h0 : 0 ≤ i) (h1 : i < n) :
    ∃ rb, o.right right i = .ok rb ∧ rb.val = min right.val (cellEnd o i) := by
  have : ∃ rb, o.right right i = .ok rb := by
    unfold Op.right Line.get
    rw [hm.count, if_pos ⟨h0, h1⟩]
    exact ⟨_, rfl⟩
  obtain ⟨rb, h⟩ := this
  exact ⟨rb, h, (right_eq h).2⟩

omit [IsStrictOrderedRing K] in
theorem next_cell {o : Op (Fl rnd)} {n : Nat} {right rb : Fl rnd} {i : Int} (hend : right.val ≤ cellEnd o ((n : Int) - 1)) (h1 : i < n)
    (hrb : rb.val = min right.val (cellEnd o i)) (hlt : rb < right) : i + 1 < n := by
  by_contra hge
  have : i = (n : Int) - 1 := by omega
  subst this
  rw [min_eq_left hend] at hrb
  rw [lt_iff, hrb] at hlt
  exact lt_irrefl _ hlt

omit [IsStrictOrderedRing K] in
theorem spread_ok {o : Op (Fl rnd)} {n : Nat} (hm : Mesh o n) (src size right : Fl rnd)
    (hend : right.val ≤ cellEnd o ((n : Int) - 1)) : (fuel : Nat) → (i : Int) → (left : Fl rnd) → (dest : Line (Fl rnd)) → dest.n = n →
    0 ≤ i → (left < right → i < n) → (n : Int) - i + 1 ≤ fuel → 1 ≤ fuel → ∃ dest', o.spread src size right fuel i left dest = .ok dest' ∧ dest'.n = n
  | 0, _, _, _, _, _, _, _, h => by omega
  | fuel + 1, i, left, dest, hd, h0, hi, hfu, _ => by
    unfold Op.spread
    split_ifs with hlt
    · have h1 := hi hlt
      obtain ⟨rb, e1, e2⟩ := right_ok hm right h0 h1
      rw [e1, Outcome.ok_bind]
      unfold Line.add
      rw [hd, if_pos ⟨h0, h1⟩, Outcome.ok_bind]
      exact spread_ok hm src size right hend fuel (i + 1) rb _ rfl (by omega) (fun h => next_cell hend h1 e2 h) (by omega) (by omega)
    · exact ⟨dest, rfl, hd⟩

omit [IsStrictOrderedRing K] in
theorem gather_ok {o : Op (Fl rnd)} {n : Nat} (hm : Mesh o n) (src : Line (Fl rnd)) (hs : src.n = n) (size right : Fl rnd)
    (hend : right.val ≤ cellEnd o ((n : Int) - 1)) : (fuel : Nat) → (i : Int) → (left val : Fl rnd) →
    0 ≤ i → (left < right → i < n) → (n : Int) - i + 1 ≤ fuel → 1 ≤ fuel → ∃ v, o.gather src size right fuel i left val = .ok v
  | 0, _, _, _, _, _, _, h => by omega
  | fuel + 1, i, left, val, h0, hi, hfu, _ => by
    unfold Op.gather
    split_ifs with hlt
    · have h1 := hi hlt
      obtain ⟨rb, e1, e2⟩ := right_ok hm right h0 h1
      rw [e1, Outcome.ok_bind]
      unfold Line.get
      rw [hs, if_pos ⟨h0, h1⟩, Outcome.ok_bind]
      exact gather_ok hm src hs size right hend fuel (i + 1) rb _ (by omega) (fun h => next_cell hend h1 e2 h) (by omega) (by omega)
    · exact ⟨val, rfl⟩

theorem mesh_right {o : Op (Fl rnd)} {n : Nat} (hn : Nearest rnd n) (hm : Mesh o n) {p : Drop (Fl rnd)} (hp : OnLine u o n p) (h1 : 1 ≤ n) {right : Fl rnd}
    (hr : right.val = rnd (p.loc.val + rnd (p.size.val / 2))) : right.val ≤ cellEnd o ((n : Int) - 1) := by
  rw [hr, hp.half, mesh_end hm (by omega) (by omega)]
  apply hn.mono
  have := hp.right
  push_cast
  exact this

theorem toCells_ok [FloorRing K] (hf : Format u rnd) {o : Op (Fl rnd)} {n : Nat} (hn : Nearest rnd n) (hm : Mesh o n) :
    (ps : List (Drop (Fl rnd) × Fl rnd)) → (∀ p ∈ ps, OnLine u o n p.1) → (dest : Line (Fl rnd)) → dest.n = n →
    ∃ dest', o.toCells ps dest = .ok dest'
  | [], _, dest, _ => ⟨dest, rfl⟩
  | (p, src) :: ps, hp, dest, hd => by
    have hp1 := hp (p, src) (by simp)
    obtain ⟨i, h1, h2, h3, -⟩ := mesh_start hf hn hm hp1
    have hr : (p.loc + 1 / 2 * p.size).val = rnd (p.loc.val + rnd (p.size.val / 2)) := by
      rw [val_add, val_mul, val_div, val_one, val_two, hf.half]
      congr 3
      ring
    obtain ⟨d, e1, e2⟩ := spread_ok hm src p.size _ (mesh_right hn hm hp1 (by omega) hr) (o.coord.n + 1) i (p.loc - p.size / 2) dest hd
      (by omega) (fun _ => h3) (by rw [hm.count]; push_cast; omega) (by omega)
    unfold Op.toCells
    rw [hd, h1, Outcome.ok_bind, e1, Outcome.ok_bind]
    exact toCells_ok hf hn hm ps (fun q hq => hp q (by simp [hq])) d e2

theorem cellToParticle_ok [FloorRing K] (hf : Format u rnd) {o : Op (Fl rnd)} {n : Nat} (hn : Nearest rnd n) (hm : Mesh o n) (src : Line (Fl rnd))
    (hs : src.n = n) : (ps : List (Drop (Fl rnd))) → (∀ p ∈ ps, OnLine u o n p) → ∃ vs, o.cellToParticle src ps = .ok vs
  | [], _ => ⟨[], rfl⟩
  | p :: ps, hp => by
    have hp1 := hp p (by simp)
    obtain ⟨i, h1, h2, h3, -⟩ := mesh_start hf hn hm hp1
    have hr : (p.loc + p.size / 2).val = rnd (p.loc.val + rnd (p.size.val / 2)) := by
      rw [val_add, val_div, val_two]
    obtain ⟨v, e1⟩ := gather_ok hm src hs p.size _ (mesh_right hn hm hp1 (by omega) hr) (o.coord.n + 1) i (p.loc - p.size / 2) 0
      (by omega) (fun _ => h3) (by rw [hm.count]; push_cast; omega) (by omega)
    obtain ⟨vs, e2⟩ := cellToParticle_ok hf hn hm src hs ps (fun q hq => hp q (by simp [hq]))
    unfold Op.cellToParticle
    rw [hs, h1, Outcome.ok_bind, e1, Outcome.ok_bind, e2, Outcome.ok_bind]
    exact ⟨_, rfl⟩

/-- A particle on the mesh meets the conditions of the theorems above. -/
theorem mesh_before [FloorRing K] (hf : Format u rnd) {n : Nat} (hn : Nearest rnd n) {o : Op (Fl rnd)} (hm : Mesh o n) {p : Drop (Fl rnd)}
    (hp : OnLine u o n p) : 0 < p.size.val ∧ StartsBefore o n p := by
  refine ⟨hp.size, fun i hi _ => ?_⟩
  obtain ⟨j, h1, -, -, h2⟩ := mesh_start hf hn hm hp
  rw [h1] at hi
  injection hi with hi
  rw [← hi]
  exact h2

/-- C106. On the mesh the operators assume, particles that lie on it never make the operators fail or leave the memory, in spite of rounding: both succeed, with the errors of
`C106_deposit_conserves` and `C106_interpolation_close`. -/
theorem _root_.SpatialOps.C106_on_mesh [FloorRing K] (hf : Format u rnd) (n : Nat) (hn : Nearest rnd n) (o : Op (Fl rnd)) (hm : Mesh o n)
    (ps : List (Drop (Fl rnd) × Fl rnd)) (hp : ∀ p ∈ ps, OnLine u o n p.1) (dest src : Line (Fl rnd)) (hd : dest.n = n) (hs : src.n = n)
    (c r : K) (hr0 : 0 ≤ r) (hc : ∀ i : Int, 0 ≤ i → i < n → |(src.at' i).val - c| ≤ r) :
    (∃ dest', o.particleToCell ps dest = .ok dest' ∧
      |total dest' - (ps.map fun p => p.2.val).sum| ≤
        (ps.map fun p => |p.2.val| * (drift u p.1 + grow u (ps.length + 3) * (1 + drift u p.1))).sum) ∧
    ∃ vs, o.cellToParticle src (ps.map Prod.fst) = .ok vs ∧
      List.Forall₂ (fun p v => |v.val - c| ≤ r * (1 + drift u p) + |c| * drift u p +
        grow u (n + 3) * ((|c| + r) * (1 + drift u p))) (ps.map Prod.fst) vs := by
  have hb : ∀ p, OnLine u o n p → 0 < p.size.val ∧ StartsBefore o n p := fun p hp => mesh_before hf hn hm hp
  have hq : ∀ p ∈ ps.map Prod.fst, OnLine u o n p := by
    intro p h
    obtain ⟨q, h1, h2⟩ := List.mem_map.1 h
    rw [← h2]
    exact hp q h1
  constructor
  · obtain ⟨dest', h⟩ := toCells_ok hf hn hm ps hp ⟨dest.n, fun _ => 0⟩ hd
    exact ⟨dest', h, C106_deposit_conserves hf o (mesh_ordered hn hm) ps dest dest' (fun p h => by rw [hd]; exact hb _ (hp p h)) h⟩
  · obtain ⟨vs, h⟩ := cellToParticle_ok hf hn hm src hs (ps.map Prod.fst) hq
    refine ⟨vs, h, ?_⟩
    have := C106_interpolation_close hf o (mesh_ordered hn hm) src c r (by rw [hs]; exact hc) hr0 (ps.map Prod.fst)
      (fun p h => by rw [hs]; exact hb _ (hq p h)) vs h
    rwa [hm.count] at this

end

/-! ## `double` -/

section
variable {K : Type} [Field K] [LinearOrder K] [IsStrictOrderedRing K] [FloorRing K]

/-- A number with few digits is kept. -/
theorem roundEven_kept {p : Nat} (hp : 1 ≤ p) {x : K} (h : HasDigits p x) : roundEven p x = x := by
  have := ((C77_nearest_even p hp x).2 x h).1
  rw [sub_self, abs_zero] at this
  exact sub_eq_zero.1 (abs_nonpos_iff.1 this)

/-- C106. The rounding of `double` is one for `C106_on_mesh`, for meshes of up to 2^53 cells. -/
theorem _root_.SpatialOps.C106_double_is_nearest (p : Nat) (hp : 1 ≤ p) (n : Nat) (hn : n ≤ 2 ^ p) : Nearest (roundEven (K := K) p) n where
  mono _ _ h := roundEven_mono hp h
  idem x := roundEven_kept hp (C77_nearest_even p hp x).1
  whole k hk := by
    apply roundEven_kept hp
    refine ⟨k, 0, ?_, by simp⟩
    rw [abs_of_nonneg (by omega)]
    have : k < 2 ^ p := lt_of_lt_of_le hk hn
    exact_mod_cast this

/-- C106. The drift cannot be left out: on a mesh of `double`s that is at least 2 wide, this particle deposits nothing, whatever its value, and receives
zero, whatever the field. -/
theorem _root_.SpatialOps.C106_small_particle_lost (n : Nat) (hn : n ≤ 2 ^ 53) (o : Op (Fl (K := K) (roundEven 53))) (hm : Mesh o n)
    (h2 : 2 ≤ ((n : K) - 1) * o.dx.val) : ∃ p : Drop (Fl (K := K) (roundEven 53)), OnLine ((2 : K) ^ (-53 : Int)) o n p ∧
      ∀ (src : Fl (K := K) (roundEven 53)) (dest f : Line (Fl (K := K) (roundEven 53))), dest.n = n → f.n = n →
        o.particleToCell [(p, src)] dest = .ok ⟨n, fun _ => 0⟩ ∧ o.cellToParticle f [p] = .ok [0] := by
  have hf : Format ((2 : K) ^ (-53 : Int)) (roundEven 53) := C77_nearest_even_is_format 53 (by norm_num)
  have hne := C106_double_is_nearest (K := K) 53 (by norm_num) n hn
  have r1 : roundEven 53 (1 / 2 ^ 54 / 2 : K) = 1 / 2 ^ 54 / 2 := by
    have := roundEven_two_pow (K := K) (p := 53) (by norm_num) (-55)
    rw [show (1 / 2 ^ 54 / 2 : K) = (2 : K) ^ (-55 : Int) by norm_num]
    exact this
  have r2 : roundEven 53 (1 + 1 / 2 ^ 54 / 2 : K) = 1 := by
    rw [roundEven_unit 53 (j := -52) (by norm_num [abs_of_pos]) (by norm_num [abs_of_pos]),
      nearestEven_of_lt (M := 2 ^ 52) (by norm_num [abs_of_pos])]
    norm_num
  have r3 : roundEven 53 (1 - 1 / 2 ^ 54 / 2 : K) = 1 := by
    rw [roundEven_unit 53 (j := -53) (by norm_num [abs_of_pos]) (by norm_num [abs_of_pos]),
      nearestEven_of_lt (M := 2 ^ 53) (by norm_num [abs_of_pos])]
    norm_num
  have hp : OnLine ((2 : K) ^ (-53 : Int)) o n ⟨⟨1⟩, ⟨1 / 2 ^ 54⟩⟩ := by
    refine ⟨by norm_num, r1, by norm_num, ?_, ?_⟩
    · exact le_trans (by norm_num) h2
    · exact lt_of_lt_of_le (by norm_num) h2
  refine ⟨⟨⟨1⟩, ⟨1 / 2 ^ 54⟩⟩, hp, fun src dest f hd hfn => ?_⟩
  obtain ⟨i, h1, -, -, -⟩ := mesh_start hf hne hm hp
  have e1 : ((⟨1⟩ : Fl (K := K) (roundEven 53)) - ⟨1 / 2 ^ 54⟩ / 2).val = 1 := by
    rw [val_sub, val_div, val_two]
    dsimp only
    rw [r1, r3]
  have e2 : ((⟨1⟩ : Fl (K := K) (roundEven 53)) + ⟨1 / 2 ^ 54⟩ / 2).val = 1 := by
    rw [val_add, val_div, val_two]
    dsimp only
    rw [r1, r2]
  have e3 : ((⟨1⟩ : Fl (K := K) (roundEven 53)) + 1 / 2 * ⟨1 / 2 ^ 54⟩).val = 1 := by
    rw [val_add, val_mul, val_div, val_one, val_two, hf.half]
    dsimp only
    rw [show (1 / 2 * (1 / 2 ^ 54) : K) = 1 / 2 ^ 54 / 2 by ring, r1, r2]
  constructor
  · unfold Op.particleToCell Op.toCells
    rw [hd, h1, Outcome.ok_bind]
    unfold Op.spread
    rw [if_neg (by rw [lt_iff, e1, e3]; exact lt_irrefl _)]
    rfl
  · unfold Op.cellToParticle
    rw [hfn, h1, Outcome.ok_bind]
    unfold Op.gather
    rw [if_neg (by rw [lt_iff, e1, e2]; exact lt_irrefl _)]
    rfl

end

/-! ## Non-vacuity -/

namespace ParticleRoundEx

/-- Five cells of width one, cell 0 left of the origin, in `double`. -/
def op : Op (Fl RoundEx.R) := ⟨⟨5, fun i => ⟨i - 1 / 2⟩⟩, ⟨1⟩, ⟨-1 / 2⟩⟩

theorem mesh : Mesh op 5 :=
  ⟨rfl, by norm_num [op], by show RoundEx.R (1 / 2) = 1 / 2; exact RoundEx.format.half, fun i _ _ => by simp [op]⟩

/-- A particle from 5/4 to 11/4. -/
theorem onLine : OnLine ((2 : ℚ) ^ (-53 : Int)) op 5 ⟨⟨2⟩, ⟨3 / 2⟩⟩ := by
  refine ⟨by norm_num, ?_, by norm_num, by norm_num [op], by norm_num [op]⟩
  exact roundEven_kept (by norm_num) ⟨3, -2, by norm_num, by norm_num⟩

end ParticleRoundEx

/-- Example: three particles in the same place and of the same value 1/10 give 3/10 up to less than 10^-14. -/
example : ∃ dest', ParticleRoundEx.op.particleToCell (List.replicate 3 (⟨⟨2⟩, ⟨3 / 2⟩⟩, ⟨1 / 10⟩)) ⟨5, fun _ => ⟨1⟩⟩ = .ok dest' ∧
    |total dest' - 3 / 10| ≤ 1 / 10 ^ 14 := by
  obtain ⟨⟨d, h1, h2⟩, -⟩ := C106_on_mesh RoundEx.format 5 (C106_double_is_nearest 53 (by norm_num) 5 (by norm_num)) ParticleRoundEx.op
    ParticleRoundEx.mesh (List.replicate 3 (⟨⟨2⟩, ⟨3 / 2⟩⟩, ⟨1 / 10⟩))
    (fun p hp => by rw [(List.mem_replicate.1 hp).2]; exact ParticleRoundEx.onLine) ⟨5, fun _ => ⟨1⟩⟩ ⟨5, fun _ => ⟨1⟩⟩ rfl rfl 1 0 le_rfl
    (fun i _ _ => by simp)
  refine ⟨d, h1, ?_⟩
  refine le_trans (le_of_eq ?_) (h2.trans ?_)
  · congr 2
    norm_num [List.replicate]
  · norm_num [List.replicate, drift, grow, abs_of_pos]

/-- Example: the mesh and the particle meet the conditions of `C106_deposit_placed` and `C106_interpolation_weighted`, with double precision. -/
example : Ordered ParticleRoundEx.op ∧
    (∀ p ∈ [((⟨⟨2⟩, ⟨3 / 2⟩⟩ : Drop (Fl (roundEven 53 : ℚ → ℚ))), (⟨1 / 10⟩ : Fl (roundEven 53 : ℚ → ℚ)))],
      0 < p.1.size.val ∧ StartsBefore ParticleRoundEx.op 5 p.1) ∧
    ∃ d, ParticleRoundEx.op.particleToCell [(⟨⟨2⟩, ⟨3 / 2⟩⟩, ⟨1 / 10⟩)] ⟨5, fun _ => ⟨1⟩⟩ = .ok d := by
  have hn := C106_double_is_nearest (K := ℚ) 53 (by norm_num) 5 (by norm_num)
  refine ⟨mesh_ordered hn ParticleRoundEx.mesh, fun p hp => ?_, ?_⟩
  · rw [List.mem_singleton.1 hp]
    exact mesh_before RoundEx.format hn ParticleRoundEx.mesh ParticleRoundEx.onLine
  · exact toCells_ok RoundEx.format hn ParticleRoundEx.mesh _ (fun p hp => by rw [List.mem_singleton.1 hp]; exact ParticleRoundEx.onLine) _ rfl

/-- Example: the mesh meets the condition of `C106_small_particle_lost`. -/
example : 2 ≤ (((5 : Nat) : ℚ) - 1) * ParticleRoundEx.op.dx.val := by norm_num [ParticleRoundEx.op]

end ParticleRound
end SpatialOps
