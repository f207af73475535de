import Verif.Particle.Spec
import Mathlib.Algebra.Order.Field.Rat
import Mathlib.Data.Rat.Floor
import Mathlib.Algebra.BigOperators.Field
import Mathlib.Algebra.BigOperators.Ring.Finset
import Mathlib.Tactic.FieldSimp
import Mathlib.Tactic.Ring
import Mathlib.Tactic.Linarith
import Mathlib.Tactic.NormNum

/-!
# Property C43: particle operators
-/

namespace SpatialOps
namespace Particle

section
variable {K : Type} [Field K] [LinearOrder K]

/-! ## Conservation, for every mesh -/

omit [LinearOrder K] in
theorem total_add {f g : Line K} {i : Int} {v : K} (h : f.add i v = .ok g) : g.n = f.n ∧ g.total = f.total + v := by
  unfold Line.add at h
  split_ifs at h with hi
  injection h with h
  subst h
  refine ⟨rfl, ?_⟩
  unfold Line.total
  dsimp only
  have : i.toNat ∈ Finset.range f.n := by simp; omega
  rw [← Finset.add_sum_erase _ _ this, ← Finset.add_sum_erase _ (fun j : Nat => f.at' (j : Int)) this,
    show ((i.toNat : Nat) : Int) = i by omega, if_pos rfl]
  rw [Finset.sum_congr rfl (g := fun j : Nat => f.at' (j : Int))]
  · ring
  · intro j hj
    rw [if_neg]
    have := (Finset.mem_erase.1 hj).1
    omega

theorem spread_total (o : Op K) (src size right : K) : (fuel : Nat) → (i : Int) → (left : K) → (dest dest' : Line K) →
    left ≤ right → o.spread src size right fuel i left dest = .ok dest' →
    dest'.n = dest.n ∧ dest'.total = dest.total + src * (right - left) / size
  | 0, _, _, _, _, _, h => by simp [Op.spread] at h
  | fuel + 1, i, left, dest, dest', hl, h => by
    unfold Op.spread at h
    split_ifs at h with hlt
    · obtain ⟨rb, h1, h⟩ := Outcome.bind_eq_ok.1 h
      obtain ⟨d1, h2, h⟩ := Outcome.bind_eq_ok.1 h
      have hrb : rb ≤ right := by
        unfold Op.right at h1
        obtain ⟨x, -, h1⟩ := Outcome.bind_eq_ok.1 h1
        injection h1 with h1
        split_ifs at h1 with hx
        · exact le_of_eq h1.symm
        · rw [← h1]; exact not_lt.1 hx
      obtain ⟨t1, t2⟩ := total_add h2
      obtain ⟨i1, i2⟩ := spread_total o src size right fuel (i + 1) rb d1 dest' hrb h
      refine ⟨i1.trans t1, ?_⟩
      rw [i2, t2]
      ring
    · injection h with h
      subst h
      have : left = right := le_antisymm hl (not_lt.1 hlt)
      subst this
      simp

theorem toCells_total [FloorRing K] [IsStrictOrderedRing K] (o : Op K) : (ps : List (Drop K × K)) →
    (∀ p ∈ ps, 0 < p.1.size) → (dest dest' : Line K) → o.toCells ps dest = .ok dest' →
    dest'.n = dest.n ∧ dest'.total = dest.total + (ps.map Prod.snd).sum
  | [], _, dest, dest', h => by
    injection h with h
    subst h
    simp
  | (p, src) :: ps, hp, dest, dest', h => by
    unfold Op.toCells at h
    obtain ⟨i, -, h⟩ := Outcome.bind_eq_ok.1 h
    obtain ⟨d1, h1, h⟩ := Outcome.bind_eq_ok.1 h
    have hs : 0 < p.size := hp (p, src) (by simp)
    obtain ⟨a1, a2⟩ := spread_total o _ _ _ _ _ _ _ _ (by linarith) h1
    obtain ⟨b1, b2⟩ := toCells_total o ps (fun q hq => hp q (by simp [hq])) d1 dest' h
    refine ⟨b1.trans a1, ?_⟩
    rw [b2, a2, List.map_cons, List.sum_cons]
    have : src * (p.loc + 1 / 2 * p.size - (p.loc - p.size / 2)) / p.size = src := by
      field_simp
      ring
    rw [this]
    ring

/-- C43. Whenever depositing particles on cells succeeds, whatever the mesh, the total of the
cells is the total of the particles. (Sizes are positive; `C43_no_size_deposits_nothing`.) -/
theorem _root_.SpatialOps.C43_deposit_conserves [FloorRing K] [IsStrictOrderedRing K] (o : Op K) (ps : List (Drop K × K))
    (hp : ∀ p ∈ ps, 0 < p.1.size) (dest dest' : Line K) (h : o.particleToCell ps dest = .ok dest') :
    dest'.total = (ps.map Prod.snd).sum := by
  have := (toCells_total o ps hp _ _ h).2
  rw [this]
  simp [Line.total]

theorem gather_constant (o : Op K) (src : Line K) (c : K) (hc : ∀ i : Int, 0 ≤ i → i < src.n → src.at' i = c) (size right : K) :
    (fuel : Nat) → (i : Int) → (left val v : K) → left ≤ right →
    o.gather src size right fuel i left val = .ok v → v = val + c * (right - left) / size
  | 0, _, _, _, _, _, h => by simp [Op.gather] at h
  | fuel + 1, i, left, val, v, hl, h => by
    unfold Op.gather at h
    split_ifs at h with hlt
    · obtain ⟨rb, h1, h⟩ := Outcome.bind_eq_ok.1 h
      obtain ⟨s, h2, h⟩ := Outcome.bind_eq_ok.1 h
      have hrb : rb ≤ right := by
        unfold Op.right at h1
        obtain ⟨x, -, h1⟩ := Outcome.bind_eq_ok.1 h1
        injection h1 with h1
        split_ifs at h1 with hx
        · exact le_of_eq h1.symm
        · rw [← h1]; exact not_lt.1 hx
      have hs : s = c := by
        unfold Line.get at h2
        split_ifs at h2 with hi
        injection h2 with h2
        rw [← h2]
        exact hc i hi.1 hi.2
      rw [gather_constant o src c hc size right fuel (i + 1) rb _ v hrb h, hs]
      ring
    · injection h with h
      subst h
      have : left = right := le_antisymm hl (not_lt.1 hlt)
      subst this
      simp

/-- C43. Whenever interpolating a constant field to particles succeeds, whatever the mesh, every
particle receives the constant. -/
theorem _root_.SpatialOps.C43_interpolates_constants [FloorRing K] [IsStrictOrderedRing K] (o : Op K) (src : Line K) (c : K)
    (hc : ∀ i : Int, 0 ≤ i → i < src.n → src.at' i = c) (ps : List (Drop K)) (hp : ∀ p ∈ ps, 0 < p.size) (vs : List K)
    (h : o.cellToParticle src ps = .ok vs) : vs = ps.map fun _ => c := by
  induction ps generalizing vs with
  | nil => injection h with h; exact h.symm
  | cons p ps ih =>
    unfold Op.cellToParticle at h
    obtain ⟨i, -, h⟩ := Outcome.bind_eq_ok.1 h
    obtain ⟨v, h1, h⟩ := Outcome.bind_eq_ok.1 h
    obtain ⟨ws, h2, h⟩ := Outcome.bind_eq_ok.1 h
    injection h with h
    subst h
    have hs : 0 < p.size := hp p (by simp)
    rw [List.map_cons, ih (fun q hq => hp q (by simp [hq])) ws h2,
      gather_constant o src c hc _ _ _ _ _ _ _ (by linarith) h1]
    congr 1
    field_simp
    ring

/-! ## Overlaps -/

variable [IsStrictOrderedRing K]

omit [IsStrictOrderedRing K] in
theorem overlap_clamp (dx a b : K) (h : a ≤ b) (i : Int) [IsStrictOrderedRing K] (hdx : 0 < dx) :
    overlap dx a b i = max a (min b (i * dx)) - max a (min b (((i - 1 : Int) : K) * dx)) := by
  have : ((i - 1 : Int) : K) * dx < i * dx := by push_cast; nlinarith
  unfold overlap
  rw [show ((i : K) - 1) = ((i - 1 : Int) : K) by push_cast; rfl]
  generalize ((i - 1 : Int) : K) * dx = u at *
  generalize (i : K) * dx = v at *
  rcases le_total b v with h1 | h1
  · rw [min_eq_left h1, max_eq_right h]
    rcases le_total b u with h3 | h3
    · rw [min_eq_left h3, max_eq_right h, max_eq_left, sub_self]
      have := le_max_right a u
      linarith
    · rw [min_eq_right h3, max_eq_right]
      have := max_le h h3
      linarith
  · have h3 : u ≤ b := by linarith
    rw [min_eq_right h1, min_eq_right h3]
    rcases le_total a v with h4 | h4
    · rw [max_eq_right h4, max_eq_right]
      have := max_le h4 this.le
      linarith
    · have h2 : u ≤ a := by linarith
      rw [max_eq_left h4, max_eq_left h2, sub_self, max_eq_left]
      linarith

/-- The pieces in the cells of the mesh are the whole interval. -/
theorem overlap_sum (dx a b : K) (hdx : 0 < dx) (h : a ≤ b) (n : Nat) (ha : -dx ≤ a) (hb : b ≤ ((n : K) - 1) * dx) :
    ∑ i ∈ Finset.range n, overlap dx a b (i : Int) = b - a := by
  have key : ∀ m : Nat, ∑ i ∈ Finset.range m, overlap dx a b (i : Int) =
      max a (min b (((m - 1 : Int) : K) * dx)) - max a (min b (((-1 : Int) : K) * dx)) := by
    intro m
    induction m with
    | zero => simp
    | succ m ih =>
      rw [Finset.sum_range_succ, ih, overlap_clamp dx a b h _ hdx]
      push_cast
      ring_nf
  rw [key n]
  have e1 : (((n : Int) - 1 : Int) : K) * dx = ((n : K) - 1) * dx := by push_cast; rfl
  have e2 : ((-1 : Int) : K) * dx = -dx := by push_cast; ring
  rw [e1, e2, min_eq_left hb, max_eq_right h, max_eq_left]
  exact le_trans (min_le_right _ _) ha

theorem cell_le {dx : K} (hdx : 0 < dx) {i j : Int} (h : i ≤ j) : (i : K) * dx ≤ j * dx :=
  mul_le_mul_of_nonneg_right (by exact_mod_cast h) hdx.le

/-- Cells left of the interval have no part of it. -/
theorem overlap_left {dx a b : K} (hdx : 0 < dx) {i j : Int} (hj : j < i) (ha : ((i : K) - 1) * dx ≤ a) :
    overlap dx a b j = 0 := by
  have h1 : (j : K) * dx ≤ ((i - 1 : Int) : K) * dx := cell_le hdx (by omega)
  push_cast at h1
  unfold overlap
  rw [max_eq_left]
  have := min_le_right b ((j : K) * dx)
  have := le_max_left a (((j : K) - 1) * dx)
  linarith

/-- Nor do cells right of it. -/
theorem overlap_right {dx a b : K} (hdx : 0 < dx) {i j : Int} (hj : i < j) (hb : b ≤ i * dx) :
    overlap dx a b j = 0 := by
  have h1 : (i : K) * dx ≤ ((j - 1 : Int) : K) * dx := cell_le hdx (by omega)
  push_cast at h1
  unfold overlap
  rw [max_eq_left]
  have := min_le_left b ((j : K) * dx)
  have := le_max_right a (((j : K) - 1) * dx)
  linarith

/-- Splitting the interval at the right end of cell `i`. -/
theorem overlap_split {dx a b : K} (hdx : 0 < dx) {i : Int} (ha : ((i : K) - 1) * dx ≤ a) (ha' : a ≤ i * dx) (hb : i * dx ≤ b)
    (j : Int) : overlap dx a b j = (if j = i then i * dx - a else 0) + overlap dx (i * dx) b j := by
  rcases lt_trichotomy j i with h | h | h
  · rw [if_neg (by omega), overlap_left hdx h ha,
      overlap_left (i := i + 1) hdx (by omega) (by push_cast; ring_nf; exact le_refl _), zero_add]
  · subst h
    have e : overlap dx ((j : K) * dx) b j = 0 := overlap_left (i := j + 1) hdx (by omega) (by push_cast; ring_nf; exact le_refl _)
    rw [if_pos rfl, e, add_zero]
    unfold overlap
    rw [min_eq_right hb, max_eq_left ha, max_eq_right (by linarith)]
  · rw [if_neg (by omega), zero_add]
    have h1 : (i : K) * dx ≤ ((j - 1 : Int) : K) * dx := cell_le hdx (by omega)
    push_cast at h1
    unfold overlap
    rw [max_eq_right h1, max_eq_right (le_trans ha' h1)]

/-- On the standard mesh the loop deposits the overlaps. -/
theorem spread_ok {o : Op K} {n : Nat} (hm : Standard o n) (src size right : K) (hr : right ≤ ((n : K) - 1) * o.dx) :
    (fuel : Nat) → (i : Int) → (left : K) → (dest : Line K) → dest.n = n → 0 ≤ i → n + 1 ≤ fuel + i →
    ((i : K) - 1) * o.dx ≤ left → left ≤ i * o.dx → left ≤ right →
    ∃ dest', o.spread src size right fuel i left dest = .ok dest' ∧ dest'.n = n ∧
      ∀ j, dest'.at' j = dest.at' j + src * overlap o.dx left right j / size
  | 0, i, left, dest, hn, h0, hf, h1, h2, hlr => by
    exfalso
    have h3 : ((n : Int) : K) * o.dx ≤ ((i - 1 : Int) : K) * o.dx := cell_le hm.spacing (by omega)
    push_cast at h3
    have := hm.spacing
    nlinarith
  | fuel + 1, i, left, dest, hn, h0, hf, h1, h2, hlr => by
    have hdx := hm.spacing
    unfold Op.spread
    by_cases hlt : left < right
    · rw [if_pos hlt]
      have hin : i < n := by
        by_contra hge
        have h3 : ((n : Int) : K) * o.dx ≤ (i : K) * o.dx := cell_le hdx (by omega)
        push_cast at h3
        nlinarith
      have hget : o.coord.get i = .ok (((i : K) - 1 / 2) * o.dx) := by
        unfold Line.get
        rw [if_pos ⟨h0, by rw [hm.count]; exact hin⟩, hm.centre i h0 hin]
      have hadd : ∀ v, dest.add i v = .ok ⟨dest.n, fun j => if j = i then dest.at' i + v else dest.at' j⟩ := by
        intro v
        unfold Line.add
        rw [if_pos ⟨h0, by omega⟩]
      have hc : ((i : K) - 1 / 2) * o.dx + o.dx / 2 = i * o.dx := by ring
      by_cases hx : (i : K) * o.dx > right
      · have hrb : o.right right i = .ok right := by
          unfold Op.right
          rw [hget, Outcome.ok_bind, hc, if_pos hx]
          rfl
        rw [hrb, Outcome.ok_bind, hadd, Outcome.ok_bind]
        have hfuel : ∃ f, fuel = f + 1 := ⟨fuel - 1, by omega⟩
        obtain ⟨f, rfl⟩ := hfuel
        refine ⟨⟨dest.n, fun j => if j = i then dest.at' i + src * (right - left) / size else dest.at' j⟩, ?_, hn, ?_⟩
        · unfold Op.spread
          rw [if_neg (lt_irrefl _)]
        intro j
        dsimp only
        rcases lt_trichotomy j i with h | h | h
        · rw [if_neg (by omega), overlap_left hdx h h1]; simp
        · subst h
          rw [if_pos rfl]
          unfold overlap
          rw [min_eq_left hx.le, max_eq_left h1, max_eq_right (by linarith)]
        · rw [if_neg (by omega), overlap_right hdx h hx.le]; simp
      · have hx := not_lt.1 hx
        have hrb : o.right right i = .ok (i * o.dx) := by
          unfold Op.right
          rw [hget, Outcome.ok_bind, hc, if_neg (not_lt.2 hx)]
          rfl
        rw [hrb, Outcome.ok_bind, hadd, Outcome.ok_bind]
        obtain ⟨dest', e1, e2, e3⟩ := spread_ok hm src size right hr fuel (i + 1) (i * o.dx)
          ⟨dest.n, fun j => if j = i then dest.at' i + src * (i * o.dx - left) / size else dest.at' j⟩ hn (by omega) (by omega)
          (by push_cast; ring_nf; exact le_refl _) (by push_cast; nlinarith) hx
        refine ⟨dest', e1, e2, ?_⟩
        intro j
        rw [e3, overlap_split hdx h1 h2 hx j]
        dsimp only
        by_cases hj : j = i
        · rw [if_pos hj, if_pos hj, hj]; ring
        · rw [if_neg hj, if_neg hj, zero_add]
    · rw [if_neg hlt]
      refine ⟨dest, rfl, hn, fun j => ?_⟩
      have : left = right := le_antisymm hlr (not_lt.1 hlt)
      subst this
      have : overlap o.dx left left j = 0 := by
        unfold overlap
        rw [max_eq_left]
        have := min_le_left left ((j : K) * o.dx)
        have := le_max_left left (((j : K) - 1) * o.dx)
        linarith
      rw [this]
      simp

theorem start_ok [FloorRing K] {o : Op K} {n : Nat} (hm : Standard o n) {p : Drop K} (hp : Inside o n p) :
    ∃ i, o.start n p = .ok i ∧ 1 ≤ i ∧ ((i : K) - 1) * o.dx ≤ p.loc - p.size / 2 ∧ p.loc - p.size / 2 ≤ i * o.dx := by
  obtain ⟨h1, h2, h3⟩ := hp
  have hdx := hm.spacing
  have hq : 0 ≤ (p.loc - p.size / 2) / o.dx := div_nonneg h2 hdx.le
  have f0 := Int.floor_nonneg.2 hq
  have f1 := Int.floor_le ((p.loc - p.size / 2) / o.dx)
  have f2 := Int.lt_floor_add_one ((p.loc - p.size / 2) / o.dx)
  rw [le_div_iff₀ hdx] at f1
  rw [div_lt_iff₀ hdx] at f2
  refine ⟨⌊(p.loc - p.size / 2) / o.dx⌋ + 1, ?_, by omega, ?_, ?_⟩
  · unfold Op.start
    dsimp only [ToInt.toInt]
    unfold trunc
    rw [if_pos hq, Outcome.ubUnless_true hdx.ne', Outcome.ok_bind, Outcome.throwIf_false]
    · rfl
    · generalize ⌊(p.loc - p.size / 2) / o.dx⌋ = k at *
      have : k + 1 < n := by
        by_contra hge
        have h4 : (((n : Int) - 1 : Int) : K) * o.dx ≤ (k : K) * o.dx := cell_le hdx (by omega)
        push_cast at h4
        linarith
      omega
  · push_cast
    linarith
  · push_cast
    linarith

theorem toCells_ok [FloorRing K] {o : Op K} {n : Nat} (hm : Standard o n) : (ps : List (Drop K × K)) →
    (∀ p ∈ ps, Inside o n p.1) → (dest : Line K) → dest.n = n →
    ∃ dest', o.toCells ps dest = .ok dest' ∧ dest'.n = n ∧
      ∀ i, dest'.at' i = dest.at' i + (ps.map fun p => p.2 * share o p.1 i).sum
  | [], _, dest, hn => ⟨dest, rfl, hn, by simp⟩
  | (p, src) :: ps, hp, dest, hn => by
    have hin := hp (p, src) (by simp)
    obtain ⟨i, s1, s2, s3, s4⟩ := start_ok hm hin
    have hin2 := hin
    obtain ⟨h1, h2, h3⟩ := hin2
    dsimp only at h1 h2 h3 s1 s3 s4
    have er : p.loc + 1 / 2 * p.size = p.loc + p.size / 2 := by ring
    obtain ⟨d1, e1, e2, e3⟩ := spread_ok hm src p.size (p.loc + p.size / 2) h3 (n + 1) i _ dest hn (by omega) (by omega) s3 s4 (by linarith)
    obtain ⟨d2, f1, f2, f3⟩ := toCells_ok hm ps (fun q hq => hp q (by simp [hq])) d1 e2
    refine ⟨d2, ?_, f2, ?_⟩
    · unfold Op.toCells
      rw [hn, s1, Outcome.ok_bind, er, hm.count, e1, Outcome.ok_bind, f1]
    · intro j
      rw [f3, e3, List.map_cons, List.sum_cons]
      unfold share
      dsimp only
      ring

/-- C43. On the standard mesh, depositing particles that lie inside succeeds and every cell holds
the sum of the particles' values, each weighted with the fraction of the particle in the cell.
Missing from the full property: meshes that start elsewhere, where it is false
(`C43_mesh_origin_ignored`). -/
theorem _root_.SpatialOps.C43_deposit_weights_partial [FloorRing K] (o : Op K) (n : Nat) (hm : Standard o n) (ps : List (Drop K × K))
    (hp : ∀ p ∈ ps, Inside o n p.1) (dest : Line K) (hn : dest.n = n) :
    ∃ dest', o.particleToCell ps dest = .ok dest' ∧
      ∀ i, dest'.at' i = (ps.map fun p => p.2 * share o p.1 i).sum := by
  obtain ⟨d, h1, h2, h3⟩ := toCells_ok hm ps hp ⟨dest.n, fun _ => 0⟩ hn
  refine ⟨d, h1, fun i => ?_⟩
  rw [h3]
  simp

/-- C43. The fractions of a particle inside the mesh add up to one. -/
theorem _root_.SpatialOps.C43_shares_sum_to_one (o : Op K) (n : Nat) (hm : Standard o n) (p : Drop K) (hp : Inside o n p) :
    ∑ i ∈ Finset.range n, share o p (i : Int) = 1 := by
  obtain ⟨h1, h2, h3⟩ := hp
  unfold share
  rw [← Finset.sum_div, overlap_sum o.dx _ _ hm.spacing (by linarith) n (by have := hm.spacing; linarith) h3]
  rw [div_eq_one_iff_eq h1.ne']
  ring

theorem gather_ok {o : Op K} {n : Nat} (hm : Standard o n) (src : Line K) (hs : src.n = n) (size right : K)
    (hr : right ≤ ((n : K) - 1) * o.dx) :
    (fuel : Nat) → (i : Int) → (left val : K) → 0 ≤ i → n + 1 ≤ fuel + i →
    ((i : K) - 1) * o.dx ≤ left → left ≤ i * o.dx → left ≤ right →
    o.gather src size right fuel i left val =
      .ok (val + ∑ j ∈ Finset.range n, src.at' (j : Int) * overlap o.dx left right (j : Int) / size)
  | 0, i, left, val, h0, hf, h1, h2, hlr => by
    exfalso
    have h3 : ((n : Int) : K) * o.dx ≤ ((i - 1 : Int) : K) * o.dx := cell_le hm.spacing (by omega)
    push_cast at h3
    have := hm.spacing
    nlinarith
  | fuel + 1, i, left, val, h0, hf, h1, h2, hlr => by
    have hdx := hm.spacing
    unfold Op.gather
    by_cases hlt : left < right
    · rw [if_pos hlt]
      have hin : i < n := by
        by_contra hge
        have h3 : ((n : Int) : K) * o.dx ≤ (i : K) * o.dx := cell_le hdx (by omega)
        push_cast at h3
        nlinarith
      have hget : o.coord.get i = .ok (((i : K) - 1 / 2) * o.dx) := by
        unfold Line.get
        rw [if_pos ⟨h0, by rw [hm.count]; exact hin⟩, hm.centre i h0 hin]
      have hsrc : src.get i = .ok (src.at' i) := by
        unfold Line.get
        rw [if_pos ⟨h0, by omega⟩]
      have hc : ((i : K) - 1 / 2) * o.dx + o.dx / 2 = i * o.dx := by ring
      have hmem : i.toNat ∈ Finset.range n := by simp; omega
      have hi : ((i.toNat : Nat) : Int) = i := by omega
      by_cases hx : (i : K) * o.dx > right
      · have hrb : o.right right i = .ok right := by
          unfold Op.right
          rw [hget, Outcome.ok_bind, hc, if_pos hx]
          rfl
        rw [hrb, Outcome.ok_bind, hsrc, Outcome.ok_bind]
        have hfuel : ∃ f, fuel = f + 1 := ⟨fuel - 1, by omega⟩
        obtain ⟨f, rfl⟩ := hfuel
        unfold Op.gather
        rw [if_neg (lt_irrefl _)]
        congr 2
        rw [Finset.sum_eq_single_of_mem _ hmem]
        · rw [hi]
          unfold overlap
          rw [min_eq_left hx.le, max_eq_left h1, max_eq_right (by linarith)]
        · intro j _ hj
          rcases lt_trichotomy (j : Int) i with h | h | h
          · rw [overlap_left hdx h h1]; simp
          · omega
          · rw [overlap_right hdx h hx.le]; simp
      · have hx := not_lt.1 hx
        have hrb : o.right right i = .ok (i * o.dx) := by
          unfold Op.right
          rw [hget, Outcome.ok_bind, hc, if_neg (not_lt.2 hx)]
          rfl
        rw [hrb, Outcome.ok_bind, hsrc, Outcome.ok_bind, gather_ok hm src hs size right hr fuel (i + 1) (i * o.dx) _ (by omega) (by omega)
          (by push_cast; ring_nf; exact le_refl _) (by push_cast; nlinarith) hx, add_assoc]
        congr 2
        rw [← Finset.add_sum_erase _ _ hmem, ← Finset.add_sum_erase _ (fun j : Nat => src.at' (j : Int) *
          overlap o.dx left right (j : Int) / size) hmem, hi, overlap_split hdx h1 h2 hx i, if_pos rfl, ← add_assoc]
        congr 1
        · ring
        · apply Finset.sum_congr rfl
          intro j hj
          rw [overlap_split hdx h1 h2 hx (j : Int), if_neg, zero_add]
          have := (Finset.mem_erase.1 hj).1
          omega
    · rw [if_neg hlt]
      have : left = right := le_antisymm hlr (not_lt.1 hlt)
      subst this
      congr 1
      rw [Finset.sum_eq_zero, add_zero]
      intro j _
      have : overlap o.dx left left (j : Int) = 0 := by
        unfold overlap
        rw [max_eq_left]
        have := min_le_left left (((j : Int) : K) * o.dx)
        have := le_max_left left ((((j : Int) : K) - 1) * o.dx)
        linarith
      rw [this]
      simp

/-- C43. On the standard mesh, interpolating a field to particles that lie inside succeeds and
gives every particle the average of the field over it: the cells' values weighted with the
fractions of the particle in them. Missing: as for depositing. -/
theorem _root_.SpatialOps.C43_interpolation_weights_partial [FloorRing K] (o : Op K) (n : Nat) (hm : Standard o n) (src : Line K)
    (hs : src.n = n) (ps : List (Drop K)) (hp : ∀ p ∈ ps, Inside o n p) :
    o.cellToParticle src ps = .ok (ps.map fun p => ∑ i ∈ Finset.range n, src.at' (i : Int) * share o p (i : Int)) := by
  induction ps with
  | nil => rfl
  | cons p ps ih =>
    have hin := hp p (by simp)
    obtain ⟨i, s1, s2, s3, s4⟩ := start_ok hm hin
    obtain ⟨h1, h2, h3⟩ := hin
    unfold Op.cellToParticle
    rw [hs, s1, Outcome.ok_bind, hm.count,
      gather_ok hm src hs p.size _ h3 (n + 1) i _ 0 (by omega) (by omega) s3 s4 (by linarith), Outcome.ok_bind,
      ih fun q hq => hp q (by simp [hq]), Outcome.ok_bind]
    simp only [List.map_cons, Outcome.pure_eq, zero_add, share, mul_div_assoc]

/-- C43. The two operators are transposes of each other: weighting the deposited field with any
cell field gives the same as weighting the particles' values with the interpolated field. -/
theorem _root_.SpatialOps.C43_transposed [FloorRing K] (o : Op K) (n : Nat) (hm : Standard o n) (ps : List (Drop K × K))
    (hp : ∀ p ∈ ps, Inside o n p.1) (src dest : Line K) (hs : src.n = n) (hn : dest.n = n) :
    ∃ dest' vs, o.particleToCell ps dest = .ok dest' ∧ o.cellToParticle src (ps.map Prod.fst) = .ok vs ∧
      ∑ i ∈ Finset.range n, src.at' (i : Int) * dest'.at' (i : Int) =
        (List.zipWith (fun p v => p.2 * v) ps vs).sum := by
  obtain ⟨d, h1, h2⟩ := C43_deposit_weights_partial o n hm ps hp dest hn
  have h3 := C43_interpolation_weights_partial o n hm src hs (ps.map Prod.fst) (by
    intro p h
    obtain ⟨q, hq, rfl⟩ := List.mem_map.1 h
    exact hp q hq)
  refine ⟨d, _, h1, h3, ?_⟩
  simp only [h2]
  clear h1 h2 h3 hp
  induction ps with
  | nil => simp
  | cons p ps ih =>
    simp only [List.map_cons, List.sum_cons, mul_add, Finset.sum_add_distrib, ih, List.zipWith_cons_cons, Finset.mul_sum]
    congr 1
    apply Finset.sum_congr rfl
    intro i _
    ring

/-! ## The constructor -/

omit [IsStrictOrderedRing K] in
theorem uniform_const {c : Line K} {dx : K} [IsStrictOrderedRing K] (hdx : 0 < dx) : (k : Nat) → (i : Int) →
    (∀ j : Int, i ≤ j → j < i + k → c.at' (j + 1) - c.at' j = dx) → uniformFrom c dx k i = true
  | 0, _, _ => rfl
  | k + 1, i, h => by
    unfold uniformFrom
    rw [h i (le_refl _) (by omega), if_neg, uniform_const hdx k (i + 1) fun j h1 h2 => h j (by omega) (by omega)]
    rw [if_neg hdx.ne']
    simp [tol]

/-- C43. The constructor accepts a mesh with equal spacing and takes its spacing. -/
theorem _root_.SpatialOps.C43_uniform_mesh_accepted (c : Line K) (hn : 2 ≤ c.n) (x0 dx : K) (hdx : 0 < dx)
    (hc : ∀ i : Int, c.at' i = x0 + i * dx) : Op.make c = .ok ⟨c, dx, x0⟩ := by
  unfold Op.make Line.get
  rw [if_pos ⟨by omega, by omega⟩, Outcome.ok_bind, if_pos ⟨by omega, by omega⟩, Outcome.ok_bind]
  have e : c.at' 1 - c.at' 0 = dx := by rw [hc, hc]; push_cast; ring
  rw [e, uniform_const hdx _ _ (fun j _ _ => by rw [hc, hc]; push_cast; ring), Outcome.throwIf_false (by simp), Outcome.ok_bind, hc 0]
  simp

omit [IsStrictOrderedRing K] in
theorem uniform_reject {c : Line K} {dx : K} (hdx : dx ≠ 0) : (k : Nat) → (i j : Int) → i ≤ j → j < i + k →
    |dx - (c.at' (j + 1) - c.at' j)| / dx > tol → uniformFrom c dx k i = false
  | 0, _, _, _, _, _ => by omega
  | k + 1, i, j, h1, h2, h => by
    unfold uniformFrom
    simp only [if_neg hdx]
    by_cases hij : j = i
    · subst hij
      rw [if_pos h]
    · split_ifs
      · rfl
      · exact uniform_reject hdx k (i + 1) j (by omega) (by omega) h

omit [IsStrictOrderedRing K] in
/-- C43. It throws if some spacing differs from the first, which is positive, by more than one part in a
million. -/
theorem _root_.SpatialOps.C43_nonuniform_mesh_rejected (c : Line K) (hn : 2 ≤ c.n) (hdx : 0 < c.at' 1 - c.at' 0)
    (j : Int) (hj : 0 ≤ j) (hj' : j + 1 < c.n)
    (h : |(c.at' 1 - c.at' 0) - (c.at' (j + 1) - c.at' j)| / (c.at' 1 - c.at' 0) > 1 / 1000000) : Op.make c = .throws := by
  unfold Op.make Line.get
  rw [if_pos ⟨by omega, by omega⟩, Outcome.ok_bind, if_pos ⟨by omega, by omega⟩, Outcome.ok_bind,
    uniform_reject hdx.ne' _ _ j (by omega) (by omega) h]
  rfl

/-! ## Examples and deviations -/

end

namespace Ex

/-- Five cells of width one, cell 0 left of the origin. -/
def op : Op ℚ := ⟨⟨5, fun i => i - 1 / 2⟩, 1, -1 / 2⟩

theorem standard : Standard op 5 :=
  ⟨rfl, by norm_num [op], fun i _ _ => by simp [op]⟩

theorem inside : Inside op 5 ⟨2, 3 / 2⟩ := by
  refine ⟨by norm_num, by norm_num, by norm_num [op]⟩

end Ex

example : ∃ dest', Ex.op.particleToCell [(⟨2, 3 / 2⟩, 6)] ⟨5, fun _ => 1⟩ = .ok dest' ∧ dest'.at' 2 = 3 := by
  obtain ⟨d, h1, h2⟩ := C43_deposit_weights_partial Ex.op 5 Ex.standard [(⟨2, 3 / 2⟩, 6)]
    (by intro p hp; rw [List.mem_singleton.1 hp]; exact Ex.inside) ⟨5, fun _ => 1⟩ rfl
  refine ⟨d, h1, ?_⟩
  rw [h2]
  norm_num [share, overlap, Ex.op]

example : Op.make Ex.op.coord = .ok Ex.op :=
  C43_uniform_mesh_accepted Ex.op.coord (by decide) (-1 / 2) 1 (by norm_num) (fun i => by simp [Ex.op]; ring)

/-- C43, deviation. The operators take the left end of cell 1 to be at zero instead of using the
mesh's coordinates: on the same mesh moved by one cell width, a particle that fills cell 2 is
put in cell 3 (as a whole: the cell's right bound cuts nothing off). -/
theorem _root_.SpatialOps.C43_mesh_origin_ignored :
    ∃ (o : Op ℚ) (dest : Line ℚ), Op.make ⟨6, fun i => (i : ℚ) + 1 / 2⟩ = .ok o ∧
      o.particleToCell [(⟨5 / 2, 1⟩, 1)] ⟨6, fun _ => 0⟩ = .ok dest ∧ dest.at' 2 = 0 ∧ dest.at' 3 = 1 := by
  have h : (Op.particleToCell (⟨⟨6, fun i => (i : ℚ) + 1 / 2⟩, 1, 1 / 2⟩ : Op ℚ) [(⟨5 / 2, 1⟩, 1)] ⟨6, fun _ => 0⟩ >>=
      fun d => Outcome.ok (d.at' 2, d.at' 3)) = .ok (0, 1) := by decide +kernel
  obtain ⟨d, h1, h2⟩ := Outcome.bind_eq_ok.1 h
  injection h2 with h2
  injection h2 with h2 h3
  exact ⟨_, d, C43_uniform_mesh_accepted ⟨6, fun i => (i : ℚ) + 1 / 2⟩ (by decide) (1 / 2) 1 (by norm_num)
    (fun i => by dsimp only; ring), h1, h2, h3⟩

/-- C43, deviation. A particle that reaches over the left end of cell 1 is started in cell 1,
because converting to `int` rounds towards zero: half of this particle is in the ghost cell,
all of it is put in cell 1. -/
theorem _root_.SpatialOps.C43_left_overhang_misplaced :
    ∃ dest : Line ℚ, Ex.op.particleToCell [(⟨0, 1⟩, 1)] ⟨5, fun _ => 0⟩ = .ok dest ∧
      dest.at' 0 = 0 ∧ dest.at' 1 = 1 ∧ share Ex.op ⟨0, 1⟩ 0 = 1 / 2 ∧ share Ex.op ⟨0, 1⟩ 1 = 1 / 2 := by
  have h : (Ex.op.particleToCell [(⟨0, 1⟩, 1)] ⟨5, fun _ => 0⟩ >>=
      fun d => Outcome.ok (d.at' 0, d.at' 1)) = .ok (0, 1) := by decide +kernel
  obtain ⟨d, h1, h2⟩ := Outcome.bind_eq_ok.1 h
  injection h2 with h2
  injection h2 with h2 h3
  exact ⟨d, h1, h2, h3, by norm_num [share, overlap, Ex.op], by norm_num [share, overlap, Ex.op]⟩

/-- C43, deviation. A particle that reaches over the right end of the mesh makes both operators
read and write past the end of the fields: only the left end is checked. -/
theorem _root_.SpatialOps.C43_right_overhang_undefined :
    Ex.op.particleToCell [(⟨4, 1⟩, 1)] ⟨5, fun _ => 0⟩ = .ub ∧
    Ex.op.cellToParticle ⟨5, fun _ => 0⟩ [⟨4, 1⟩] = .ub := by
  constructor
  · have h : ∀ o : Outcome (Line ℚ), (o >>= fun d => Outcome.ok d.n) = .ub → o = .ub := by
      intro o ho
      cases o <;> first | rfl | cases ho
    exact h _ (by decide +kernel)
  · decide +kernel

section
variable {K : Type} [Field K] [LinearOrder K] [IsStrictOrderedRing K] [FloorRing K]

/-- C43, deviation. A particle without size deposits nothing, whatever its value: the total is
not conserved. -/
theorem _root_.SpatialOps.C43_no_size_deposits_nothing (o : Op K) (n : Nat) (hm : Standard o n) (x src : K)
    (hx : 0 ≤ x) (hx' : x < ((n : K) - 1) * o.dx) (dest : Line K) (hn : dest.n = n) :
    ∃ dest', o.particleToCell [(⟨x, 0⟩, src)] dest = .ok dest' ∧ ∀ i, dest'.at' i = 0 := by
  have hdx := hm.spacing
  have hq : 0 ≤ x / o.dx := div_nonneg hx hdx.le
  have f0 := Int.floor_nonneg.2 hq
  have f1 := Int.floor_le (x / o.dx)
  rw [le_div_iff₀ hdx] at f1
  have hs : o.start n ⟨x, 0⟩ = .ok (⌊x / o.dx⌋ + 1) := by
    unfold Op.start
    dsimp only [ToInt.toInt]
    unfold trunc
    simp only [zero_div, sub_zero]
    rw [if_pos hq, Outcome.ubUnless_true hdx.ne', Outcome.ok_bind, Outcome.throwIf_false]
    · rfl
    · generalize ⌊x / o.dx⌋ = k at *
      have : k + 1 < n := by
        by_contra hge
        have h4 : (((n : Int) - 1 : Int) : K) * o.dx ≤ (k : K) * o.dx := cell_le hdx (by omega)
        push_cast at h4
        linarith
      omega
  refine ⟨⟨n, fun _ => 0⟩, ?_, fun _ => rfl⟩
  unfold Op.particleToCell Op.toCells
  rw [hn, hs, Outcome.ok_bind]
  unfold Op.spread
  simp only [mul_zero, add_zero, zero_div, sub_zero, lt_irrefl, if_false]
  rfl

end

end Particle
end SpatialOps
