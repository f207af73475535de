import Verif.March.Props
import Verif.Round.Lemmas

/-!
# Lemmas for rounding errors of explicit time steps
-/

namespace SpatialOps
namespace Heat

open Nebo Stencil Round

variable {n : IntVec} {K : Type} [Field K] [LinearOrder K] [IsStrictOrderedRing K] {u : K} {rnd : K → K}

omit [IsStrictOrderedRing K] in
theorem val_half (hf : Format u rnd) : ((1 / 2 : Fl rnd)).val = 1 / 2 := by
  have : ((2 : Fl rnd)).val = 2 := by
    show ((2 : ℕ) : K) = 2
    norm_num
  show rnd ((1 : K) / (2 : Fl rnd).val) = 1 / 2
  rw [this, hf.half]

/-- Fourier's law: six roundings. -/
theorem err_flux (hf : Format u rnd) (h : Dir → Fl rnd) (T k : IntVec → Fl rnd) (d : Dir) (c : IntVec) :
    Err u 6 (fluxOf h T k d c).val (heatFlux (fun d => (h d).val) (fun c => (T c).val) (fun c => (k c).val) d c)
      ((|(k (c - unit d)).val| + |(k c).val|) / 2 * ((|(T (c - unit d)).val| + |(T c).val|) / |(h d).val|)) := by
  have hu := hf.nonneg
  have p1 := ((Err.self (u := u) (1 : K)).div hu (h d).val).rounded hf
  have p2 := ((Err.self (u := u) (-1 : K)).div hu (h d).val).rounded hf
  rw [abs_neg] at p2
  rw [abs_one] at p1 p2
  have t1 := ((Err.self (u := u) (T (c - unit d)).val).mul hu p2).rounded hf
  have t2 := ((Err.self (u := u) (T c).val).mul hu p1).rounded hf
  have g := (t1.add t2).rounded hf
  have hh := Err.self (u := u) (1 / 2 : K)
  have k1 := ((Err.self (u := u) (k (c - unit d)).val).mul hu hh).rounded hf
  have k2 := ((Err.self (u := u) (k c).val).mul hu hh).rounded hf
  have kk := (k1.add k2).rounded hf
  have f := (g.neg.mul hu kk).rounded hf
  have e1 : (fluxOf h T k d c).val = rnd (-rnd (rnd ((T (c - unit d)).val * rnd (-1 / (h d).val)) + rnd ((T c).val * rnd (1 / (h d).val))) *
      rnd (rnd ((k (c - unit d)).val * (1 / 2)) + rnd ((k c).val * (1 / 2)))) := by
    rw [← val_half hf]
    rfl
  rw [e1]
  convert f using 1
  · unfold heatFlux; ring
  · rw [abs_of_pos (show (0 : K) < 1 / 2 by norm_num)]; ring

/-- The size of what flows through face `c`, relative to the temperatures. -/
def through (h : Dir → K) (T k : IntVec → K) (d : Dir) (c : IntVec) : K :=
  (|k (c - unit d)| + |k c|) / 2 * ((|T (c - unit d)| + |T c|) / |h d|)

/-- The right-hand side: thirteen roundings. -/
theorem err_lessFlow (hf : Format u rnd) (h : Dir → Fl rnd) (T k rc : IntVec → Fl rnd) (d : Dir) (c : IntVec) {j : Nat} (hj : 10 ≤ j)
    {r : Fl rnd} {x X : K} (hr : Err u j r.val x X) :
    Err u (j + 1) (lessFlow n h (fluxOf h T k d) rc d c r).val
      (x - outflow n (fun d => (h d).val) (fun c => (T c).val) (fun c => (k c).val) c d / (rc c).val)
      (X + (if 1 < comp n d then (through (fun d => (h d).val) (fun c => (T c).val) (fun c => (k c).val) d c +
        through (fun d => (h d).val) (fun c => (T c).val) (fun c => (k c).val) d (c + unit d)) / |(h d).val| / |(rc c).val| else 0)) := by
  have hu := hf.nonneg
  unfold lessFlow outflow
  split
  · have p1 := ((Err.self (u := u) (1 : K)).div hu (h d).val).rounded hf
    have p2 := ((Err.self (u := u) (-1 : K)).div hu (h d).val).rounded hf
    rw [abs_neg] at p2
    rw [abs_one] at p1 p2
    have f1 := ((err_flux hf h T k d c).mul hu p2).rounded hf
    have f2 := ((err_flux hf h T k d (c + unit d)).mul hu p1).rounded hf
    have g := ((((f1.add f2).rounded hf).div hu (rc c).val).rounded hf).mono hu hj
    have f := (hr.sub g).rounded hf
    have e1 : (r - (fluxOf h T k d c * (-1 / h d) + fluxOf h T k d (c + unit d) * (1 / h d)) / rc c : Fl rnd).val =
        rnd (r.val - rnd (rnd (rnd ((fluxOf h T k d c).val * rnd (-1 / (h d).val)) +
          rnd ((fluxOf h T k d (c + unit d)).val * rnd (1 / (h d).val))) / (rc c).val)) := rfl
    rw [e1]
    convert f using 1
    · ring
    · unfold through; ring
  · simpa using hr.mono hu (Nat.le_succ j)

/-- The size of what flows in a direction with more than one cell, for conductivities that are not negative. -/
theorem through_le {h : Dir → K} {T k : IntVec → K} {d : Dir} {c : IntVec} {B : K} (h1 : 0 ≤ k (c - unit d)) (h2 : 0 ≤ k c)
    (t1 : |T (c - unit d)| ≤ B) (t2 : |T c| ≤ B) : through h T k d c / |h d| ≤ conductance h k d c * (2 * B) := by
  unfold through conductance
  rw [abs_of_nonneg h1, abs_of_nonneg h2, ← abs_mul_abs_self (h d)]
  have hp : 0 ≤ |h d| * |h d| := mul_self_nonneg _
  have e1 : (k (c - unit d) + k c) / 2 * ((|T (c - unit d)| + |T c|) / |h d|) / |h d| =
      (k (c - unit d) + k c) / 2 * (|T (c - unit d)| + |T c|) / (|h d| * |h d|) := by ring
  have e2 : (k (c - unit d) + k c) / 2 / (|h d| * |h d|) * (2 * B) = (k (c - unit d) + k c) / 2 * (2 * B) / (|h d| * |h d|) := by ring
  rw [e1, e2]
  refine div_le_div_of_nonneg_right ?_ hp
  exact mul_le_mul_of_nonneg_left (by linarith) (by linarith)

/-- The right-hand side for temperatures up to `B`. -/
theorem err_rhs (hf : Format u rnd) (h : Dir → Fl rnd) (T k rc : IntVec → Fl rnd) {c : IntVec} {B : K}
    (hr : 0 < (rc c).val) (hk : ∀ c', (c' = c ∨ Neighbour n c c') → 0 ≤ (k c').val)
    (hT : ∀ c', (c' = c ∨ Neighbour n c c') → |(T c').val| ≤ B) :
    Err u 13 (rhsOf n h T k rc c).val (heatRhs n (fun d => (h d).val) (fun c => (T c).val) (fun c => (k c).val) (fun c => (rc c).val) c)
      (rate n (fun d => (h d).val) (fun c => (k c).val) (fun c => (rc c).val) c * (2 * B)) := by
  have hu := hf.nonneg
  have z : Err u 10 (0 : Fl rnd).val 0 0 := by
    have := (Err.self (u := u) (0 : K)).mono hu (Nat.zero_le 10)
    rwa [abs_zero] at this
  have a := err_lessFlow (n := n) hf h T k rc .z c (by omega) (err_lessFlow (n := n) hf h T k rc .y c (by omega)
    (err_lessFlow (n := n) hf h T k rc .x c (le_refl 10) z))
  have b : ∀ d, (if 1 < comp n d then (through (fun d => (h d).val) (fun c => (T c).val) (fun c => (k c).val) d c +
        through (fun d => (h d).val) (fun c => (T c).val) (fun c => (k c).val) d (c + unit d)) / |(h d).val| / |(rc c).val| else 0) ≤
      conducts n (fun d => (h d).val) (fun c => (k c).val) c d / (rc c).val * (2 * B) := by
    intro d
    unfold conducts
    split
    · next hd =>
      have c0 := hk c (.inl rfl)
      have c1 := hk _ (.inr ⟨d, hd, .inl rfl⟩)
      have c2 := hk _ (.inr ⟨d, hd, .inr rfl⟩)
      have l1 := through_le (h := fun d => (h d).val) (T := fun c => (T c).val) (k := fun c => (k c).val) c2 c0
        (hT _ (.inr ⟨d, hd, .inr rfl⟩)) (hT c (.inl rfl))
      have l2 := through_le (h := fun d => (h d).val) (T := fun c => (T c).val) (k := fun c => (k c).val) (d := d) (c := c + unit d) (B := B)
        (by rw [add_sub']; exact c0) c1 (by rw [add_sub']; exact hT c (.inl rfl)) (hT _ (.inr ⟨d, hd, .inl rfl⟩))
      rw [abs_of_pos hr, add_div, div_mul_eq_mul_div]
      exact div_le_div_of_nonneg_right (by linarith) hr.le
    · simp
  convert a.bigger hu (Y := rate n (fun d => (h d).val) (fun c => (k c).val) (fun c => (rc c).val) c * (2 * B)) ?_ using 1
  · rfl
  · unfold heatRhs; ring
  · have bx := b .x
    have bY := b .y
    have bz := b .z
    have e : rate n (fun d => (h d).val) (fun c => (k c).val) (fun c => (rc c).val) c * (2 * B) =
        conducts n (fun d => (h d).val) (fun c => (k c).val) c .x / (rc c).val * (2 * B) +
        conducts n (fun d => (h d).val) (fun c => (k c).val) c .y / (rc c).val * (2 * B) +
        conducts n (fun d => (h d).val) (fun c => (k c).val) c .z / (rc c).val * (2 * B) := by unfold rate; ring
    rw [e]
    linarith

/-- A step within the limit from temperatures up to `B`: fifteen roundings. -/
theorem err_euler (hf : Format u rnd) (h : Dir → Fl rnd) (dt : Fl rnd) (T k rc : IntVec → Fl rnd) {c : IntVec} {B : K}
    (hst : Stable n (fun d => (h d).val) dt.val (fun c => (k c).val) (fun c => (rc c).val)) (hc : InMesh n c)
    (hT : ∀ c', (c' = c ∨ Neighbour n c c') → |(T c').val| ≤ B) :
    |(eulerOf n h dt T k rc c).val - euler n (fun d => (h d).val) dt.val (fun c => (T c).val) (fun c => (k c).val) (fun c => (rc c).val) c| ≤
      grow u 15 * (3 * B) := by
  have hu := hf.nonneg
  obtain ⟨h0, hst⟩ := hst
  obtain ⟨r0, k0, kn, hl⟩ := hst c hc
  have a := err_rhs (n := n) hf h T k rc (B := B) r0 (fun c' h' => h'.elim (fun e => e ▸ k0) fun h => kn c' h) hT
  have b := ((Err.self (u := u) dt.val).mul hu a).rounded hf
  have t := ((Err.self (u := u) (T c).val).mono hu (Nat.zero_le 14)).add (b.mono hu (show 0 + 13 + 1 ≤ 14 by omega))
  have f := t.rounded hf
  refine (f.bigger hu ?_).1
  have tB := hT c (.inl rfl)
  have B0 : 0 ≤ B := (abs_nonneg _).trans tB
  rw [abs_of_nonneg h0]
  have := mul_le_mul_of_nonneg_right hl (show 0 ≤ 2 * B by linarith)
  linarith

end Heat
end SpatialOps
