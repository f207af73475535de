import Verif.GpuKern.Safety
import Verif.GpuKern.Cpu
import Mathlib.Algebra.Field.Rat
import Mathlib.Tactic.FieldSimp

/-!
# C90: the hand-written seven-point CUDA kernel
-/

namespace SpatialOps
namespace GpuKern

section
variable {V : Type} [Add V] [Sub V] [Mul V] [Div V] [OfNat V 2]

theorem mul_mono_left {a b c : Int} (h : 0 ≤ a) (hbc : b ≤ c) : a * b ≤ a * c := Int.mul_le_mul_of_nonneg_left hbc h

theorem first_reads {nx ny nz : Int} (hx : 2 ≤ nx) (hy : 2 ≤ ny)
    (hr : 14 * ((nx + 11) / 14) + 2 + nx * (14 * ((ny + 11) / 14) + 2 + ny) < nx * ny * nz) : FirstReads nx ny nz (opt2Launch nx ny nz) := by
  intro t hv
  simp only [Launch.Valid, opt2Launch, blocks_eq hx, blocks_eq hy] at hv
  have key : ∀ k : Int, 0 ≤ k → k ≤ 1 → own nx ny t k < nx * ny * nz := by
    intro k hk hk1
    unfold own idx innerX innerY
    have a : ny * k ≤ ny * 1 := mul_mono_left (by omega) hk1
    have b : nx * ((t.b2 : Int) * 14 + 1 + t.y + ny * k) ≤ nx * (14 * ((ny + 11) / 14) + 2 + ny) := mul_mono_left (by omega) (by omega)
    omega
  exact ⟨key 0 le_rfl (by omega), key 1 (by omega) le_rfl⟩

/-- **C90.** For a field of any extents large enough that the first reads of the kernel lie in it, and any values, spacings and contents of
shared memory, however the threads are interleaved: no two threads ever access an element at the same time with one writing, no access is
out of bounds, no thread is left waiting at a barrier, and the kernel ends. Partial: for smaller fields see `C90_out_of_bounds`. -/
theorem _root_.SpatialOps.C90_every_schedule_partial {nx ny nz : Int} (hx : 2 ≤ nx) (hy : 2 ≤ ny)
    (hr : 14 * ((nx + 11) / 14) + 2 + nx * (14 * ((ny + 11) / 14) + 2 + ny) < nx * ny * nz)
    (dx dy dz : V) (f : Int → V) (sh : Nat → Nat → Int → V) {n : Nat} {s : KState V}
    (run : KRun (opt2Launch nx ny nz) (divergence nx ny nz dx dy dz f sh) n s) :
    ¬ s.Race (opt2Launch nx ny nz) ∧ ¬ s.Fault (opt2Launch nx ny nz) ∧
    (s.Done (opt2Launch nx ny nz) ∨ ∃ s', KStep (opt2Launch nx ny nz) s s') ∧
    n ≤ ((nx + 11) / 14).toNat * ((ny + 11) / 14).toNat * (16 * 16) * (10 * (nz - 2).toNat + 2) := by
  obtain ⟨pos, I, hn⟩ := run_inv (L := opt2Launch nx ny nz) rfl rfl (inv_launch sh) run
  have has : ∀ t a w, (opt2Launch nx ny nz).Valid t → (s.code t).access = some (a, w) → (opt2Launch nx ny nz).Has a := fun t a w hv h =>
    I.has rfl rfl (fun _ => rfl) rfl hx hy rfl (first_reads hx hy hr) hv h
  refine ⟨I.no_race rfl rfl, fun ⟨t, a, w, hv, h, hn⟩ => hn (has t a w hv h), I.progress has, hn.trans (I.sum_le.trans ?_)⟩
  simp only [opt2Launch, blocks_eq hx, blocks_eq hy]
  exact le_rfl

/-- **C90.** When it has ended every cell not on the boundary holds the seven-point stencil of the old values, divided by the square of the first
spacing, in the program's order of evaluation; all other elements are unchanged. -/
theorem _root_.SpatialOps.C90_result {nx ny nz : Int} (hx : 2 ≤ nx) (hy : 2 ≤ ny)
    (dx dy dz : V) (f : Int → V) (sh : Nat → Nat → Int → V) {n : Nat} {s : KState V}
    (run : KRun (opt2Launch nx ny nz) (divergence nx ny nz dx dy dz f sh) n s) (hd : s.Done (opt2Launch nx ny nz)) :
    (∀ i j k, Inner nx ny nz i j k → s.glob 1 (i + nx * (j + ny * k)) = seven nx ny dx f i j k) ∧
    (∀ m, (∀ i j k, Inner nx ny nz i j k → m ≠ i + nx * (j + ny * k)) → s.glob 1 m = f m) := by
  obtain ⟨pos, I, -⟩ := run_inv (L := opt2Launch nx ny nz) rfl rfl (inv_launch sh) run
  constructor
  · rintro i j k ⟨i1, i2, j1, j2, k1, k2⟩
    obtain ⟨t, ht⟩ : ∃ t : Tid, t = ⟨((i - 1) / 14).toNat, ((j - 1) / 14).toNat, ((i - 1) % 14).toNat, ((j - 1) % 14).toNat⟩ := ⟨_, rfl⟩
    have hv : (opt2Launch nx ny nz).Valid t := by
      subst ht
      simp only [Launch.Valid, opt2Launch, blocks_eq hx, blocks_eq hy]
      omega
    have ei : innerX t + t.x = i := by subst ht; simp only [innerX]; omega
    have ej : innerY t + t.y = j := by subst ht; simp only [innerY]; omega
    have ha : Active nx ny t := by
      unfold Active
      rw [ei, ej]
      subst ht
      dsimp only
      omega
    have r := I.out t hv ha k.toNat (by omega) (by rw [I.done hd hv]; simp only [written]; omega)
    have ek : ((k.toNat : Nat) : Int) = k := by omega
    rw [ek] at r
    simp only [own, ei, ej] at r
    rw [show i + nx * (j + ny * k) = idx nx ny i j k from rfl, r]
    simp only [nbr, ei, ej, Int.add_zero]
    rfl
  · intro m hm
    refine I.rest m fun t k hv ha hk hk2 e => ?_
    rw [I.done hd hv] at hk2
    simp only [written] at hk2
    refine hm (innerX t + t.x) (innerY t + t.y) k ?_ e
    simp only [Active, innerX, innerY] at ha
    simp only [Inner, innerX, innerY]
    omega

/-- A kernel that always can go on and makes only so many steps gets to the end. -/
theorem run_to_done {V : Type} {L : Launch} {s0 : KState V} {b : Nat}
    (hb : ∀ n s, KRun L s0 n s → n ≤ b ∧ (s.Done L ∨ ∃ s', KStep L s s')) : ∃ n s, KRun L s0 n s ∧ s.Done L := by
  by_contra hc
  push Not at hc
  have : ∀ n, ∃ s, KRun L s0 n s := by
    intro n
    induction n with
    | zero => exact ⟨_, .start⟩
    | succ n ih =>
      obtain ⟨s, h⟩ := ih
      rcases (hb n s h).2 with hd | ⟨s', h'⟩
      · exact absurd hd (hc n s h)
      · exact ⟨s', .step h h'⟩
  obtain ⟨s, h⟩ := this (b + 1)
  have := (hb _ _ h).1
  omega

/-- **C90.** The kernel can indeed be run to its end. -/
theorem _root_.SpatialOps.C90_ends_partial {nx ny nz : Int} (hx : 2 ≤ nx) (hy : 2 ≤ ny)
    (hr : 14 * ((nx + 11) / 14) + 2 + nx * (14 * ((ny + 11) / 14) + 2 + ny) < nx * ny * nz)
    (dx dy dz : V) (f : Int → V) (sh : Nat → Nat → Int → V) :
    ∃ n s, KRun (opt2Launch nx ny nz) (divergence nx ny nz dx dy dz f sh) n s ∧ s.Done (opt2Launch nx ny nz) :=
  run_to_done fun _ _ run => ⟨(C90_every_schedule_partial hx hy hr dx dy dz f sh run).2.2.2, (C90_every_schedule_partial hx hy hr dx dy dz f sh run).2.2.1⟩

/-- **C90, violated.** The condition on the extents is exact: for every other field with at least one inner cell, threads outside the field read
beyond its end. -/
theorem _root_.SpatialOps.C90_out_of_bounds {nx ny nz : Int} (hx : 3 ≤ nx) (hy : 3 ≤ ny)
    (dx dy dz : V) (f : Int → V) (sh : Nat → Nat → Int → V) :
    (∃ n s, KRun (opt2Launch nx ny nz) (divergence nx ny nz dx dy dz f sh) n s ∧ s.Fault (opt2Launch nx ny nz)) ↔
      nx * ny * nz ≤ 14 * ((nx + 11) / 14) + 2 + nx * (14 * ((ny + 11) / 14) + 2 + ny) := by
  constructor
  · rintro ⟨n, s, run, hf⟩
    by_contra hc
    exact (C90_every_schedule_partial (by omega) (by omega) (by omega) dx dy dz f sh run).2.1 hf
  · intro h
    obtain ⟨t, ht⟩ : ∃ t : Tid, t = ⟨((nx + 11) / 14 - 1).toNat, ((ny + 11) / 14 - 1).toNat, 15, 15⟩ := ⟨_, rfl⟩
    have hv : (opt2Launch nx ny nz).Valid t := by
      subst ht
      simp only [Launch.Valid, opt2Launch, blocks_eq (show 2 ≤ nx by omega), blocks_eq (show 2 ≤ ny by omega)]
      omega
    have e1 : own nx ny t 1 = 14 * ((nx + 11) / 14) + 2 + nx * (14 * ((ny + 11) / 14) + 2 + ny) := by
      have ei : innerX t + t.x = 14 * ((nx + 11) / 14) + 2 := by subst ht; simp only [innerX]; omega
      have ej : innerY t + t.y = 14 * ((ny + 11) / 14) + 2 := by subst ht; simp only [innerY]; omega
      unfold own idx
      rw [ei, ej, mul_one]
    have hnot : ¬ (opt2Launch nx ny nz).Has (.glob 0 (own nx ny t 1)) := by
      simp only [Launch.Has, opt2Launch, e1]; omega
    have hc : (divergence nx ny nz dx dy dz f sh).code t = opt2 nx ny nz dx dy dz t := by simp only [divergence, launch, if_pos hv]
    by_cases h0 : (opt2Launch nx ny nz).Has (.glob 0 (own nx ny t 0))
    · refine ⟨1, _, .step .start (.read hv hc h0), t, .glob 0 (own nx ny t 1), false, hv, ?_, hnot⟩
      simp only [Function.update_self]; rfl
    · exact ⟨0, _, .start, t, .glob 0 (own nx ny t 0), false, hv, by rw [hc]; rfl, h0⟩

/-- **C90, violated.** A field of 3 by 3 by 3 elements. -/
theorem _root_.SpatialOps.C90_small_field (dx dy dz : V) (f : Int → V) (sh : Nat → Nat → Int → V) :
    ∃ n s, KRun (opt2Launch 3 3 3) (divergence 3 3 3 dx dy dz f sh) n s ∧ s.Fault (opt2Launch 3 3 3) :=
  (C90_out_of_bounds (by omega) (by omega) dx dy dz f sh).2 (by decide)

/-- **C90.** Enough room: extents of at least 16, 16 and 4. -/
theorem _root_.SpatialOps.C90_room {nx ny nz : Int} (hx : 16 ≤ nx) (hy : 16 ≤ ny) (hz : 4 ≤ nz) :
    14 * ((nx + 11) / 14) + 2 + nx * (14 * ((ny + 11) / 14) + 2 + ny) < nx * ny * nz := by
  have a : nx * (14 * ((ny + 11) / 14) + 2 + ny) ≤ nx * (2 * ny + 13) := mul_mono_left (by omega) (by omega)
  have b : nx * (2 * ny + 15) ≤ nx * (ny * 4 - 2) := mul_mono_left (by omega) (by omega)
  have c : nx * ny * 4 ≤ nx * ny * nz := mul_mono_left (Int.mul_nonneg (by omega) (by omega)) hz
  have e1 : nx * (2 * ny + 15) = nx * (2 * ny + 13) + 2 * nx := by ring
  have e2 : nx * (ny * 4 - 2) = nx * ny * 4 - 2 * nx := by ring
  omega

end

example {V : Type} [Add V] [Sub V] [Mul V] [Div V] [OfNat V 2] (f : Int → V) (d : V) (sh : Nat → Nat → Int → V) :
    ∃ n s, KRun (opt2Launch 130 130 130) (divergence 130 130 130 d d d f sh) n s ∧
      s.glob 1 (5 + 130 * (6 + 130 * 7)) = seven 130 130 d f 5 6 7 ∧ s.glob 1 (129 + 130 * (6 + 130 * 7)) = f (129 + 130 * (6 + 130 * 7)) := by
  obtain ⟨n, s, run, hd⟩ := C90_ends_partial (by omega) (by omega) (C90_room (nx := 130) (ny := 130) (nz := 130) (by omega) (by omega) (by omega))
    d d d f sh
  obtain ⟨a, b⟩ := C90_result (by omega) (by omega) d d d f sh run hd
  refine ⟨n, s, run, a 5 6 7 (by unfold Inner; omega), b _ fun i j k h e => ?_⟩
  unfold Inner at h
  omega

section
variable {V : Type} [Add V] [Sub V] [Mul V] [Div V] [OfNat V 2] [OfNat V 1]

/-- **C90.** The test's program on the host: every cell not on the boundary of `data_out` gets the seven-point stencil of `data_in`, and the rest of
`data_out` is left as it was. -/
theorem _root_.SpatialOps.C90_host {small height nx ny : Int} (hx : small ≤ nx) (hy : small ≤ ny) (inp out : Int → V) :
    (∀ i j k, Inner small small height i j k → stencil7Cpu small height nx ny inp out (i + nx * (j + ny * k)) = seven nx ny 1 inp i j k) ∧
    (∀ i j k, 0 ≤ i → i < nx → 0 ≤ j → j < ny → ¬ Inner small small height i j k →
      stencil7Cpu small height nx ny inp out (i + nx * (j + ny * k)) = out (i + nx * (j + ny * k))) := by
  refine ⟨fun i j k h => ?_, fun i j k i1 i2 j1 j2 h => ?_⟩
  · rw [seven_eq]
    exact (sets_cpu small height nx ny inp out _).1 ⟨i, j, k, h, rfl⟩
  · refine (sets_cpu small height nx ny inp out _).2 ?_
    rintro ⟨i', j', k', h', e⟩
    have h2 := h'
    unfold Inner at h2
    obtain ⟨rfl, rfl, rfl⟩ := idx_inj i1 i2 j1 j2 (by omega) (by omega) (by omega) (by omega) (show idx nx ny i j k = _ from e)
    exact h h'

/-- **C90.** The test: for every size and all values, however the threads are interleaved, the device's field and the host's `data_out` hold the same
value in every cell not on the boundary. -/
theorem _root_.SpatialOps.C90_test_inner {n h : Int} (hn : 2 ≤ n) (f out : Int → V) (sh : Nat → Nat → Int → V)
    {m : Nat} {s : KState V} (run : KRun (opt2Launch n n h) (divergence n n h 1 1 1 f sh) m s) (hd : s.Done (opt2Launch n n h))
    {i j k : Int} (hi : Inner n n h i j k) :
    s.glob 1 (i + n * (j + n * k)) = stencil7Cpu n h n n f out (i + n * (j + n * k)) := by
  rw [(C90_result hn hn 1 1 1 f sh run hd).1 i j k hi, (C90_host le_rfl le_rfl f out).1 i j k hi]

/-- **C90, violated.** The test compares a whole plane, with its boundary cells, which neither program computes: it succeeds if and only if the
two arrays, both allocated and not initialised there, happen to agree on the boundary of that plane. -/
theorem _root_.SpatialOps.C90_test_boundary {n h : Int} (hn : 2 ≤ n) (f out : Int → V) (sh : Nat → Nat → Int → V)
    {m : Nat} {s : KState V} (run : KRun (opt2Launch n n h) (divergence n n h 1 1 1 f sh) m s) (hd : s.Done (opt2Launch n n h)) :
    (∀ i j, 0 ≤ i → i < n → 0 ≤ j → j < n → s.glob 1 (i + n * (j + n * 1)) = stencil7Cpu n h n n f out (i + n * (j + n * 1))) ↔
      ∀ i j, 0 ≤ i → i < n → 0 ≤ j → j < n → ¬ Inner n n h i j 1 → f (i + n * (j + n * 1)) = out (i + n * (j + n * 1)) := by
  have key : ∀ i j, 0 ≤ i → i < n → 0 ≤ j → j < n → ¬ Inner n n h i j 1 → s.glob 1 (i + n * (j + n * 1)) = f (i + n * (j + n * 1)) ∧
      stencil7Cpu n h n n f out (i + n * (j + n * 1)) = out (i + n * (j + n * 1)) := by
    intro i j i1 i2 j1 j2 hi
    refine ⟨(C90_result hn hn 1 1 1 f sh run hd).2 _ fun i' j' k' h' e => ?_, (C90_host le_rfl le_rfl f out).2 i j 1 i1 i2 j1 j2 hi⟩
    have h2 := h'
    unfold Inner at h2
    obtain ⟨rfl, rfl, rfl⟩ := idx_inj i1 i2 j1 j2 (by omega) (by omega) (by omega) (by omega) (show idx n n i j 1 = idx n n i' j' k' from e)
    exact hi h'
  constructor
  · intro hall i j i1 i2 j1 j2 hi
    obtain ⟨a, b⟩ := key i j i1 i2 j1 j2 hi
    rw [← a, ← b]; exact hall i j i1 i2 j1 j2
  · intro hb i j i1 i2 j1 j2
    by_cases hi : Inner n n h i j 1
    · exact C90_test_inner hn f out sh run hd hi
    · obtain ⟨a, b⟩ := key i j i1 i2 j1 j2 hi
      rw [a, b]; exact hb i j i1 i2 j1 j2 hi

end

/-- The hypotheses are met: there is a run to the end, and with different old contents at a corner the test fails although both programs are right. -/
example (sh : Nat → Nat → Int → Rat) : ∃ m s, KRun (opt2Launch 16 16 4) (divergence 16 16 4 1 1 1 (fun _ => 0) sh) m s ∧ s.Done (opt2Launch 16 16 4) ∧
    ¬ ∀ i j, 0 ≤ i → i < 16 → 0 ≤ j → j < 16 →
      s.glob 1 (i + 16 * (j + 16 * 1)) = stencil7Cpu 16 4 16 16 (fun _ => 0) (fun _ => 1) (i + 16 * (j + 16 * 1)) := by
  obtain ⟨n, s, run, hd⟩ := C90_ends_partial (nx := 16) (ny := 16) (nz := 4) (by omega) (by omega) (C90_room (by omega) (by omega) (by omega))
    (1 : Rat) 1 1 (fun _ => 0) sh
  refine ⟨n, s, run, hd, fun h => ?_⟩
  have := (C90_test_boundary (by omega) (fun _ => 0) (fun _ => 1) sh run hd).1 h 0 0 (by omega) (by omega) (by omega) (by omega)
    (by unfold Inner; omega)
  norm_num at this

/-- **C90, violated.** The second and third spacing do not count: if the square of the second differs from that of the first there is a field for
which no run gives the stencil with these spacings. -/
theorem _root_.SpatialOps.C90_spacing_ignored {K : Type} [Field K] {nx ny nz : Int} (hx : 3 ≤ nx) (hy : 3 ≤ ny) (hz : 3 ≤ nz)
    {dx dy : K} (dz : K) (h : dx * dx ≠ dy * dy) (sh : Nat → Nat → Int → K) :
    ∃ f : Int → K, ∀ n s, KRun (opt2Launch nx ny nz) (divergence nx ny nz dx dy dz f sh) n s → s.Done (opt2Launch nx ny nz) →
      s.glob 1 (1 + nx * (1 + ny * 1)) ≠ sevenXYZ nx ny dx dy dz f 1 1 1 := by
  refine ⟨fun m => if m = 1 + nx * (1 - 1 + ny * 1) then 1 else 0, fun n s run hd e => ?_⟩
  rw [(C90_result (by omega) (by omega) dx dy dz _ sh run hd).1 1 1 1 (by unfold Inner; omega)] at e
  have inj : ∀ i j k : Int, 0 ≤ i → i < nx → 0 ≤ j → j < ny → (i + nx * (j + ny * k) = 1 + nx * (1 - 1 + ny * 1) ↔ i = 1 ∧ j = 0 ∧ k = 1) := by
    intro i j k i1 i2 j1 j2
    constructor
    · intro e
      exact idx_inj i1 i2 j1 j2 (by omega) (by omega) (by omega) (by omega) (show idx nx ny i j k = idx nx ny 1 (1 - 1) 1 from e)
    · rintro ⟨rfl, rfl, rfl⟩; norm_num
  unfold seven sevenXYZ at e
  simp only [inj _ _ _ (show (0 : Int) ≤ 1 - 1 by omega) (show (1 : Int) - 1 < nx by omega) (show (0 : Int) ≤ 1 by omega) (show (1 : Int) < ny by omega),
    inj _ _ _ (show (0 : Int) ≤ 1 + 1 by omega) (show (1 : Int) + 1 < nx by omega) (show (0 : Int) ≤ 1 by omega) (show (1 : Int) < ny by omega),
    inj _ _ _ (show (0 : Int) ≤ 1 by omega) (show (1 : Int) < nx by omega) (show (0 : Int) ≤ 1 by omega) (show (1 : Int) < ny by omega),
    inj _ _ _ (show (0 : Int) ≤ 1 by omega) (show (1 : Int) < nx by omega) (show (0 : Int) ≤ 1 + 1 by omega) (show (1 : Int) + 1 < ny by omega)] at e
  norm_num at e
  rw [← mul_inv, ← mul_inv] at e
  exact h (inv_injective e)

example (sh : Nat → Nat → Int → Rat) : ∃ f : Int → Rat, ∃ n s, KRun (opt2Launch 16 16 4) (divergence 16 16 4 1 2 3 f sh) n s ∧
    s.glob 1 (1 + 16 * (1 + 16 * 1)) ≠ sevenXYZ 16 16 1 2 3 f 1 1 1 := by
  obtain ⟨f, hf⟩ := C90_spacing_ignored (nx := 16) (ny := 16) (nz := 4) (by omega) (by omega) (by omega) (dx := (1 : Rat)) (dy := 2) 3 (by norm_num) sh
  obtain ⟨n, s, run, hd⟩ := C90_ends_partial (nx := 16) (ny := 16) (nz := 4) (by omega) (by omega) (C90_room (by omega) (by omega) (by omega))
    (1 : Rat) 2 3 f sh
  exact ⟨f, n, s, run, hf n s run hd⟩

end GpuKern
end SpatialOps
