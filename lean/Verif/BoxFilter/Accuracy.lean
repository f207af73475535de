import Verif.BoxFilter.Props
import Verif.Accuracy.Lemmas
import Mathlib.Analysis.SpecialFunctions.Trigonometric.Deriv
import Mathlib.Analysis.SpecialFunctions.Trigonometric.Basic

/-!
# C102: what box filters do to smooth functions and to waves
-/

namespace SpatialOps
namespace BoxFilter

open Nebo Stencil Heat Accuracy

/-- The offsets of a filter's points in direction `d`, in half cells. -/
def offsets (b : Box) (d : Dir) : List Int := if b.over d then [-2, 0, 2] else [0]

theorem offsets_share (b : Box) (d : Dir) : Offs (offsets b d) (if b.over d then 1 / 3 else 0) := by
  unfold offsets
  split
  · exact .box
  · exact .none

theorem pts_combos (b : Box) : b.pts.toList.map (fun p => (⟨2 * p.x, 2 * p.y, 2 * p.z⟩ : IntVec)) =
    combos (offsets b .x) (offsets b .y) (offsets b .z) := by
  cases b <;> decide

theorem len_offsets (b : Box) : len b.pts = (offsets b .x).length * (offsets b .y).length * (offsets b .z).length := by
  cases b <;> decide

theorem mean_offsets (b : Box) (F : (Dir → ℝ) → ℝ) (h : Dir → ℝ) (t : FieldType) (c : IntVec) :
    mean b (fun q => F (position h t q)) c = Accuracy.mean (offsets b .z) fun k => Accuracy.mean (offsets b .y) fun j =>
      Accuracy.mean (offsets b .x) fun i => F (pt (position h t c .x + h .x * i / 2) (position h t c .y + h .y * j / 2)
        (position h t c .z + h .z * k / 2)) := by
  rw [mean_pts, sum_toList, len_offsets,
    ← combos_mean (offsets b .x) (offsets b .y) (offsets b .z) (fun o => F (pt (position h t c .x + h .x * o.x / 2)
      (position h t c .y + h .y * o.y / 2) (position h t c .z + h .z * o.z / 2))), ← pts_combos, List.map_map]
  congr 2
  refine List.map_congr_left fun p _ => ?_
  show F (position h t (c + p)) = F _
  congr 1
  funext d
  cases d <;> simp only [pt, position, comp] <;> split <;> push_cast [IntVec.add_x, IntVec.add_y, IntVec.add_z] <;> ring

/-- C102. Box filters are accurate to second order. Let the source hold the values of a function `F` whose second derivatives along the axes
are bounded by `M`. Then the filtered value of a cell differs from `F` at its place by at most a third of `h² M`, added up over the directions
of the filter; the others add nothing, whatever the function does in them. -/
theorem _root_.SpatialOps.C102_accuracy (b : Box) (n : IntVec) (hn : IntVec.Lt 0 n) (g : GhostData) (src dest : FieldObj) (k : Nat)
    (hf : Fit n g b.reach src dest k) (m : Mem ℝ) (h : Dir → ℝ) (hh : ∀ d, 0 < h d) (t : FieldType) (lo hi : Dir → ℝ) (F : (Dir → ℝ) → ℝ)
    (hF : ∀ c, FlatHas n src.geo c → InBox lo hi (position h t c) ∧ val n m src c = F (position h t c))
    (F1 F2 : Dir → (Dir → ℝ) → ℝ) (h1 : ∀ d, IsPartial lo hi d F (F1 d)) (h2 : ∀ d, IsPartial lo hi d (F1 d) (F2 d))
    (M : Dir → ℝ) (hM : ∀ d p, InBox lo hi p → |F2 d p| ≤ M d) :
    ∃ m', applyToField b src dest m = .ok m' ∧ ∀ c, FlatInterior n dest c →
      |val n m' dest c - F (position h t c)| ≤
        ((if b.over .x then h .x ^ 2 * M .x else 0) + (if b.over .y then h .y ^ 2 * M .y else 0) +
          (if b.over .z then h .z ^ 2 * M .z else 0)) / 3 := by
  obtain ⟨m', e1, e2, -⟩ := C102_mean b n hn g src dest k hf m
  refine ⟨m', e1, fun c hc => ?_⟩
  have hr := hf.reads c hc
  rw [e2 c hc, mean_congr fun q q1 q2 => (hF q (hr q q1 q2)).2, mean_offsets]
  have rb : IntVec.Le 0 b.reach := by cases b <;> decide
  have hin : ∀ d, ∀ o ∈ offsets b d, lo d ≤ position h t c d + h d * o / 2 ∧ position h t c d + h d * o / 2 ≤ hi d := by
    have key : ∀ d, ∀ o ∈ offsets b d, ∃ p ∈ b.pts.toList, 2 * comp p d = o := by
      intro d
      cases b <;> cases d <;> decide
    intro d o ho
    obtain ⟨p, hp, rfl⟩ := key d o ho
    obtain ⟨p1, p2⟩ := pts_near b p hp
    have := (hF (c + p) (hr (c + p) (by iv_omega) (by iv_omega))).1 d
    have e : position h t (c + p) d = position h t c d + h d * ((2 * comp p d : Int) : ℝ) / 2 := by
      cases d <;> simp only [position, comp] <;> split <;> push_cast [IntVec.add_x, IntVec.add_y, IntVec.add_z] <;> ring
    rw [e] at this
    exact this
  refine (product_bound (offsets_share b) hh h1 h2 hM hin).trans (le_of_eq ?_)
  split_ifs <;> ring

/-- C102. Waves. If the source holds a wave with phase `θ` per cell in each direction, then every box filter keeps the wave and multiplies its
height by `(1 + 2 cos θ) / 3` for each of its directions: `1` for a constant, `1/3` for a wave of four cells, `0` for one of three cells. -/
theorem _root_.SpatialOps.C102_waves (b : Box) (n : IntVec) (hn : IntVec.Lt 0 n) (g : GhostData) (src dest : FieldObj) (k : Nat)
    (hf : Fit n g b.reach src dest k) (m : Mem ℝ) (A φ : ℝ) (θ : Dir → ℝ)
    (hw : ∀ c, FlatHas n src.geo c → val n m src c = A * Real.cos (θ .x * c.x + θ .y * c.y + θ .z * c.z + φ)) :
    ∃ m', applyToField b src dest m = .ok m' ∧ ∀ c, FlatInterior n dest c →
      val n m' dest c = (if b.over .x then (1 + 2 * Real.cos (θ .x)) / 3 else 1) * (if b.over .y then (1 + 2 * Real.cos (θ .y)) / 3 else 1) *
        (if b.over .z then (1 + 2 * Real.cos (θ .z)) / 3 else 1) *
        (A * Real.cos (θ .x * c.x + θ .y * c.y + θ .z * c.z + φ)) := by
  obtain ⟨m', e1, e2, -⟩ := C102_mean b n hn g src dest k hf m
  refine ⟨m', e1, fun c hc => ?_⟩
  rw [e2 c hc, mean_congr fun q q1 q2 => hw q (hf.reads c hc q q1 q2)]
  have hm := mean_offsets b (fun p => A * Real.cos (θ .x * (p .x - 1 / 2) + θ .y * (p .y - 1 / 2) + θ .z * (p .z - 1 / 2) + φ))
    (fun _ => 1) .sVol c
  have step : ∀ (d : Dir) (ψ : ℝ), Accuracy.mean (offsets b d) (fun i => Real.cos (θ d * (i / 2) + ψ)) =
      (if b.over d then (1 + 2 * Real.cos (θ d)) / 3 else 1) * Real.cos ψ := by
    intro d ψ
    unfold offsets
    split
    · simp only [Accuracy.mean, List.map_cons, List.map_nil, List.sum_cons, List.sum_nil, List.length_cons, List.length_nil]
      push_cast
      rw [show θ d * (-2 / 2) + ψ = ψ - θ d by ring, show θ d * (0 / 2) + ψ = ψ by ring, show θ d * (2 / 2) + ψ = ψ + θ d by ring,
        Real.cos_sub, Real.cos_add]
      ring
    · simp [Accuracy.mean]
  have lin : ∀ (d : Dir) (x : ℝ) (f : Int → ℝ), Accuracy.mean (offsets b d) (fun i => x * f i) = x * Accuracy.mean (offsets b d) f := by
    intro d x f
    unfold Accuracy.mean
    rw [List.sum_map_mul_left, mul_div_assoc]
  have pos : ∀ (q : IntVec) (d : Dir), position (fun _ => (1 : ℝ)) .sVol q d - 1 / 2 = comp q d := by
    intro q d
    have st : staggered .sVol d = false := by cases d <;> rfl
    unfold position
    rw [st]
    simp
  simp only [pos, comp, pt, one_mul] at hm
  have a : ∀ (x y z : ℝ) (i j k : Int), θ .x * (x + i / 2 - 1 / 2) + θ .y * (y + j / 2 - 1 / 2) + θ .z * (z + k / 2 - 1 / 2) + φ =
      θ .x * (i / 2) + (θ .y * (j / 2) + (θ .z * (k / 2) + (θ .x * (x - 1 / 2) + θ .y * (y - 1 / 2) + θ .z * (z - 1 / 2) + φ))) := by
    intros; ring
  simp only [a, lin, step, pos, comp] at hm
  rw [hm]
  ring

/-- C102. The bound of `C102_accuracy` is attained: by sums of squares of the coordinates. -/
theorem _root_.SpatialOps.C102_accuracy_attained (b : Box) (n : IntVec) (hn : IntVec.Lt 0 n) (g : GhostData) (src dest : FieldObj) (k : Nat)
    (hf : Fit n g b.reach src dest k) (m : Mem ℝ) (h : Dir → ℝ) (t : FieldType) (M : Dir → ℝ)
    (hF : ∀ c, FlatHas n src.geo c → val n m src c = M .x / 2 * position h t c .x ^ 2 + M .y / 2 * position h t c .y ^ 2 +
      M .z / 2 * position h t c .z ^ 2) :
    ∃ m', applyToField b src dest m = .ok m' ∧ ∀ c, FlatInterior n dest c →
      val n m' dest c - (M .x / 2 * position h t c .x ^ 2 + M .y / 2 * position h t c .y ^ 2 + M .z / 2 * position h t c .z ^ 2) =
        ((if b.over .x then h .x ^ 2 * M .x else 0) + (if b.over .y then h .y ^ 2 * M .y else 0) +
          (if b.over .z then h .z ^ 2 * M .z else 0)) / 3 := by
  obtain ⟨m', e1, e2, -⟩ := C102_mean b n hn g src dest k hf m
  refine ⟨m', e1, fun c hc => ?_⟩
  rw [e2 c hc, mean_congr fun q q1 q2 => hF q (hf.reads c hc q q1 q2)]
  rw [mean_offsets b (fun p => M .x / 2 * p .x ^ 2 + M .y / 2 * p .y ^ 2 + M .z / 2 * p .z ^ 2) h t c]
  cases b <;> simp [offsets, Box.over, Accuracy.mean, pt] <;> ring

/-! ## Concrete cases -/

namespace BoxFilterEx

/-- A memory in which the source, on the plane mesh of 4 by 3 cells, holds `f x y`. -/
noncomputable def sample (f : Int → Int → ℝ) : Mem ℝ := fun _ a => f (a % 6 - 1) (a / 6 - 1)

theorem sample_val (f : Int → Int → ℝ) (c : IntVec) (hc : FlatHas ⟨4, 3, 1⟩ (FlatEx.fld 1 false 0).geo c) :
    c.z = 0 ∧ (-1 ≤ c.x ∧ c.x ≤ 4) ∧ (-1 ≤ c.y ∧ c.y ≤ 3) ∧ val ⟨4, 3, 1⟩ (sample f) (FlatEx.fld 1 false 0) c = f c.x c.y := by
  have e1 : (FlatEx.geo 1 false).window = ⟨⟨6, 5, 1⟩, 0, ⟨6, 5, 1⟩⟩ := by decide
  have e2 : (FlatEx.geo 1 false).validGhosts.minus = ⟨1, 1, 1⟩ := by decide
  have e3 : (FlatEx.fld 1 false 0).geo.validGhosts.plus + (FlatEx.fld 1 false 0).geo.bc.hasExtra = ⟨1, 1, 1⟩ := by decide
  have e4 : (FlatEx.fld 1 false 0).geo.validGhosts.minus = ⟨1, 1, 1⟩ := by decide
  unfold FlatHas at hc
  rw [e3, e4] at hc
  have pz : c.z = 0 := (inSpans_plane hc).2.2 rfl
  have hb : (-1 ≤ c.x ∧ c.x ≤ 4) ∧ (-1 ≤ c.y ∧ c.y ≤ 3) := by
    unfold InSpans InSpan at hc
    iv_omega
  refine ⟨pz, hb.1, hb.2, ?_⟩
  have ha : flatAddr ⟨4, 3, 1⟩ (FlatEx.geo 1 false) c = 6 * (c.y + 1) + (c.x + 1) := by
    unfold flatAddr
    rw [e1, e2]
    simp [places, place, fortranPos]
    ring
  show sample f 0 (flatAddr ⟨4, 3, 1⟩ (FlatEx.geo 1 false) c) = _
  rw [ha]
  unfold sample
  have hx : (6 * (c.y + 1) + (c.x + 1)) % 6 - 1 = c.x := by omega
  have hy : (6 * (c.y + 1) + (c.x + 1)) / 6 - 1 = c.y := by omega
  rw [hx, hy]

/-- A wave of three cells along the plane disappears. -/
example : ∃ m', applyToField .xy (FlatEx.fld 1 false 0) (FlatEx.fld 1 false 1)
      (sample fun x _ => 7 * Real.cos (2 * Real.pi / 3 * x)) = .ok m' ∧
    ∀ c, FlatInterior ⟨4, 3, 1⟩ (FlatEx.fld 1 false 1) c → val ⟨4, 3, 1⟩ m' (FlatEx.fld 1 false 1) c = 0 := by
  obtain ⟨m', h1, h2⟩ := C102_waves .xy ⟨4, 3, 1⟩ (by decide) FlatEx.ghost _ _ 1 fit (sample fun x _ => 7 * Real.cos (2 * Real.pi / 3 * x)) 7 0
    (fun d => if d = .x then 2 * Real.pi / 3 else 0) fun c hc => by
      rw [(sample_val _ c hc).2.2.2]
      simp
  refine ⟨m', h1, fun c hc => ?_⟩
  rw [h2 c hc]
  have : Real.cos (2 * Real.pi / 3) = -(1 / 2) := by
    rw [show 2 * Real.pi / 3 = Real.pi - Real.pi / 3 by ring, Real.cos_pi_sub, Real.cos_pi_div_three]
  have ox : Box.xy.over .x = true ∧ Box.xy.over .y = true ∧ Box.xy.over .z = false := by decide
  rw [ox.1, ox.2.1, ox.2.2]
  have dd : Dir.y ≠ Dir.x := by decide
  norm_num [this, dd]

/-- A sine along `x`, on cells of width a tenth: the error is at most a three hundredth. -/
example : ∃ m', applyToField .xy (FlatEx.fld 1 false 0) (FlatEx.fld 1 false 1)
      (sample fun x y => Real.sin (1 / 10 * (x + 1 / 2)) + 1 / 10 * (y + 1 / 2)) = .ok m' ∧
    ∀ c, FlatInterior ⟨4, 3, 1⟩ (FlatEx.fld 1 false 1) c →
      |val ⟨4, 3, 1⟩ m' (FlatEx.fld 1 false 1) c - (Real.sin (1 / 10 * (c.x + 1 / 2)) + 1 / 10 * (c.y + 1 / 2))| ≤ 1 / 300 := by
  have upd : ∀ (p : Dir → ℝ) (d d' : Dir) (t : ℝ), Function.update p d t d' = if d' = d then t else p d' := fun p d d' t => by
    rw [Function.update_apply]
  obtain ⟨m', h1, h2⟩ := C102_accuracy .xy ⟨4, 3, 1⟩ (by decide) FlatEx.ghost _ _ 1 fit
    (sample fun x y => Real.sin (1 / 10 * (x + 1 / 2)) + 1 / 10 * (y + 1 / 2)) (fun _ => 1 / 10) (fun _ => by norm_num) .sVol (fun _ => -1) (fun _ => 1)
    (fun p => Real.sin (p .x) + p .y)
    (fun d hc => by
      obtain ⟨z, ⟨x1, x2⟩, ⟨y1, y2⟩, e⟩ := sample_val (fun x y => Real.sin (1 / 10 * (x + 1 / 2)) + 1 / 10 * (y + 1 / 2)) d hc
      refine ⟨fun dd => ?_, ?_⟩
      · have x1' : (-1 : ℝ) ≤ d.x := by exact_mod_cast x1
        have x2' : (d.x : ℝ) ≤ 4 := by exact_mod_cast x2
        have y1' : (-1 : ℝ) ≤ d.y := by exact_mod_cast y1
        have y2' : (d.y : ℝ) ≤ 3 := by exact_mod_cast y2
        have z' : (d.z : ℝ) = 0 := by exact_mod_cast z
        cases dd <;> simp only [position, staggered, comp] <;> constructor <;> norm_num [z'] <;> linarith
      · rw [e]
        simp [position, staggered, comp])
    (fun d p => match d with | .x => Real.cos (p .x) | .y => 1 | .z => 0)
    (fun d p => match d with | .x => -Real.sin (p .x) | .y => 0 | .z => 0)
    (fun d p _ => by
      cases d
      · simpa [upd] using (Real.hasDerivAt_sin (p .x)).add_const (p .y)
      · simpa [upd] using (hasDerivAt_id (p .y)).const_add (Real.sin (p .x))
      · simpa [upd] using hasDerivAt_const (p .z) (Real.sin (p .x) + p .y))
    (fun d p _ => by
      cases d
      · simpa [upd] using Real.hasDerivAt_cos (p .x)
      · simpa [upd] using hasDerivAt_const (p .y) (1 : ℝ)
      · simpa [upd] using hasDerivAt_const (p .z) (0 : ℝ))
    (fun d => if d = .x then 1 else 0)
    (fun d p _ => by cases d <;> simp [Real.abs_sin_le_one])
  refine ⟨m', h1, fun c hc => ?_⟩
  have := h2 c hc
  have ox : Box.xy.over .x = true ∧ Box.xy.over .y = true ∧ Box.xy.over .z = false := by decide
  have dd : Dir.y ≠ Dir.x := by decide
  rw [ox.1, ox.2.1, ox.2.2] at this
  simp only [position, staggered, comp] at this
  norm_num [dd] at this ⊢
  exact this

end BoxFilterEx
end BoxFilter
end SpatialOps
