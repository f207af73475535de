import Verif.BoxFilter.Spec
import Verif.Heat.Calc
import Mathlib.Tactic.Linarith
import Mathlib.Tactic.FieldSimp
import Mathlib.Tactic.Ring

/-!
# Lemmas on the box filters
-/

namespace SpatialOps
namespace BoxFilter

open Nebo Stencil Heat

variable {K : Type} [Field K]

/-- The points of a filter are those of its box. -/
theorem pts_near (b : Box) : ∀ p ∈ b.pts.toList, IntVec.Le (-b.reach) p ∧ IntVec.Le p b.reach := by
  cases b <;> decide

theorem pts_all (b : Box) : ∀ x ∈ [(-1 : Int), 0, 1], ∀ y ∈ [(-1 : Int), 0, 1], ∀ z ∈ [(-1 : Int), 0, 1],
    IntVec.Le (-b.reach) ⟨x, y, z⟩ → IntVec.Le ⟨x, y, z⟩ b.reach → (⟨x, y, z⟩ : IntVec) ∈ b.pts.toList := by
  cases b <;> decide

theorem len_pts (b : Box) : ((len b.pts : Nat) : Int) = b.size.x * b.size.y * b.size.z := by
  cases b <;> decide

theorem len_pos (b : Box) : 0 < len b.pts := by
  cases b <;> decide

/-- The sum of the stencil is the sum over the box. -/
theorem pts_sum (b : Box) (v : IntVec → K) (c : IntVec) : b.pts.sum (fun p => v (c + p)) = blockSum (c - b.reach) b.size v := by
  have p0 : ∀ a : Int, a - 1 + 0 = a + -1 := by intro a; omega
  have p1 : ∀ a : Int, a - 1 + 1 = a + 0 := by intro a; omega
  have p2 : ∀ a : Int, a - 1 + 2 = a + 1 := by intro a; omega
  have p3 : ∀ a : Int, a - 0 + 0 = a + 0 := by intro a; omega
  have hv : ∀ x y z : Int, v (c + ⟨x, y, z⟩) = v ⟨c.x + x, c.y + y, c.z + z⟩ := fun _ _ _ => rfl
  have h3 : (3 : Int).toNat = 3 := rfl
  have h1 : (1 : Int).toNat = 1 := rfl
  have T : (Dir.x == Dir.x) = true := rfl
  unfold blockSum
  cases b <;>
    · simp only [Box.pts, Box.reach, Box.size, Box.over, box3D, box2DXY, box2DXZ, box2DYZ, box1DX, box1DY, box1DZ, mkPts, List.foldl_cons,
        List.foldl_nil, Pts.sum, hv, IntVec.sub_x, IntVec.sub_y, IntVec.sub_z, if_true, Bool.false_eq_true, if_false, reduceCtorEq,
        bne_self_eq_false, bne_iff_ne, ne_eq, not_false_eq_true, beq_iff_eq, h3, h1, Finset.sum_range_succ, Finset.sum_range_zero, zero_add,
        Nat.cast_zero, Nat.cast_one, Nat.cast_ofNat, p0, p1, p2, p3]
      try ring

theorem filter_value (n : IntVec) (b : Box) (e : Expr K .num) (m : Mem K) (c : IntVec) :
    (filter b e).flatValue n m c = mean b (fun q => (e.flatValue n m q : K)) c := by
  show (b.pts.sum fun p => (e.flatValue n m (c + p) : K)) * (1 / (len b.pts : K)) = _
  rw [pts_sum b (fun q => (e.flatValue n m q : K)) c]
  unfold mean
  rw [← len_pts]
  push_cast
  rw [mul_one_div]

theorem filter_defined {n : IntVec} {b : Box} {e : Expr K .num} {c : IntVec} (hc : IntVec.Le ⟨-100, -100, -100⟩ c ∧ IntVec.Lt c (n + ⟨100, 100, 100⟩))
    (hp : InPlane n c) (h : ∀ q, IntVec.Le (c - b.reach) q → IntVec.Le q (c + b.reach) → e.FlatDefined n q) : (filter b e).FlatDefined n c := by
  refine ⟨fun p hp' => ?_, ?_⟩
  · have hb := pts_near b p hp'
    have hr : IntVec.Le 0 b.reach := by cases b <;> decide
    exact ⟨h c (by iv_omega) (by iv_omega), h (c + p) (by iv_omega) (by iv_omega)⟩
  · show InSpans n _ _ c
    exact inSpans_of (by unfold ghostMax; iv_omega) (by unfold ghostMax; iv_omega) hp

theorem filter_wf {n : IntVec} {g : GhostData} {b : Box} {e : Expr K .num} (hp : InPlane n b.reach) (he : e.FlatWf n g) : (filter b e).FlatWf n g := by
  refine ⟨⟨fun p h => ?_, he⟩, trivial⟩
  have := pts_near b p h
  unfold InPlane at *
  iv_omega

theorem filter_independent {b : Box} {e : Expr K .num} {l : FieldObj} (h : ∀ s, e.Independent l s) (s : IntVec) : (filter b e).Independent l s :=
  ⟨fun _ _ => h _, trivial⟩

/-- The cells around an interior cell. -/
theorem interior_bounds {n : IntVec} (hn : IntVec.Lt 0 n) {l : FieldObj} (he : IntVec.Le l.geo.bc.hasExtra ⟨1, 1, 1⟩) {c : IntVec} (hc : FlatInterior n l c) :
    IntVec.Le 0 c ∧ IntVec.Lt c (n + ⟨1, 1, 1⟩) := by
  unfold FlatInterior InSpans InSpan at hc
  iv_omega

/-! ## Means -/

/-- What the mean is in terms of the points. -/
theorem mean_pts (b : Box) (v : IntVec → K) (c : IntVec) : mean b v c = b.pts.sum (fun p => v (c + p)) / (len b.pts : K) := by
  rw [pts_sum]
  unfold mean
  rw [← len_pts]
  push_cast
  rfl

theorem mean_congr {b : Box} {v w : IntVec → K} {c : IntVec} (h : ∀ q, IntVec.Le (c - b.reach) q → IntVec.Le q (c + b.reach) → v q = w q) :
    mean b v c = mean b w c := by
  rw [mean_pts, mean_pts]
  congr 1
  have : ∀ {P : Pts IntVec}, (∀ p ∈ P.toList, v (c + p) = w (c + p)) → P.sum (fun p => v (c + p)) = P.sum fun p => w (c + p) := by
    intro P
    induction P with
    | one a => intro h; exact h a (by simp [Pts.toList])
    | more e a ih => intro h; simp only [Pts.sum]; rw [ih fun p hp => h p (by simp [Pts.toList, hp]), h a (by simp [Pts.toList])]
  exact this fun p hp => by
    have := pts_near b p hp
    exact h _ (by iv_omega) (by iv_omega)

end BoxFilter
end SpatialOps
