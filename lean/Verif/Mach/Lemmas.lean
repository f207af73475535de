import Verif.Mach.Spec
import Verif.Iter.Lemmas
import Verif.Mask.Lemmas

namespace SpatialOps
namespace Mach

theorem chk_ok {x : Int} (h : Fit x) : chk x = .ok x := if_pos h
theorem chk_ub {x : Int} (h : ¬ Fit x) : chk x = .ub := if_neg h

theorem add_ok {a b : Int} (h : Fit (a + b)) : add a b = .ok (a + b) := chk_ok h
theorem sub_ok {a b : Int} (h : Fit (a - b)) : sub a b = .ok (a - b) := chk_ok h
theorem mul_ok {a b : Int} (h : Fit (a * b)) : mul a b = .ok (a * b) := chk_ok h
theorem neg_ok {a : Int} (h : Fit (-a)) : neg a = .ok (-a) := chk_ok h

theorem tdiv_fit {a b : Int} (ha : 0 ≤ a) (hb : 0 < b) (h : Fit a) : Fit (a.tdiv b) := by
  rw [Int.tdiv_eq_ediv_of_nonneg ha]
  have h1 : 0 ≤ a / b := Int.ediv_nonneg ha hb.le
  have h2 : a / b ≤ a := Int.ediv_le_self _ ha
  unfold Fit at *
  omega

theorem div_ok {a b : Int} (ha : 0 ≤ a) (hb : 0 < b) (h : Fit a) : div a b = .ok (a.tdiv b) := by
  unfold div
  rw [if_neg (by omega), chk_ok (tdiv_fit ha hb h)]

theorem mod_ok {a b : Int} (ha : 0 ≤ a) (hb : 0 < b) (h : Fit a) : mod a b = .ok (a.tmod b) := by
  unfold mod
  rw [if_neg (by omega), if_pos (tdiv_fit ha hb h)]

theorem sz_id {x : Int} (h0 : 0 ≤ x) (h : x < 18446744073709551616) : sz x = x :=
  Int.emod_eq_of_lt h0 h

theorem toInt_id {x : Int} (h : Fit x) : toInt x = x := by
  unfold toInt; unfold Fit at h
  rw [Int.emod_eq_of_lt (by omega) (by omega)]; omega

theorem szsmall {x : Int} (h0 : 0 ≤ x) (h : x ≤ intMax) : sz x = x :=
  sz_id h0 (by unfold intMax at h; omega)

theorem fit_of {x : Int} (h0 : 0 ≤ x) (h : x ≤ intMax) : Fit x := by
  unfold Fit; unfold intMax at h; omega

theorem fit_abs {x b : Int} (h0 : -b ≤ x) (h1 : x ≤ b) (h : b ≤ intMax) : Fit x := by
  unfold Fit; unfold intMax at h; omega

/-- Sizes in a block with at most `intMax` cells. -/
structure Bounds (w : Window) : Prop where
  nx : 0 < w.npts.x
  ny : 0 < w.npts.y
  nz : 0 < w.npts.z
  ox : 0 ≤ w.offset.x
  oy : 0 ≤ w.offset.y
  oz : 0 ≤ w.offset.z
  ex : 0 ≤ w.extent.x
  ey : 0 ≤ w.extent.y
  ez : 0 ≤ w.extent.z
  sx : w.offset.x + w.extent.x ≤ w.npts.x
  sy : w.offset.y + w.extent.y ≤ w.npts.y
  szz : w.offset.z + w.extent.z ≤ w.npts.z
  all : w.npts.x * w.npts.y * w.npts.z ≤ intMax

theorem bounds {w : Window} (hw : w.Fits) (hs : w.npts.CountFits) : Bounds w := by
  obtain ⟨⟨a1, a2, a3⟩, ⟨b1, b2, b3⟩, ⟨c1, c2, c3⟩, ⟨d1, d2, d3⟩⟩ := hw
  exact ⟨a1, a2, a3, b1, b2, b3, c1, c2, c3, d1, d2, d3, hs⟩

namespace Bounds

variable {w : Window} (b : Bounds w)
include b

theorem xy_le : w.npts.x * w.npts.y ≤ intMax := by
  have := b.nx; have := b.ny; have := b.nz; have := b.all
  have : 0 < w.npts.x * w.npts.y := by positivity
  nlinarith

theorem x_le : w.npts.x ≤ intMax := by
  have := b.xy_le; have := b.nx; have := b.ny
  nlinarith

theorem y_le : w.npts.y ≤ intMax := by
  have := b.xy_le; have := b.nx; have := b.ny
  nlinarith

theorem z_le : w.npts.z ≤ intMax := by
  have := b.nx; have := b.ny; have := b.nz; have := b.all
  have : 0 < w.npts.x * w.npts.y := by positivity
  nlinarith

theorem exy_le : w.extent.x * w.extent.y ≤ w.npts.x * w.npts.y :=
  mul_le_mul (by have := b.sx; have := b.ox; omega) (by have := b.sy; have := b.oy; omega)
    b.ey b.nx.le

theorem local_le : w.extent.x * w.extent.y * w.extent.z ≤ intMax :=
  le_trans (mul_le_mul b.exy_le (by have := b.szz; have := b.oz; omega) b.ez
    (by have := b.nx; have := b.ny; positivity)) b.all

theorem rows_le : w.npts.x * (w.extent.y * w.extent.z) ≤ intMax := by
  have h : w.extent.y * w.extent.z ≤ w.npts.y * w.npts.z :=
    mul_le_mul (by have := b.sy; have := b.oy; omega) (by have := b.szz; have := b.oz; omega)
      b.ez b.ny.le
  have := mul_le_mul_of_nonneg_left h b.nx.le
  have := b.all
  nlinarith

theorem planes_le : w.npts.x * w.npts.y * w.extent.z ≤ intMax :=
  le_trans (mul_le_mul_of_nonneg_left (by have := b.szz; have := b.oz; omega)
    (by have := b.nx; have := b.ny; positivity)) b.all

end Bounds

theorem start_eq {w : Window} (b : Bounds w) (base : Int) : start base w = It.start base w := by
  have h1 := b.nx; have h2 := b.ny; have h3 := b.nz
  have o1 := b.ox; have o2 := b.oy; have o3 := b.oz
  have e1 := b.ex; have e2 := b.ey; have e3 := b.ez
  have s1 := b.sx; have s2 := b.sy; have s3 := b.szz
  have x1 := b.x_le; have x2 := b.y_le; have x3 := b.z_le
  have xy := b.xy_le; have exy := b.exy_le; have all := b.all
  have p1 : 0 ≤ w.offset.y * w.npts.x := by positivity
  have p2 : w.offset.y * w.npts.x ≤ intMax := by nlinarith
  have p3 : 0 ≤ w.offset.z * w.npts.x := by positivity
  have p4 : w.offset.z * w.npts.x * w.npts.y ≤ intMax := by
    have : w.offset.z * (w.npts.x * w.npts.y) ≤ w.npts.z * (w.npts.x * w.npts.y) :=
      mul_le_mul_of_nonneg_right (by omega) (by positivity)
    nlinarith
  have p5 : w.offset.z * w.npts.x ≤ intMax := by nlinarith
  have p6 : 0 ≤ w.offset.z * w.npts.x * w.npts.y := by positivity
  have q1 : 0 ≤ (w.npts.y - w.extent.y) * w.npts.x := mul_nonneg (by omega) h1.le
  have q2 : (w.npts.y - w.extent.y) * w.npts.x ≤ intMax := by nlinarith
  have q3 : 0 ≤ w.extent.x * w.extent.y := by positivity
  unfold start It.start
  simp only [It.mk.injEq, true_and]
  rw [szsmall o1 (by omega), szsmall o2 (by omega), szsmall o3 (by omega), szsmall h1.le x1,
    szsmall h2.le x2, szsmall e1 (by omega), szsmall e2 (by omega), szsmall e3 (by omega),
    szsmall p1 p2, szsmall p3 p5, szsmall p6 p4, szsmall (x := w.npts.x - w.extent.x) (by omega) (by omega),
    szsmall (x := w.npts.y - w.extent.y) (by omega) (by omega), szsmall q1 q2, szsmall q3 (by omega),
    toInt_id (fit_of (by omega) (by omega)), toInt_id (fit_of q1 q2),
    toInt_id (fit_of e1 (by omega)), toInt_id (fit_of e2 (by omega)),
    toInt_id (fit_of e3 (by omega)), toInt_id (fit_of q3 (by omega))]
  simp

theorem finishCount_eq {w : Window} (b : Bounds w) :
    toInt (sz (sz (sz w.extent.x * sz w.extent.y) * sz w.extent.z)) =
      w.extent.x * w.extent.y * w.extent.z := by
  have o1 := b.ox; have o2 := b.oy; have o3 := b.oz
  have e1 := b.ex; have e2 := b.ey; have e3 := b.ez
  have s1 := b.sx; have s2 := b.sy; have s3 := b.szz
  have x1 := b.x_le; have x2 := b.y_le; have x3 := b.z_le
  have xy := b.xy_le; have exy := b.exy_le; have l := b.local_le
  have q3 : 0 ≤ w.extent.x * w.extent.y := by positivity
  have q4 : 0 ≤ w.extent.x * w.extent.y * w.extent.z := by positivity
  rw [szsmall e1 (by omega), szsmall e2 (by omega), szsmall e3 (by omega), szsmall q3 (by omega),
    szsmall q4 l, toInt_id (fit_of q4 l)]

/-- Facts about a position used in every step. -/
theorem pos_facts {w : Window} (b : Bounds w) {x y z : Int} (h : It.Pos w x y z) :
    0 ≤ x ∧ x < w.extent.x ∧ w.extent.x ≤ intMax ∧ 0 ≤ y ∧ y < w.extent.y ∧ w.extent.y ≤ intMax ∧
    0 ≤ z ∧ z ≤ w.extent.z ∧ w.extent.z ≤ intMax ∧
    0 ≤ x + w.extent.x * (y + w.extent.y * z) ∧
    x + w.extent.x * (y + w.extent.y * z) ≤ w.extent.x * w.extent.y * w.extent.z ∧
    w.extent.x * w.extent.y * w.extent.z ≤ intMax := by
  have o1 := b.ox; have o2 := b.oy; have o3 := b.oz
  have s1 := b.sx; have s2 := b.sy; have s3 := b.szz
  have x1 := b.x_le; have x2 := b.y_le; have x3 := b.z_le
  have hc := h.count_le
  obtain ⟨h1, h2, h3, h4, h5, h6⟩ := h
  exact ⟨h1, h2, by omega, h3, h4, by omega, h5, by omega, by omega, hc.1, hc.2, b.local_le⟩

/-- The successor of a position is one step further in the count. -/
theorem inc_eq {w : Window} (b : Bounds w) (base : Int) {x y z : Int} (h : It.Pos w x y z)
    (hk : x + w.extent.x * (y + w.extent.y * z) + 1 ≤ w.extent.x * w.extent.y * w.extent.z) :
    inc (It.canon base w x y z) = .ok (It.canon base w x y z).inc := by
  have hz : z < w.extent.z := h.lt_iff.1 (by omega)
  obtain ⟨h1, h2, h3, h4, h5, h6, h7, h8, h9, h10, h11, h12⟩ := pos_facts b h
  unfold inc It.inc It.canon It.start
  dsimp only
  rw [add_ok (fit_of (by omega) (by omega)), Outcome.ok_bind, add_ok (fit_of (by omega) (by omega)),
    Outcome.ok_bind]
  by_cases c1 : x + 1 = w.extent.x
  · rw [if_pos c1, if_pos c1]
    unfold incRow
    dsimp only
    rw [add_ok (fit_of (by omega) (by omega)), Outcome.ok_bind]
    by_cases c2 : y + 1 = w.extent.y
    · rw [if_pos c2, if_pos c2, add_ok (fit_of (by omega) (by omega)), Outcome.ok_bind]; rfl
    · rw [if_neg c2, if_neg c2]; rfl
  · rw [if_neg c1, if_neg c1]; rfl

theorem dec_eq {w : Window} (b : Bounds w) (base : Int) {x y z : Int} (h : It.Pos w x y z) :
    dec (It.canon base w x y z) = .ok (It.canon base w x y z).dec := by
  obtain ⟨h1, h2, h3, h4, h5, h6, h7, h8, h9, h10, h11, h12⟩ := pos_facts b h
  have hm : (0:Int) ≤ intMax := by decide
  have fs : ∀ {a : Int}, 0 ≤ a → a ≤ intMax → Fit (a - 1) := fun {a} p q => by
    unfold Fit; unfold intMax at q; omega
  unfold dec It.dec It.canon It.start
  dsimp only
  rw [sub_ok (fs (by omega) (by omega)), Outcome.ok_bind, sub_ok (fs (by omega) (by omega)),
    Outcome.ok_bind]
  by_cases c1 : x - 1 = -1
  · rw [if_pos c1, if_pos c1]
    unfold decRow
    dsimp only
    rw [sub_ok (fs (by omega) (by omega)), Outcome.ok_bind, sub_ok (fs (by omega) (by omega)),
      Outcome.ok_bind]
    by_cases c2 : y - 1 = -1
    · rw [if_pos c2, if_pos c2, sub_ok (fs (by omega) (by omega)), Outcome.ok_bind,
        sub_ok (fs (by omega) (by omega)), Outcome.ok_bind]; rfl
    · rw [if_neg c2, if_neg c2]; rfl
  · rw [if_neg c1, if_neg c1]; rfl

theorem small_eq {xe x n : Int} (h1 : 0 ≤ x) (h2 : x ≤ xe) (h3 : xe ≤ intMax)
    (h4 : -intMax ≤ n) :
    small xe x n = .ok (decide ((0 < n ∧ n < xe - x) ∨ (n < 0 ∧ -n < x))) := by
  unfold small
  by_cases p : 0 < n
  · rw [if_pos p, sub_ok (fit_of (by omega) (by omega)), Outcome.ok_bind, Outcome.pure_eq]
    congr 1
    apply decide_eq_decide.2
    omega
  · rw [if_neg p]
    by_cases q : n < 0
    · rw [if_pos q, neg_ok (fit_of (by omega) (by omega)), Outcome.ok_bind, Outcome.pure_eq]
      congr 1
      apply decide_eq_decide.2
      omega
    · rw [if_neg q, Outcome.pure_eq]
      congr 1
      symm
      apply decide_eq_false
      omega

/-- Bound on a product of a step and a difference of two quotients. -/
theorem step_bound {s d n : Int} (hs : 0 ≤ s) (h1 : -n ≤ d) (h2 : d ≤ n) :
    -(s * n) ≤ s * d ∧ s * d ≤ s * n := by
  constructor
  · have := mul_le_mul_of_nonneg_left h1 hs
    nlinarith
  · exact mul_le_mul_of_nonneg_left h2 hs

theorem jump_eq {w : Window} (b : Bounds w) (he : w.Nonempty) {x y z n : Int}
    (h : It.Pos w x y z)
    (hk0 : 0 ≤ x + w.extent.x * (y + w.extent.y * z) + n)
    (hk : x + w.extent.x * (y + w.extent.y * z) + n ≤ w.extent.x * w.extent.y * w.extent.z) :
    jump (x + w.extent.x * (y + w.extent.y * z)) (w.npts.x - w.extent.x)
        ((w.npts.y - w.extent.y) * w.npts.x) w.extent.x (w.extent.x * w.extent.y) n =
      .ok (n + (w.npts.x - w.extent.x) *
          ((x + w.extent.x * (y + w.extent.y * z) + n).tdiv w.extent.x -
            (x + w.extent.x * (y + w.extent.y * z)).tdiv w.extent.x) +
        (w.npts.y - w.extent.y) * w.npts.x *
          ((x + w.extent.x * (y + w.extent.y * z) + n).tdiv (w.extent.x * w.extent.y) -
            (x + w.extent.x * (y + w.extent.y * z)).tdiv (w.extent.x * w.extent.y))) := by
  obtain ⟨e0, e1, e2⟩ := he
  simp only [IntVec.zero_x, IntVec.zero_y, IntVec.zero_z] at e0 e1 e2
  obtain ⟨h1, h2, h3, h4, h5, h6, h7, h8, h9, h10, h11, h12⟩ := pos_facts b h
  set k := x + w.extent.x * (y + w.extent.y * z) with hkdef
  have exy : 0 < w.extent.x * w.extent.y := by positivity
  have o1 := b.ox; have o2 := b.oy
  have s1 := b.sx; have s2 := b.sy
  have f1 : Fit (k + n) := fit_of hk0 (by omega)
  have f2 : Fit k := fit_of h10 (by omega)
  have quot : ∀ {a : Int}, 0 ≤ a → a ≤ w.extent.x * w.extent.y * w.extent.z →
      (0 ≤ a.tdiv w.extent.x ∧ a.tdiv w.extent.x ≤ w.extent.y * w.extent.z) ∧
      (0 ≤ a.tdiv (w.extent.x * w.extent.y) ∧ a.tdiv (w.extent.x * w.extent.y) ≤ w.extent.z) := by
    intro a p q
    rw [Int.tdiv_eq_ediv_of_nonneg p, Int.tdiv_eq_ediv_of_nonneg p]
    refine ⟨⟨Int.ediv_nonneg p e0.le, ?_⟩, ⟨Int.ediv_nonneg p exy.le, ?_⟩⟩
    · exact Int.ediv_le_of_le_mul e0 (by nlinarith)
    · exact Int.ediv_le_of_le_mul exy (by nlinarith)
  obtain ⟨⟨a1, a2⟩, ⟨a3, a4⟩⟩ := quot hk0 hk
  obtain ⟨⟨c1, c2⟩, ⟨c3, c4⟩⟩ := quot h10 h11
  have eyz : w.extent.y * w.extent.z ≤ intMax := by
    have := b.rows_le; have := b.nx
    have : 0 ≤ w.extent.y * w.extent.z := by positivity
    nlinarith
  have st1 : 0 ≤ w.npts.x - w.extent.x := by omega
  have st2 : 0 ≤ (w.npts.y - w.extent.y) * w.npts.x := mul_nonneg (by omega) b.nx.le
  obtain ⟨g1, g2⟩ := step_bound (n := w.extent.y * w.extent.z) st1
    (d := (k + n).tdiv w.extent.x - k.tdiv w.extent.x) (by omega) (by omega)
  obtain ⟨g3, g4⟩ := step_bound (n := w.extent.z) st2
    (d := (k + n).tdiv (w.extent.x * w.extent.y) - k.tdiv (w.extent.x * w.extent.y))
    (by omega) (by omega)
  have t1 : w.extent.x * w.extent.y * w.extent.z + (w.npts.x - w.extent.x) * (w.extent.y * w.extent.z) =
      w.npts.x * (w.extent.y * w.extent.z) := by ring
  have t2 : w.npts.x * (w.extent.y * w.extent.z) + (w.npts.y - w.extent.y) * w.npts.x * w.extent.z =
      w.npts.x * w.npts.y * w.extent.z := by ring
  have t3 := b.rows_le
  have t4 := b.planes_le
  have t5 : 0 ≤ w.npts.x * (w.extent.y * w.extent.z) := by have := b.nx; positivity
  have t6 : 0 ≤ w.extent.x * w.extent.y * w.extent.z := by positivity
  unfold jump
  rw [add_ok f1, Outcome.ok_bind, div_ok hk0 e0 f1, Outcome.ok_bind, div_ok h10 e0 f2,
    Outcome.ok_bind, sub_ok (fit_abs (b := intMax) (by omega) (by omega) (le_refl _)), Outcome.ok_bind,
    mul_ok (fit_abs (b := intMax) (by omega) (by omega) (le_refl _)), Outcome.ok_bind,
    add_ok (fit_abs (b := intMax) (by omega) (by omega) (le_refl _)), Outcome.ok_bind,
    div_ok hk0 exy f1, Outcome.ok_bind, div_ok h10 exy f2, Outcome.ok_bind,
    sub_ok (fit_abs (b := intMax) (by omega) (by omega) (le_refl _)), Outcome.ok_bind,
    mul_ok (fit_abs (b := intMax) (by omega) (by omega) (le_refl _)), Outcome.ok_bind,
    add_ok (fit_abs (b := intMax) (by omega) (by omega) (le_refl _))]

theorem addAssign_eq {w : Window} (b : Bounds w) (he : w.Nonempty) (base : Int) {x y z n : Int}
    (h : It.Pos w x y z)
    (hk0 : 0 ≤ x + w.extent.x * (y + w.extent.y * z) + n)
    (hk : x + w.extent.x * (y + w.extent.y * z) + n ≤ w.extent.x * w.extent.y * w.extent.z) :
    addAssign (It.canon base w x y z) n = (It.canon base w x y z).addAssign n := by
  have hj := jump_eq b he h hk0 hk
  have he' := he
  obtain ⟨e0, e1, e2⟩ := he
  simp only [IntVec.zero_x, IntVec.zero_y, IntVec.zero_z] at e0 e1 e2
  obtain ⟨h1, h2, h3, h4, h5, h6, h7, h8, h9, h10, h11, h12⟩ := pos_facts b h
  have exy : 0 < w.extent.x * w.extent.y := by positivity
  unfold addAssign It.addAssign It.canon It.start
  dsimp only
  rw [small_eq h1 h2.le h3 (by omega), Outcome.ok_bind]
  by_cases s : (0 < n ∧ n < w.extent.x - x) ∨ (n < 0 ∧ -n < x)
  · rw [if_pos s, if_pos (by simpa using s), add_ok (fit_of (by omega) (by omega)), Outcome.ok_bind,
      add_ok (fit_of (by omega) (by omega)), Outcome.ok_bind]; rfl
  · have fk := fit_of hk0 (by omega)
    have hr : 0 ≤ (x + w.extent.x * (y + w.extent.y * z) + n).tmod (w.extent.x * w.extent.y) := by
      rw [Int.tmod_eq_emod_of_nonneg hk0]; exact Int.emod_nonneg _ exy.ne'
    have hr2 : (x + w.extent.x * (y + w.extent.y * z) + n).tmod (w.extent.x * w.extent.y) ≤ intMax := by
      rw [Int.tmod_eq_emod_of_nonneg hk0]
      have := Int.emod_lt_of_pos (x + w.extent.x * (y + w.extent.y * z) + n) exy
      have := b.exy_le; have := b.xy_le
      omega
    rw [if_neg s, if_neg (by simpa using s), Outcome.ubUnless_true ⟨by omega, exy.ne'⟩,
      Outcome.ok_bind, hj, Outcome.ok_bind, add_ok fk, Outcome.ok_bind, mod_ok hk0 e0 fk,
      Outcome.ok_bind, mod_ok hk0 exy fk, Outcome.ok_bind, div_ok hr e0 (fit_of hr hr2),
      Outcome.ok_bind, div_ok hk0 exy fk, Outcome.ok_bind]

theorem step_eq {w : Window} (b : Bounds w) (he : w.Nonempty) (base : Int) {x y z : Int}
    (h : It.Pos w x y z) (o : It.Op)
    (hk0 : 0 ≤ x + w.extent.x * (y + w.extent.y * z) + o.delta)
    (hk : x + w.extent.x * (y + w.extent.y * z) + o.delta ≤
      w.extent.x * w.extent.y * w.extent.z) :
    step (It.canon base w x y z) o = (It.canon base w x y z).step o := by
  cases o with
  | inc => exact inc_eq b base h hk
  | dec => exact dec_eq b base h
  | add n => exact addAssign_eq b he base h hk0 hk
  | sub n =>
    obtain ⟨h1, h2, h3, h4, h5, h6, h7, h8, h9, h10, h11, h12⟩ := pos_facts b h
    simp only [It.Op.delta] at hk0 hk
    simp only [step, It.step, subAssign, It.subAssign]
    rw [neg_ok (fit_abs (b := intMax) (by omega) (by omega) (le_refl _)), Outcome.ok_bind]
    exact addAssign_eq b he base h hk0 hk

theorem run_eq {w : Window} (b : Bounds w) (he : w.Nonempty) (base : Int) (ops : List It.Op) :
    ∀ {x y z : Int}, It.Pos w x y z →
      It.StaysIn (w.extent.x * w.extent.y * w.extent.z) (x + w.extent.x * (y + w.extent.y * z)) ops →
      run (It.canon base w x y z) ops = (It.canon base w x y z).run ops := by
  induction ops with
  | nil => intro x y z _ _; rfl
  | cons o os ih =>
    intro x y z h hs
    obtain ⟨⟨hs1, hs2⟩, hs3⟩ := hs
    obtain ⟨x', y', z', p, e, c⟩ := It.step_canon (base := base) he h o hs1 hs2
    rw [← c] at hs3
    simp only [run, It.run]
    rw [step_eq b he base h o hs1 hs2, e, Outcome.ok_bind, Outcome.ok_bind, ih p hs3]

theorem deref_eq {w : Window} (b : Bounds w) (base : Int) {x y z : Int} (h : It.Pos w x y z) :
    deref (It.canon base w x y z) = (It.canon base w x y z).deref := by
  obtain ⟨h1, h2, h3, h4, h5, h6, h7, h8, h9, h10, h11, h12⟩ := pos_facts b h
  have hz : z * (w.extent.x * w.extent.y) ≤ intMax := by
    have : z * (w.extent.x * w.extent.y) ≤ w.extent.z * (w.extent.x * w.extent.y) :=
      mul_le_mul_of_nonneg_right h8 (by have := b.ex; have := b.ey; positivity)
    nlinarith
  have hy0 : 0 ≤ y * w.extent.x := by have := b.ex; positivity
  have hz0 : 0 ≤ z * (w.extent.x * w.extent.y) := by have := b.ex; have := b.ey; positivity
  have hs : x + y * w.extent.x + z * (w.extent.x * w.extent.y) =
      x + w.extent.x * (y + w.extent.y * z) := by ring
  unfold deref It.deref It.canon It.start
  dsimp only
  rw [mul_ok (fit_of hy0 (by omega)), Outcome.ok_bind, add_ok (fit_of (by omega) (by omega)),
    Outcome.ok_bind, mul_ok (fit_of hz0 hz), Outcome.ok_bind,
    add_ok (fit_of (by omega) (by omega)), Outcome.ok_bind]

/-! ## Mask iterators -/

theorem fortranPos_offset_nonneg {w : Window} (b : Bounds w) : 0 ≤ fortranPos w.npts w.offset := by
  have := b.nx; have := b.ny; have := b.ox; have := b.oy; have := b.oz
  unfold fortranPos; positivity

theorem current_bounds {w : Window} (b : Bounds w) (hE : w.EndFits) {x y z : Int}
    (h : It.Pos w x y z) :
    0 ≤ (It.canon 0 w x y z).current ∧ (It.canon 0 w x y z).current ≤ intMax := by
  have a1 := b.nx; have a2 := b.ny; have a3 := b.ox; have a4 := b.oy; have a5 := b.oz
  have s1 := b.sx; have s2 := b.sy; have s3 := b.szz
  have hf := fortranPos_offset_nonneg b
  obtain ⟨h1, h2, h3, h4, h5, h6⟩ := h
  unfold Window.EndFits at hE
  unfold It.canon
  dsimp only
  have hp : 0 ≤ w.npts.x * (y + w.npts.y * z) := by positivity
  constructor
  · omega
  · rcases h6 with h6 | ⟨h6, h7, h8⟩
    · have r1 : y + w.npts.y * z + 1 ≤ w.npts.y * w.extent.z := by
        have : w.npts.y * (z + 1) ≤ w.npts.y * w.extent.z :=
          mul_le_mul_of_nonneg_left (by omega) a2.le
        nlinarith
      have r2 : w.npts.x * (y + w.npts.y * z + 1) ≤ w.npts.x * (w.npts.y * w.extent.z) :=
        mul_le_mul_of_nonneg_left r1 a1.le
      have r3 : w.npts.x * (w.npts.y * w.extent.z) = w.npts.x * w.npts.y * w.extent.z := by ring
      have r4 : w.npts.x * (y + w.npts.y * z + 1) = w.npts.x * (y + w.npts.y * z) + w.npts.x := by ring
      omega
    · subst h6; subst h7; subst h8
      have r3 : w.npts.x * (0 + w.npts.y * w.extent.z) = w.npts.x * w.npts.y * w.extent.z := by ring
      omega

theorem updatePositions_eq {j : MaskIt} (h0 : 0 ≤ j.block) (h1 : j.block * 32 ≤ intMax)
    (h2 : 0 ≤ j.block * 32 + j.bit) (h3 : j.block * 32 + j.bit ≤ intMax) :
    updatePositions j = .ok j.updatePositions := by
  unfold updatePositions MaskIt.updatePositions
  have f := fit_of h2 h3
  split
  · rw [mul_ok (fit_of (by omega) h1), Outcome.ok_bind, add_ok f, Outcome.ok_bind,
      div_ok h2 (by omega) f, Outcome.ok_bind, mod_ok h2 (by omega) f, Outcome.ok_bind]; rfl
  · rfl

/-- What a mask iterator at a position looks like. -/
structure At (w : Window) (i : MaskIt) (x y z : Int) : Prop where
  eq : i.toIt = It.canon 0 w x y z
  bit0 : 0 ≤ i.bit
  bit : i.bit < 32
  block : 0 ≤ i.block
  lim : i.block * 32 ≤ intMax

theorem at_of {w : Window} (b : Bounds w) (hE : w.EndFits) {i : MaskIt} {x y z : Int}
    (h : It.Pos w x y z) (he : i.toIt = It.canon 0 w x y z) (hn : i.Norm) : At w i x y z := by
  obtain ⟨c0, c1⟩ := current_bounds b hE h
  rw [← he] at c0 c1
  have hb : 0 ≤ i.bit ∧ i.bit < 32 := by
    rcases hn with hn | hn
    · exact hn
    · omega
  unfold MaskIt.toIt at c0 c1
  dsimp only at c0 c1
  exact ⟨he, hb.1, hb.2, by omega, by omega⟩

/-- The members of a mask iterator at a position. -/
theorem At.fields {w : Window} {i : MaskIt} {x y z : Int} (a : At w i x y z) :
    i.block * 32 + i.bit = (It.canon 0 w x y z).current ∧
    i.count = x + w.extent.x * (y + w.extent.y * z) ∧ i.xIndex = x ∧ i.yIndex = y ∧ i.zIndex = z ∧
    i.yStep = w.npts.x - w.extent.x ∧ i.zStep = (w.npts.y - w.extent.y) * w.npts.x ∧
    i.xExtent = w.extent.x ∧ i.yExtent = w.extent.y ∧ i.zExtent = w.extent.z ∧
    i.xyExtent = w.extent.x * w.extent.y := by
  have h := a.eq
  exact ⟨congrArg It.current h, congrArg It.count h, congrArg It.xIndex h, congrArg It.yIndex h,
    congrArg It.zIndex h, congrArg It.yStep h, congrArg It.zStep h, congrArg It.xExtent h,
    congrArg It.yExtent h, congrArg It.zExtent h, congrArg It.xyExtent h⟩

theorem maskInc_eq {w : Window} (b : Bounds w) (hE : w.EndFits) {i : MaskIt} {x y z : Int}
    (h : It.Pos w x y z) (a : At w i x y z)
    (hk : x + w.extent.x * (y + w.extent.y * z) + 1 ≤ w.extent.x * w.extent.y * w.extent.z) :
    maskInc i = .ok i.inc := by
  have hz : z < w.extent.z := h.lt_iff.1 (by omega)
  obtain ⟨x', y', z', p, e, _⟩ := It.inc_canon (base := 0) h hz
  obtain ⟨c0, c1⟩ := current_bounds b hE p
  rw [← e, ← a.eq] at c0 c1
  obtain ⟨h1, h2, h3, h4, h5, h6, h7, h8, h9, h10, h11, h12⟩ := pos_facts b h
  obtain ⟨f1, f2, f3, f4, f5, f6, f7, f8, f9, f10, f11⟩ := a.fields
  have st1 : 0 ≤ i.yStep := by rw [f6]; have := b.sx; have := b.ox; omega
  have st2 : 0 ≤ i.zStep := by
    rw [f7]; exact mul_nonneg (by have := b.sy; have := b.oy; omega) b.nx.le
  obtain ⟨_, b0, b1, k0, k1⟩ := a
  have m0 : (33:Int) ≤ intMax := by decide
  unfold MaskIt.toIt It.inc at c0 c1
  dsimp only at c0 c1
  unfold maskInc MaskIt.inc
  dsimp only
  rw [add_ok (fit_of (by omega) (by omega)), Outcome.ok_bind, add_ok (fit_of (by omega) (by omega)),
    Outcome.ok_bind, add_ok (fit_of (by omega) (by omega)), Outcome.ok_bind]
  by_cases q1 : i.xIndex + 1 = i.xExtent
  · rw [if_pos q1, if_pos q1]
    rw [if_pos q1] at c0 c1
    unfold maskIncRow
    dsimp only
    by_cases q2 : i.yIndex + 1 = i.yExtent
    · rw [if_pos q2] at c0 c1
      dsimp only at c0 c1
      rw [add_ok (fit_of (by omega) (by omega)), Outcome.ok_bind,
        add_ok (fit_of (by omega) (by omega)), Outcome.ok_bind]
      rw [if_pos q2, if_pos q2, add_ok (fit_of (by omega) (by omega)), Outcome.ok_bind,
        add_ok (fit_of (by omega) (by omega)), Outcome.ok_bind, Outcome.pure_eq, Outcome.ok_bind]
      exact updatePositions_eq k0 k1 (by dsimp only; omega) (by dsimp only; omega)
    · rw [if_neg q2] at c0 c1
      dsimp only at c0 c1
      rw [add_ok (fit_of (by omega) (by omega)), Outcome.ok_bind,
        add_ok (fit_of (by omega) (by omega)), Outcome.ok_bind]
      rw [if_neg q2, if_neg q2, Outcome.pure_eq, Outcome.ok_bind]
      exact updatePositions_eq k0 k1 (by dsimp only; omega) (by dsimp only; omega)
  · rw [if_neg q1, if_neg q1, Outcome.ok_bind]
    rw [if_neg q1] at c0 c1
    dsimp only at c0 c1
    exact updatePositions_eq k0 k1 (by dsimp only; omega) (by dsimp only; omega)

theorem maskDec_eq {w : Window} (b : Bounds w) (hE : w.EndFits) {i : MaskIt} {x y z : Int}
    (h : It.Pos w x y z) (a : At w i x y z)
    (hk : 1 ≤ x + w.extent.x * (y + w.extent.y * z)) :
    maskDec i = .ok i.dec := by
  obtain ⟨x', y', z', p, e, _⟩ := It.dec_canon (base := 0) h hk
  obtain ⟨c0, c1⟩ := current_bounds b hE p
  rw [← e, ← a.eq] at c0 c1
  obtain ⟨h1, h2, h3, h4, h5, h6, h7, h8, h9, h10, h11, h12⟩ := pos_facts b h
  obtain ⟨f1, f2, f3, f4, f5, f6, f7, f8, f9, f10, f11⟩ := a.fields
  have st1 : 0 ≤ i.yStep := by rw [f6]; have := b.sx; have := b.ox; omega
  have st2 : 0 ≤ i.zStep := by
    rw [f7]; exact mul_nonneg (by have := b.sy; have := b.oy; omega) b.nx.le
  obtain ⟨_, b0, b1, k0, k1⟩ := a
  have m0 : (33:Int) ≤ intMax := by decide
  have fa : ∀ {a : Int}, -intMax ≤ a → a ≤ intMax → Fit a := fun p q => fit_abs p q (le_refl _)
  unfold MaskIt.toIt It.dec at c0 c1
  dsimp only at c0 c1
  unfold maskDec MaskIt.dec
  dsimp only
  rw [sub_ok (fa (by omega) (by omega)), Outcome.ok_bind, sub_ok (fa (by omega) (by omega)),
    Outcome.ok_bind, sub_ok (fa (by omega) (by omega)), Outcome.ok_bind]
  by_cases q1 : i.xIndex - 1 = -1
  · rw [if_pos q1, if_pos q1]
    rw [if_pos q1] at c0 c1
    unfold maskDecRow
    dsimp only
    by_cases q2 : i.yIndex - 1 = -1
    · rw [if_pos q2] at c0 c1
      dsimp only at c0 c1
      rw [sub_ok (fa (by omega) (by omega)), Outcome.ok_bind, sub_ok (fa (by omega) (by omega)),
        Outcome.ok_bind, sub_ok (fa (by omega) (by omega)), Outcome.ok_bind]
      rw [if_pos q2, if_pos q2, sub_ok (fa (by omega) (by omega)), Outcome.ok_bind,
        sub_ok (fa (by omega) (by omega)), Outcome.ok_bind,
        sub_ok (fa (by omega) (by omega)), Outcome.ok_bind, Outcome.pure_eq, Outcome.ok_bind]
      exact updatePositions_eq k0 k1 (by dsimp only; omega) (by dsimp only; omega)
    · rw [if_neg q2] at c0 c1
      dsimp only at c0 c1
      rw [sub_ok (fa (by omega) (by omega)), Outcome.ok_bind, sub_ok (fa (by omega) (by omega)),
        Outcome.ok_bind, sub_ok (fa (by omega) (by omega)), Outcome.ok_bind]
      rw [if_neg q2, if_neg q2, Outcome.pure_eq, Outcome.ok_bind]
      exact updatePositions_eq k0 k1 (by dsimp only; omega) (by dsimp only; omega)
  · rw [if_neg q1, if_neg q1, Outcome.ok_bind]
    rw [if_neg q1] at c0 c1
    dsimp only at c0 c1
    exact updatePositions_eq k0 k1 (by dsimp only; omega) (by dsimp only; omega)

theorem maskAdd_eq {w : Window} (b : Bounds w) (hE : w.EndFits) (he : w.Nonempty) {i : MaskIt}
    {x y z n : Int} (h : It.Pos w x y z) (a : At w i x y z)
    (hk0 : 0 ≤ x + w.extent.x * (y + w.extent.y * z) + n)
    (hk : x + w.extent.x * (y + w.extent.y * z) + n ≤ w.extent.x * w.extent.y * w.extent.z) :
    maskAddAssign i n = i.addAssign n := by
  obtain ⟨x', y', z', p, e, _⟩ := It.add_canon (base := 0) he h n hk0 hk
  obtain ⟨c0, c1⟩ := current_bounds b hE p
  have hj := jump_eq b he h hk0 hk
  rw [← a.eq] at e
  obtain ⟨e0, e1, e2⟩ := he
  simp only [IntVec.zero_x, IntVec.zero_y, IntVec.zero_z] at e0 e1 e2
  obtain ⟨h1, h2, h3, h4, h5, h6, h7, h8, h9, h10, h11, h12⟩ := pos_facts b h
  obtain ⟨f1, f2, f3, f4, f5, f6, f7, f8, f9, f10, f11⟩ := a.fields
  have exy : 0 < w.extent.x * w.extent.y := by positivity
  obtain ⟨_, b0, b1, k0, k1⟩ := a
  have m0 : (33:Int) ≤ intMax := by decide
  have fa : ∀ {a : Int}, -intMax ≤ a → a ≤ intMax → Fit a := fun p q => fit_abs p q (le_refl _)
  rw [← f2, ← f6, ← f7, ← f11, ← f8] at hj
  rw [← f2] at hk0 hk h10 h11
  rw [← f11] at exy
  rw [← f8] at e0
  unfold It.addAssign MaskIt.toIt at e
  dsimp only at e
  unfold maskAddAssign MaskIt.addAssign
  rw [small_eq (by omega) (by omega) (by omega) (by omega), Outcome.ok_bind]
  by_cases s : (0 < n ∧ n < i.xExtent - i.xIndex) ∨ (n < 0 ∧ -n < i.xIndex)
  · rw [if_pos s] at e
    injection e with e
    have ec := congrArg It.current e
    dsimp only at ec
    rw [if_pos s, if_pos (by simpa using s), add_ok (fa (by omega) (by omega)), Outcome.ok_bind,
      add_ok (fa (by omega) (by omega)), Outcome.ok_bind,
      add_ok (fa (by omega) (by omega)), Outcome.ok_bind]
    exact updatePositions_eq k0 k1 (by dsimp only; omega) (by dsimp only; omega)
  · rw [if_neg s, Outcome.ubUnless_true ⟨by omega, exy.ne'⟩, Outcome.ok_bind, Outcome.pure_eq] at e
    injection e with e
    have ec := congrArg It.current e
    dsimp only at ec
    have fk := fit_of hk0 (by omega)
    have hr : 0 ≤ (i.count + n).tmod i.xyExtent := by
      rw [Int.tmod_eq_emod_of_nonneg hk0]; exact Int.emod_nonneg _ exy.ne'
    have hr2 : (i.count + n).tmod i.xyExtent ≤ intMax := by
      rw [Int.tmod_eq_emod_of_nonneg hk0]
      have := Int.emod_lt_of_pos (i.count + n) exy
      have := b.exy_le; have := b.xy_le
      omega
    rw [if_neg s, if_neg (by simpa using s), Outcome.ubUnless_true ⟨by omega, exy.ne'⟩,
      Outcome.ok_bind, hj, Outcome.ok_bind, add_ok (fa (by omega) (by omega)), Outcome.ok_bind,
      add_ok fk, Outcome.ok_bind, mod_ok hk0 e0 fk,
      Outcome.ok_bind, mod_ok hk0 exy fk, Outcome.ok_bind, div_ok hr e0 (fit_of hr hr2),
      Outcome.ok_bind, div_ok hk0 exy fk, Outcome.ok_bind]
    exact updatePositions_eq k0 k1 (by dsimp only; omega) (by dsimp only; omega)

theorem maskStep_eq {w : Window} (b : Bounds w) (hE : w.EndFits) (he : w.Nonempty) {i : MaskIt}
    {x y z : Int} (h : It.Pos w x y z) (a : At w i x y z) (o : It.Op)
    (hk0 : 0 ≤ x + w.extent.x * (y + w.extent.y * z) + o.delta)
    (hk : x + w.extent.x * (y + w.extent.y * z) + o.delta ≤
      w.extent.x * w.extent.y * w.extent.z) :
    maskStep i o = i.step o := by
  cases o with
  | inc => exact maskInc_eq b hE h a hk
  | dec => exact maskDec_eq b hE h a (by simp only [It.Op.delta] at hk0; omega)
  | add n => exact maskAdd_eq b hE he h a hk0 hk
  | sub n =>
    obtain ⟨h1, h2, h3, h4, h5, h6, h7, h8, h9, h10, h11, h12⟩ := pos_facts b h
    simp only [It.Op.delta] at hk0 hk
    simp only [maskStep, MaskIt.step, maskSubAssign, MaskIt.subAssign]
    rw [neg_ok (fit_abs (b := intMax) (by omega) (by omega) (le_refl _)), Outcome.ok_bind]
    exact maskAdd_eq b hE he h a hk0 hk

theorem maskRun_eq {w : Window} (b : Bounds w) (hE : w.EndFits) (he : w.Nonempty)
    (ops : List It.Op) : ∀ {i : MaskIt} {x y z : Int}, It.Pos w x y z → At w i x y z →
      It.StaysIn (w.extent.x * w.extent.y * w.extent.z) (x + w.extent.x * (y + w.extent.y * z)) ops →
      maskRun i ops = i.run ops := by
  induction ops with
  | nil => intro i x y z _ _ _; rfl
  | cons o os ih =>
    intro i x y z h a hs
    obtain ⟨⟨hs1, hs2⟩, hs3⟩ := hs
    obtain ⟨x', y', z', p, e, c⟩ := It.step_canon (base := 0) he h o hs1 hs2
    rw [← c] at hs3
    obtain ⟨k, ek, et, en, _⟩ := MaskIt.toIt_step i o (j := It.canon 0 w x' y' z')
      (by rw [a.eq]; exact e)
    simp only [maskRun, MaskIt.run]
    rw [maskStep_eq b hE he h a o hs1 hs2, ek, Outcome.ok_bind, Outcome.ok_bind,
      ih p (at_of b hE p et en) hs3]

theorem globNpts_eq {w : Window} (b : Bounds w) : globNpts w = .ok w.globNpts := by
  have a1 := b.nx; have a2 := b.ny; have a3 := b.nz
  have p : 0 ≤ w.npts.x * w.npts.y := by positivity
  have q : 0 ≤ w.npts.x * w.npts.y * w.npts.z := by positivity
  unfold globNpts Window.globNpts
  rw [mul_ok (fit_of p b.xy_le), Outcome.ok_bind, mul_ok (fit_of q b.all), Outcome.ok_bind,
    szsmall q b.all]; rfl

theorem localNpts_eq {w : Window} (b : Bounds w) : localNpts w = .ok w.localNpts := by
  have e1 := b.ex; have e2 := b.ey; have e3 := b.ez
  have p : 0 ≤ w.extent.x * w.extent.y := by positivity
  have q : 0 ≤ w.extent.x * w.extent.y * w.extent.z := by positivity
  unfold localNpts Window.localNpts
  rw [mul_ok (fit_of p (le_trans b.exy_le b.xy_le)), Outcome.ok_bind, mul_ok (fit_of q b.local_le),
    Outcome.ok_bind, szsmall q b.local_le]; rfl

theorem maskStart_eq {w : Window} (b : Bounds w) (ho : fortranPos w.npts w.offset ≤ intMax) :
    maskStart w = .ok (MaskIt.start w) := by
  have hst := start_eq b 0
  have h1 := b.nx; have h2 := b.ny; have h3 := b.nz
  have o1 := b.ox; have o2 := b.oy; have o3 := b.oz
  have s1 := b.sx; have s2 := b.sy; have s3 := b.szz
  have e1 := b.ex; have e2 := b.ey; have e3 := b.ez
  have x1 := b.x_le; have x2 := b.y_le; have x3 := b.z_le
  have all := b.all
  have p1 : 0 ≤ w.npts.y * w.offset.z := by positivity
  have p2 : 0 ≤ w.offset.y + w.npts.y * w.offset.z := by positivity
  have p3 : 0 ≤ w.npts.x * (w.offset.y + w.npts.y * w.offset.z) := by positivity
  have p4 : w.offset.y + w.npts.y * w.offset.z ≤ w.npts.x * (w.offset.y + w.npts.y * w.offset.z) := by
    nlinarith
  have hfl : maskFlat w = fortranPos w.npts w.offset := by
    unfold fortranPos at ho
    unfold maskFlat fortranPos
    rw [szsmall o1 (by omega), szsmall o2 (by omega), szsmall o3 (by omega), szsmall h1.le x1,
      szsmall h2.le x2, szsmall p1 (by omega), szsmall p2 (by omega), szsmall p3 (by omega),
      szsmall (by omega) (by omega)]
  have hf0 := fortranPos_offset_nonneg b
  have hg : 0 ≤ w.globNpts := by unfold Window.globNpts; positivity
  have hg1 : w.globNpts ≤ intMax := b.all
  have him : intMax = 2147483647 := rfl
  have szsize : sz (sz (w.globNpts + 32) - 1) = w.globNpts + 32 - 1 := by
    rw [sz_id (x := w.globNpts + 32) (by omega) (by omega),
      sz_id (x := w.globNpts + 32 - 1) (by omega) (by omega)]
  have t1 : Fit ((fortranPos w.npts w.offset).tmod 32) := by
    rw [Int.tmod_eq_emod_of_nonneg hf0]; unfold Fit; omega
  have t2 : Fit ((fortranPos w.npts w.offset).tdiv 32) := by
    rw [Int.tdiv_eq_ediv_of_nonneg hf0]; unfold Fit; omega
  have t3 : Fit ((w.globNpts + 32 - 1).tdiv 32) := by
    rw [Int.tdiv_eq_ediv_of_nonneg (by omega)]; unfold Fit; omega
  unfold maskStart MaskIt.start
  rw [globNpts_eq b, Outcome.ok_bind, Outcome.pure_eq, hfl, szsize, toInt_id t1, toInt_id t2,
    toInt_id t3]
  have g1 := congrArg It.yStep hst
  have g2 := congrArg It.zStep hst
  have g3 := congrArg It.xExtent hst
  have g4 := congrArg It.yExtent hst
  have g5 := congrArg It.zExtent hst
  have g6 := congrArg It.xyExtent hst
  unfold start It.start at g1 g2 g3 g4 g5 g6
  dsimp only at g1 g2 g3 g4 g5 g6
  rw [g1, g2, g3, g4, g5, g6]
  rfl

end Mach
end SpatialOps
