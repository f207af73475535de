import Verif.Compare.Spec
import Verif.Nebo.Assign
import Mathlib.Algebra.Order.Field.Rat
import Mathlib.Tactic.FieldSimp
import Mathlib.Tactic.Linarith
import Mathlib.Tactic.NormNum

/-!
# Property C45: field comparisons
-/

namespace SpatialOps
namespace Compare
open Nebo

/-! ## The loops -/

theorem iterators_ok {f : FieldObj} {b : Nat} (h : Readable f b) :
    iterators f = .ok (some b, It.start 0 f.geo.window, It.nth 0 f.geo.window f.geo.window.localNpts.toNat) := by
  unfold iterators
  rcases h.storage with ⟨h1, h2⟩ | ⟨h1, h2⟩
  · rw [h1]
    dsimp only
    unfold FieldObj.beginC FieldObj.endC
    rw [Outcome.throwIf_false (by simp [h1]), Outcome.ok_bind, Outcome.throwIf_false (by simp [h1]), Outcome.ok_bind,
      It.finish_eq_nth h.nonempty, h2]
    rfl
  · rw [h1]
    dsimp only
    rw [It.finish_eq_nth h.nonempty, h2]
    rfl

section
variable {V : Type}

theorem elem_ok {w : Window} (hw : w.Fits) (hn : w.Nonempty) (m : Mem V) (b : Nat) {k : Nat} (hk : (k : Int) < w.localNpts) :
    elem m (some b) (It.nth 0 w k) = .ok (m b (winAddr w (nthLoc w k))) := by
  unfold elem
  rw [(nth_deref hw hn (nthLoc_spec hw hn hk)).1]
  rfl

theorem loop_ok {w : Window} (hw : w.Fits) (hn : w.Nonempty) (m : Mem V) (b1 b2 : Nat) (bad : V → V → Outcome Bool)
    (B : V → V → Bool)
    (hb : ∀ k : Nat, (k : Int) < w.localNpts → bad (m b1 (winAddr w (nthLoc w k))) (m b2 (winAddr w (nthLoc w k))) =
      .ok (B (m b1 (winAddr w (nthLoc w k))) (m b2 (winAddr w (nthLoc w k))))) :
    (n k : Nat) → k + n = w.localNpts.toNat →
    ∃ r, loop bad m (some b1) (some b2) n (It.nth 0 w k) (It.nth 0 w w.localNpts.toNat) (It.nth 0 w k) = .ok r ∧
      (r = true ↔ ∀ j : Nat, k ≤ j → (j : Int) < w.localNpts →
        B (m b1 (winAddr w (nthLoc w j))) (m b2 (winAddr w (nthLoc w j))) = false)
  | 0, k, h => by
    refine ⟨true, ?_, by simp; omega⟩
    have : k = w.localNpts.toNat := by omega
    subst this
    unfold loop
    rw [if_pos (by simp [It.eqOp])]
  | n + 1, k, h => by
    have hlt : (k : Int) < w.localNpts := by have := It.localNpts_nonneg hn; omega
    obtain ⟨r, h1, h2⟩ := loop_ok hw hn m b1 b2 bad B hb n (k + 1) (by omega)
    unfold loop
    rw [if_neg (by rw [It.nth_ne_end hw hn 0 hlt]; simp)]
    dsimp only
    rw [elem_ok hw hn m b1 hlt, Outcome.ok_bind, elem_ok hw hn m b2 hlt, Outcome.ok_bind, hb k hlt, Outcome.ok_bind]
    by_cases hB : B (m b1 (winAddr w (nthLoc w k))) (m b2 (winAddr w (nthLoc w k))) = true
    · rw [if_pos hB]
      refine ⟨false, rfl, ?_⟩
      constructor
      · intro h; cases h
      · intro h
        rw [h k (le_refl _) hlt] at hB
        cases hB
    · rw [if_neg hB]
      refine ⟨r, h1, h2.trans ?_⟩
      constructor
      · intro h j hj hj'
        rcases Nat.eq_or_lt_of_le hj with rfl | hj
        · simpa using hB
        · exact h j hj hj'
      · intro h j hj hj'
        exact h j (by omega) hj'

theorem loopScalar_ok {w : Window} (hw : w.Fits) (hn : w.Nonempty) (m : Mem V) (b1 : Nat) (bad : V → Outcome Bool)
    (B : V → Bool)
    (hb : ∀ k : Nat, (k : Int) < w.localNpts → bad (m b1 (winAddr w (nthLoc w k))) =
      .ok (B (m b1 (winAddr w (nthLoc w k))))) :
    (n k : Nat) → k + n = w.localNpts.toNat →
    ∃ r, loopScalar bad m (some b1) n (It.nth 0 w k) (It.nth 0 w w.localNpts.toNat) = .ok r ∧
      (r = true ↔ ∀ j : Nat, k ≤ j → (j : Int) < w.localNpts → B (m b1 (winAddr w (nthLoc w j))) = false)
  | 0, k, h => by
    refine ⟨true, ?_, by simp; omega⟩
    have : k = w.localNpts.toNat := by omega
    subst this
    unfold loopScalar
    rw [if_pos (by simp [It.eqOp])]
  | n + 1, k, h => by
    have hlt : (k : Int) < w.localNpts := by have := It.localNpts_nonneg hn; omega
    obtain ⟨r, h1, h2⟩ := loopScalar_ok hw hn m b1 bad B hb n (k + 1) (by omega)
    unfold loopScalar
    rw [if_neg (by rw [It.nth_ne_end hw hn 0 hlt]; simp)]
    dsimp only
    rw [elem_ok hw hn m b1 hlt, Outcome.ok_bind, hb k hlt, Outcome.ok_bind]
    by_cases hB : B (m b1 (winAddr w (nthLoc w k))) = true
    · rw [if_pos hB]
      refine ⟨false, rfl, ?_⟩
      constructor
      · intro h; cases h
      · intro h
        rw [h k (le_refl _) hlt] at hB
        cases hB
    · rw [if_neg hB]
      refine ⟨r, h1, h2.trans ?_⟩
      constructor
      · intro h j hj hj'
        rcases Nat.eq_or_lt_of_le hj with rfl | hj
        · simpa using hB
        · exact h j hj hj'
      · intro h j hj hj'
        exact h j (by omega) hj'

theorem everywhere_iff {w : Window} (hw : w.Fits) (hn : w.Nonempty) (P : Int → Prop) :
    Everywhere w P ↔ ∀ j : Nat, 0 ≤ j → (j : Int) < w.localNpts → P (winAddr w (nthLoc w j)) := by
  have key : ∀ loc, InBlock w.extent loc → w.flatIndex loc = .ok (winAddr w loc) := by
    intro loc hl
    exact (Window.flatIndex_eq_ok hw hl).1
  constructor
  · intro h j _ hj
    have := nthLoc_spec hw hn hj
    exact h _ _ this.1 (key _ this.1)
  · intro h loc a hl ha
    obtain ⟨k, k1, k2⟩ := nthLoc_surj hw hn hl
    have := h k (Nat.zero_le _) k1
    rw [k2] at this
    rw [key loc hl] at ha
    injection ha with ha
    rw [← ha]
    exact this

theorem neOp_false {a b : Window} (h : a = b) : a.neOp b = false := by
  subst h
  simp [Window.neOp]

/-- What the two-field loop computes. -/
theorem fields_ok {f1 f2 : FieldObj} {b1 b2 : Nat} (h1 : Readable f1 b1) (h2 : Readable f2 b2) (hw : f1.geo.window = f2.geo.window)
    (m : Mem V) (bad : V → V → Outcome Bool) (B : V → V → Bool)
    (hb : Everywhere f1.geo.window fun a => bad (m b1 a) (m b2 a) = .ok (B (m b1 a) (m b2 a))) :
    ∃ r, fields bad m f1 f2 = .ok r ∧ (r = true ↔ Everywhere f1.geo.window fun a => B (m b1 a) (m b2 a) = false) := by
  have hb' := (everywhere_iff h1.fits h1.nonempty _).1 hb
  obtain ⟨r, e1, e2⟩ := loop_ok h1.fits h1.nonempty m b1 b2 bad B (fun k hk => hb' k (Nat.zero_le _) hk)
    f1.geo.window.localNpts.toNat 0 (by omega)
  refine ⟨r, ?_, e2.trans (everywhere_iff h1.fits h1.nonempty fun a => B (m b1 a) (m b2 a) = false).symm⟩
  unfold fields
  rw [Outcome.throwIf_false (by rw [neOp_false hw]; simp), Outcome.ok_bind, iterators_ok h1, Outcome.ok_bind, iterators_ok h2]
  dsimp only
  rw [Outcome.ok_bind]
  dsimp only
  rw [← hw]
  exact e1

theorem scalar_ok {f1 : FieldObj} {b1 : Nat} (h1 : Readable f1 b1)
    (m : Mem V) (bad : V → Outcome Bool) (B : V → Bool)
    (hb : Everywhere f1.geo.window fun a => bad (m b1 a) = .ok (B (m b1 a))) :
    ∃ r, scalar bad m f1 = .ok r ∧ (r = true ↔ Everywhere f1.geo.window fun a => B (m b1 a) = false) := by
  have hb' := (everywhere_iff h1.fits h1.nonempty _).1 hb
  obtain ⟨r, e1, e2⟩ := loopScalar_ok h1.fits h1.nonempty m b1 bad B (fun k hk => hb' k (Nat.zero_le _) hk)
    f1.geo.window.localNpts.toNat 0 (by omega)
  refine ⟨r, ?_, e2.trans (everywhere_iff h1.fits h1.nonempty fun a => B (m b1 a) = false).symm⟩
  unfold scalar
  rw [iterators_ok h1, Outcome.ok_bind]
  exact e1

end

section
variable {K : Type} [Field K] [LinearOrder K]
open Dbl

omit [Field K] [LinearOrder K] in
theorem everywhere_congr {w : Window} {P Q : Int → Prop} (h : Everywhere w fun a => P a ↔ Q a) : Everywhere w P ↔ Everywhere w Q :=
  ⟨fun hp loc a h1 h2 => (h loc a h1 h2).1 (hp loc a h1 h2), fun hq loc a h1 h2 => (h loc a h1 h2).2 (hq loc a h1 h2)⟩

omit [Field K] [LinearOrder K] in
theorem everywhere_mono {w : Window} {P Q : Int → Prop} (hp : Everywhere w P) (h : ∀ a, P a → Q a) : Everywhere w Q :=
  fun loc a h1 h2 => h a (hp loc a h1 h2)

omit [Field K] [LinearOrder K] in
theorem answers_of {f1 f2 : FieldObj} {b1 b2 : Nat} (h1 : Readable f1 b1) (h2 : Readable f2 b2)
    (hw : f1.geo.window = f2.geo.window) (m : Mem (Dbl K)) (bad : Dbl K → Dbl K → Outcome Bool) (B : Dbl K → Dbl K → Bool)
    (hb : Everywhere f1.geo.window fun a => bad (m b1 a) (m b2 a) = .ok (B (m b1 a) (m b2 a))) (P : Int → Prop)
    (hP : Everywhere f1.geo.window fun a => B (m b1 a) (m b2 a) = false ↔ P a) :
    Answers (fields bad m f1 f2) (negate (fields bad m f1 f2)) (Everywhere f1.geo.window P) := by
  obtain ⟨r, e1, e2⟩ := fields_ok h1 h2 hw m bad B hb
  refine ⟨r, e1, by rw [e1]; rfl, e2.trans (everywhere_congr hP)⟩

omit [Field K] in
theorem ne_false {x y : Dbl K} : x.ne y = false ↔ x = y ∧ x ≠ nan := by
  cases x <;> cases y <;> simp [Dbl.ne]

theorem abs_fin_zero [IsStrictOrderedRing K] {e : Dbl K} : e.abs = fin 0 ↔ e = fin 0 := by
  cases e <;> simp [Dbl.abs]

/-- C45. With tolerance zero the fields compare equal exactly if in every cell both hold the same
value, other than NaN; this is so for relative and absolute comparison. -/
theorem _root_.SpatialOps.C45_exact [IsStrictOrderedRing K] (f1 f2 : FieldObj) (b1 b2 : Nat) (h1 : Readable f1 b1) (h2 : Readable f2 b2)
    (hw : f1.geo.window = f2.geo.window) (m : Mem (Dbl K)) (errorAbs : Dbl K) :
    Answers (fieldEqual m f1 f2 (fin 0) errorAbs) (fieldNotEqual m f1 f2 (fin 0) errorAbs)
      (Everywhere f1.geo.window fun a => m b1 a = m b2 a ∧ m b1 a ≠ nan) ∧
    Answers (fieldEqualAbs m f1 f2 (fin 0)) (fieldNotEqualAbs m f1 f2 (fin 0))
      (Everywhere f1.geo.window fun a => m b1 a = m b2 a ∧ m b1 a ≠ nan) := by
  constructor
  · apply answers_of h1 h2 hw m _ _ (fun _ _ _ _ => rfl)
    intro loc a _ _
    unfold relBad
    dsimp only
    rw [if_pos (abs_fin_zero.2 rfl), ne_false]
  · apply answers_of h1 h2 hw m _ _ (fun _ _ _ _ => rfl)
    intro loc a _ _
    unfold absBad
    dsimp only
    rw [if_pos (abs_fin_zero.2 rfl), ne_false]

theorem absBad_fin [IsStrictOrderedRing K] (e x y : K) : absBad (fin e) (fin x) (fin y) = false ↔ |x - y| ≤ |e| := by
  unfold absBad
  dsimp only
  split_ifs with h
  · have := abs_fin_zero.1 h
    injection this with this
    subst this
    rw [ne_false]
    simp [sub_eq_zero]
  · simp [Dbl.abs, Dbl.sub, Dbl.add, Dbl.neg, Dbl.gt, sub_eq_add_neg]

/-- C45. With an absolute tolerance, of either sign, fields of numbers compare equal exactly if in
every cell the values differ by at most its magnitude. -/
theorem _root_.SpatialOps.C45_absolute [IsStrictOrderedRing K] (f1 f2 : FieldObj) (b1 b2 : Nat) (h1 : Readable f1 b1)
    (h2 : Readable f2 b2) (hw : f1.geo.window = f2.geo.window) (m : Mem (Dbl K)) (u v : Int → K)
    (hu : Everywhere f1.geo.window fun a => m b1 a = fin (u a)) (hv : Everywhere f1.geo.window fun a => m b2 a = fin (v a)) (e : K) :
    Answers (fieldEqualAbs m f1 f2 (fin e)) (fieldNotEqualAbs m f1 f2 (fin e))
      (Everywhere f1.geo.window fun a => |u a - v a| ≤ |e|) := by
  apply answers_of h1 h2 hw m _ _ (fun _ _ _ _ => rfl)
  intro loc a q1 q2
  rw [hu loc a q1 q2, hv loc a q1 q2]
  exact absBad_fin e _ _

theorem relBad_fin [IsStrictOrderedRing K] (e ea x y : K) (hea : 0 ≤ ea) (he : e ≠ 0) :
    relBad (fin e) (fin ea) (fin x) (fin y) = false ↔ |x - y| ≤ |e| * (|x| + ea) := by
  unfold relBad
  dsimp only
  rw [if_neg (fun h => he (by have := abs_fin_zero.1 h; injection this))]
  simp only [Dbl.abs, Dbl.sub, Dbl.add, Dbl.neg, Dbl.div, ← sub_eq_add_neg]
  by_cases hd : |x| + ea = 0
  · rw [if_pos hd, hd, mul_zero]
    split_ifs with hx
    · simp [Dbl.gt, hx]
    · simp only [Dbl.gt, not_lt.2 (abs_nonneg (x - y)), decide_false, Bool.not_false]
      constructor
      · intro h; cases h
      · intro h; exact absurd (le_antisymm h (abs_nonneg _)) hx
  · rw [if_neg hd]
    have : 0 < |x| + ea := lt_of_le_of_ne (add_nonneg (abs_nonneg _) hea) (Ne.symm hd)
    simp only [Dbl.gt, decide_eq_false_iff_not, not_lt]
    exact div_le_iff₀ this

/-- C45. With a relative tolerance that is not zero, of either sign, and an absolute offset that is not
negative, fields of numbers compare equal exactly if in every cell the difference is at most the
tolerance times the first field's magnitude plus the offset. -/
theorem _root_.SpatialOps.C45_relative [IsStrictOrderedRing K] (f1 f2 : FieldObj) (b1 b2 : Nat) (h1 : Readable f1 b1)
    (h2 : Readable f2 b2) (hw : f1.geo.window = f2.geo.window) (m : Mem (Dbl K)) (u v : Int → K)
    (hu : Everywhere f1.geo.window fun a => m b1 a = fin (u a)) (hv : Everywhere f1.geo.window fun a => m b2 a = fin (v a))
    (e ea : K) (he : e ≠ 0) (hea : 0 ≤ ea) :
    Answers (fieldEqual m f1 f2 (fin e) (fin ea)) (fieldNotEqual m f1 f2 (fin e) (fin ea))
      (Everywhere f1.geo.window fun a => |u a - v a| ≤ |e| * (|u a| + ea)) := by
  apply answers_of h1 h2 hw m _ _ (fun _ _ _ _ => rfl)
  intro loc a q1 q2
  rw [hu loc a q1 q2, hv loc a q1 q2]
  exact relBad_fin e ea _ _ hea he

/-- C45. The form without an offset takes one millionth of the tolerance times the norm of the
first field. `norm` is the value `nebo_norm(f1)` returned. -/
theorem _root_.SpatialOps.C45_relative_default [IsStrictOrderedRing K] (f1 f2 : FieldObj) (b1 b2 : Nat) (h1 : Readable f1 b1)
    (h2 : Readable f2 b2) (hw : f1.geo.window = f2.geo.window) (m : Mem (Dbl K)) (u v : Int → K)
    (hu : Everywhere f1.geo.window fun a => m b1 a = fin (u a)) (hv : Everywhere f1.geo.window fun a => m b2 a = fin (v a))
    (e norm : K) (he : 0 < e) (hn : 0 ≤ norm) :
    Answers (fieldEqualDefault (fin norm) m f1 f2 (fin e)) (fieldNotEqualDefault (fin norm) m f1 f2 (fin e))
      (Everywhere f1.geo.window fun a => |u a - v a| ≤ e * (|u a| + norm * e / 1000000)) := by
  have hd : defaultAbs (fin norm) (fin e) = fin (norm * e * (1 / 1000000)) := by
    unfold defaultAbs
    rw [if_neg (by simp [he.ne'])]
    rfl
  have := C45_relative f1 f2 b1 b2 h1 h2 hw m u v hu hv e (norm * e * (1 / 1000000)) he.ne' (by positivity)
  unfold fieldNotEqual at this
  unfold fieldEqualDefault fieldNotEqualDefault
  rw [hd]
  rw [abs_of_pos he] at this
  simpa only [mul_one_div] using this

/-- C45. Comparison by units in the last place: equal exactly if in every cell the distance is at
most `ulps`. -/
theorem _root_.SpatialOps.C45_ulps [IsStrictOrderedRing K] (f1 f2 : FieldObj) (b1 b2 : Nat) (h1 : Readable f1 b1)
    (h2 : Readable f2 b2) (hw : f1.geo.window = f2.geo.window) (m : Mem (Dbl K)) (dist : Dbl K → Dbl K → Outcome Int)
    (D : Dbl K → Dbl K → Int) (hd : Everywhere f1.geo.window fun a => dist (m b1 a) (m b2 a) = .ok (D (m b1 a) (m b2 a))) (ulps : Nat) :
    Answers (fieldEqualUlp dist m f1 f2 ulps) (fieldNotEqualUlp dist m f1 f2 ulps)
      (Everywhere f1.geo.window fun a => |D (m b1 a) (m b2 a)| ≤ ulps) := by
  apply answers_of h1 h2 hw m _ (fun x y => decide (|D x y| > ulps))
  · intro loc a q1 q2
    unfold ulpBad
    rw [hd loc a q1 q2, Outcome.ok_bind]
    split_ifs with h
    · subst h
      simp
    · rfl
  · intro loc a q1 q2
    simp

/-- C45. Fields whose windows differ are rejected by every comparison. -/
theorem _root_.SpatialOps.C45_windows_differ (f1 f2 : FieldObj) (hw : f1.geo.window ≠ f2.geo.window) (m : Mem (Dbl K))
    (e ea : Dbl K) (dist : Dbl K → Dbl K → Outcome Int) (ulps : Nat) :
    fieldEqual m f1 f2 e ea = .throws ∧ fieldEqualAbs m f1 f2 e = .throws ∧ fieldEqualUlp dist m f1 f2 ulps = .throws ∧
    fieldNotEqual m f1 f2 e ea = .throws ∧ fieldNotEqualAbs m f1 f2 e = .throws ∧ fieldNotEqualUlp dist m f1 f2 ulps = .throws := by
  have hne : f1.geo.window.neOp f2.geo.window = true := by
    unfold Window.neOp
    by_contra hc
    simp only [ne_eq, Bool.or_eq_true, decide_eq_true_eq, not_or, not_not] at hc
    apply hw
    cases hq : f1.geo.window
    cases hr : f2.geo.window
    rw [hq, hr] at hc
    simp_all
  have : ∀ bad : Dbl K → Dbl K → Outcome Bool, fields bad m f1 f2 = .throws := by
    intro bad
    unfold fields
    rw [Outcome.throwIf_true hne]
    rfl
  refine ⟨this _, this _, this _, ?_, ?_, ?_⟩
  · unfold fieldNotEqual fieldEqual; rw [this]; rfl
  · unfold fieldNotEqualAbs fieldEqualAbs; rw [this]; rfl
  · unfold fieldNotEqualUlp fieldEqualUlp; rw [this]; rfl

theorem relBad_self [IsStrictOrderedRing K] (e ea x : Dbl K) (hx : x ≠ nan) : relBad e ea x x = false := by
  unfold relBad
  dsimp only
  split_ifs with h
  · exact ne_false.2 ⟨rfl, hx⟩
  · have h2 : (x.sub x).abs = fin 0 ∨ (x.sub x).abs = nan := by
      cases x with
      | fin x => left; simp [Dbl.sub, Dbl.add, Dbl.neg, Dbl.abs]
      | inf s => right; cases s <;> simp [Dbl.sub, Dbl.add, Dbl.neg, Dbl.abs]
      | nan => exact absurd rfl hx
    rcases h2 with h2 | h2
    · rw [h2]
      cases hd : (x.abs.add ea) with
      | fin d =>
        by_cases d0 : d = 0
        · simp [Dbl.div, d0, Dbl.gt]
        · cases e with
          | fin e => simp [Dbl.div, d0, Dbl.gt, Dbl.abs]
          | inf s => simp [Dbl.div, d0, Dbl.gt, Dbl.abs]
          | nan => simp [Dbl.div, d0, Dbl.gt, Dbl.abs]
      | inf s => cases e <;> simp [Dbl.div, Dbl.gt, Dbl.abs]
      | nan => simp [Dbl.div, Dbl.gt]
    · rw [h2]
      cases e <;> simp [Dbl.div, Dbl.gt]

theorem absBad_self [IsStrictOrderedRing K] (e x : Dbl K) (hx : x ≠ nan) : absBad e x x = false := by
  unfold absBad
  dsimp only
  split_ifs with h
  · exact ne_false.2 ⟨rfl, hx⟩
  · cases x with
    | fin x => cases e <;> simp [Dbl.sub, Dbl.add, Dbl.neg, Dbl.abs, Dbl.gt]
    | inf s => cases s <;> cases e <;> simp [Dbl.sub, Dbl.add, Dbl.neg, Dbl.abs, Dbl.gt]
    | nan => exact absurd rfl hx

/-- C45. A field without NaN compares equal to itself, with every tolerance and offset. -/
theorem _root_.SpatialOps.C45_reflexive [IsStrictOrderedRing K] (f : FieldObj) (b : Nat) (h : Readable f b) (m : Mem (Dbl K))
    (hn : Everywhere f.geo.window fun a => m b a ≠ nan) (e ea : Dbl K) :
    fieldEqual m f f e ea = .ok true ∧ fieldEqualAbs m f f e = .ok true := by
  constructor
  · obtain ⟨r, e1, e2⟩ := fields_ok h h rfl m (fun x y => .ok (relBad e ea x y)) _ (fun _ _ _ _ => rfl)
    rw [e2.2 (everywhere_mono hn fun a ha => relBad_self e ea _ ha)] at e1
    exact e1
  · obtain ⟨r, e1, e2⟩ := fields_ok h h rfl m (fun x y => .ok (absBad e x y)) _ (fun _ _ _ _ => rfl)
    rw [e2.2 (everywhere_mono hn fun a ha => absBad_self e _ ha)] at e1
    exact e1

theorem absBad_comm [IsStrictOrderedRing K] (e x y : Dbl K) : absBad e x y = absBad e y x := by
  unfold absBad
  dsimp only
  congr 1
  · cases x <;> cases y <;> simp [Dbl.ne, eq_comm]
  · congr 1
    cases x with
    | fin x => cases y with
      | fin y => simp [Dbl.sub, Dbl.add, Dbl.neg, Dbl.abs, ← sub_eq_add_neg, abs_sub_comm]
      | inf s => simp [Dbl.sub, Dbl.add, Dbl.neg, Dbl.abs]
      | nan => simp [Dbl.sub, Dbl.add, Dbl.neg, Dbl.abs]
    | inf s => cases y with
      | fin y => simp [Dbl.sub, Dbl.add, Dbl.neg, Dbl.abs]
      | inf t => cases s <;> cases t <;> simp [Dbl.sub, Dbl.add, Dbl.neg, Dbl.abs]
      | nan => simp [Dbl.sub, Dbl.add, Dbl.neg, Dbl.abs]
    | nan => cases y <;> simp [Dbl.sub, Dbl.add, Dbl.neg, Dbl.abs]

/-- C45. Absolute comparison is symmetric, for all values and tolerances. -/
theorem _root_.SpatialOps.C45_absolute_symmetric [IsStrictOrderedRing K] (f1 f2 : FieldObj) (b1 b2 : Nat) (h1 : Readable f1 b1)
    (h2 : Readable f2 b2) (m : Mem (Dbl K)) (e : Dbl K) : fieldEqualAbs m f1 f2 e = fieldEqualAbs m f2 f1 e := by
  by_cases hw : f1.geo.window = f2.geo.window
  · obtain ⟨r, e1, e2⟩ := fields_ok h1 h2 hw m (fun x y => .ok (absBad e x y)) _ (fun _ _ _ _ => rfl)
    obtain ⟨s, e3, e4⟩ := fields_ok h2 h1 hw.symm m (fun x y => .ok (absBad e x y)) _ (fun _ _ _ _ => rfl)
    unfold fieldEqualAbs
    rw [e1, e3, Bool.eq_iff_iff.2 (e2.trans (Iff.trans _ e4.symm))]
    rw [hw]
    simp only [absBad_comm e (m b1 _)]
  · rw [(C45_windows_differ f1 f2 hw m e e (fun _ _ => .ub) 0).2.1,
      (C45_windows_differ f2 f1 (Ne.symm hw) m e e (fun _ _ => .ub) 0).2.1]

/-- C45. The form that compares a field with a number by units in the last place. -/
theorem _root_.SpatialOps.C45_scalar_ulps [IsStrictOrderedRing K] (f : FieldObj) (b : Nat) (h : Readable f b) (m : Mem (Dbl K))
    (dist : Dbl K → Dbl K → Outcome Int) (D : Dbl K → Dbl K → Int) (d : Dbl K)
    (hd : Everywhere f.geo.window fun a => dist d (m b a) = .ok (D d (m b a))) (ulps : Nat) :
    ∃ r, scalarEqualUlp dist m d f ulps = .ok r ∧ (r = true ↔ Everywhere f.geo.window fun a => |D d (m b a)| ≤ ulps) := by
  obtain ⟨r, e1, e2⟩ := scalar_ok h m (fun x => ulpBad dist ulps d x) (fun y => decide (|D d y| > ulps)) (by
    intro loc a q1 q2
    unfold ulpBad
    rw [hd loc a q1 q2, Outcome.ok_bind]
    split_ifs with h
    · subst h
      simp
    · rfl)
  refine ⟨r, e1, e2.trans (everywhere_congr fun loc a q1 q2 => ?_)⟩
  simp

/-- C45. The forms that compare a field with a number: zero tolerance, absolute and relative
tolerance. The relative form divides by the magnitude of the number. -/
theorem _root_.SpatialOps.C45_scalar [IsStrictOrderedRing K] (f : FieldObj) (b : Nat) (h : Readable f b) (m : Mem (Dbl K)) (u : Int → K)
    (hu : Everywhere f.geo.window fun a => m b a = fin (u a)) (d e ea : K) :
    (∃ r, scalarEqualAbs m (fin d) f (fin e) = .ok r ∧ (r = true ↔ Everywhere f.geo.window fun a => |u a - d| ≤ |e|)) ∧
    (∃ r, scalarEqual m (fin d) f (fin 0) (fin ea) = .ok r ∧ (r = true ↔ Everywhere f.geo.window fun a => u a = d)) ∧
    (e ≠ 0 → 0 ≤ ea → ∃ r, scalarEqual m (fin d) f (fin e) (fin ea) = .ok r ∧
      (r = true ↔ Everywhere f.geo.window fun a => |u a - d| ≤ |e| * (|d| + ea))) := by
  have key : ∀ (B : Dbl K → Bool) (P : Int → Prop),
      (Everywhere f.geo.window fun a => B (fin (u a)) = false ↔ P a) →
      ∃ r, scalar (fun x => .ok (B x)) m f = .ok r ∧ (r = true ↔ Everywhere f.geo.window P) := by
    intro B P hP
    obtain ⟨r, e1, e2⟩ := scalar_ok h m (fun x => .ok (B x)) B (fun _ _ _ _ => rfl)
    refine ⟨r, e1, e2.trans (everywhere_congr fun loc a q1 q2 => ?_)⟩
    show B (m b a) = false ↔ P a
    rw [hu loc a q1 q2]
    exact hP loc a q1 q2
  refine ⟨key _ _ ?_, key _ _ ?_, fun he hea => key _ _ ?_⟩
  · intro loc a q1 q2
    have e1 : absBadScalar (fin d) (fin e) (fin (u a)) = absBad (fin e) (fin d) (fin (u a)) := by
      unfold absBadScalar absBad
      dsimp only
      split_ifs
      · simp [Dbl.ne, eq_comm]
      · rfl
    show absBadScalar (fin d) (fin e) (fin (u a)) = false ↔ _
    rw [e1, absBad_fin, abs_sub_comm]
  · intro loc a q1 q2
    unfold relBadScalar
    dsimp only
    rw [if_pos (abs_fin_zero.2 rfl), ne_false]
    simp
  · intro loc a q1 q2
    have := relBad_fin e ea d (u a) hea he
    rw [abs_sub_comm, ← this]
    unfold relBadScalar relBad
    dsimp only
    rw [if_neg (fun h => he (by have := abs_fin_zero.1 h; injection this)),
      if_neg (fun h => he (by have := abs_fin_zero.1 h; injection this))]

/-! ## Deviations -/

/-- C45, deviation. With a tolerance that is not zero, a field of NaN compares equal to every
field: a NaN never exceeds the tolerance. With tolerance zero it is not equal to itself. -/
theorem _root_.SpatialOps.C45_nan_equals_anything [IsStrictOrderedRing K] (f1 f2 : FieldObj) (b1 b2 : Nat) (h1 : Readable f1 b1)
    (h2 : Readable f2 b2) (hw : f1.geo.window = f2.geo.window) (m : Mem (Dbl K))
    (hn : Everywhere f1.geo.window fun a => m b1 a = nan) (e : K) (he : e ≠ 0) (ea : Dbl K) :
    fieldEqual m f1 f2 (fin e) ea = .ok true ∧ fieldEqualAbs m f1 f2 (fin e) = .ok true ∧
      fieldEqual m f1 f1 (fin 0) ea = .ok false ∧ fieldEqualAbs m f1 f1 (fin 0) = .ok false := by
  have hne : ¬ (fin e : Dbl K).abs = fin 0 := fun h => he (by have := abs_fin_zero.1 h; injection this)
  have cell : ∃ loc a, InBlock f1.geo.window.extent loc ∧ f1.geo.window.flatIndex loc = .ok a := by
    have hin : InBlock f1.geo.window.extent 0 := by
      have := h1.nonempty
      unfold Window.Nonempty at this
      iv_omega
    exact ⟨0, _, hin, (Window.flatIndex_eq_ok h1.fits hin).1⟩
  obtain ⟨loc, a, c1, c2⟩ := cell
  have hcell := hn loc a c1 c2
  refine ⟨?_, ?_, ?_, ?_⟩
  · obtain ⟨r, e1, e2⟩ := fields_ok h1 h2 hw m (fun x y => .ok (relBad (fin e) ea x y)) _ (fun _ _ _ _ => rfl)
    rw [e2.2 (everywhere_mono hn fun a ha => by
      unfold relBad
      dsimp only
      rw [if_neg hne, ha]
      simp [Dbl.sub, Dbl.add, Dbl.abs, Dbl.div, Dbl.gt])] at e1
    exact e1
  · obtain ⟨r, e1, e2⟩ := fields_ok h1 h2 hw m (fun x y => .ok (absBad (fin e) x y)) _ (fun _ _ _ _ => rfl)
    rw [e2.2 (everywhere_mono hn fun a ha => by
      unfold absBad
      dsimp only
      rw [if_neg hne, ha]
      simp [Dbl.sub, Dbl.add, Dbl.abs, Dbl.gt])] at e1
    exact e1
  · obtain ⟨r, e1, _, e2⟩ := (C45_exact f1 f1 b1 b1 h1 h1 rfl m ea).1
    cases r
    · exact e1
    · exact absurd hcell (e2.1 rfl loc a c1 c2).2
  · obtain ⟨r, e1, _, e2⟩ := (C45_exact f1 f1 b1 b1 h1 h1 rfl m ea).2
    cases r
    · exact e1
    · exact absurd hcell (e2.1 rfl loc a c1 c2).2

/-- C45, deviation. The sign of the tolerance is dropped before it is used as a tolerance, but not
before the default offset is formed from it: with a negative tolerance the offset is negative and
cells where the first field is small compared with its norm are equal to anything. -/
theorem _root_.SpatialOps.C45_negative_tolerance_accepts [IsStrictOrderedRing K] (f1 f2 : FieldObj) (b1 b2 : Nat) (h1 : Readable f1 b1)
    (h2 : Readable f2 b2) (hw : f1.geo.window = f2.geo.window) (m : Mem (Dbl K)) (u v : Int → K)
    (hu : Everywhere f1.geo.window fun a => m b1 a = fin (u a)) (hv : Everywhere f1.geo.window fun a => m b2 a = fin (v a))
    (e norm : K) (he : e < 0)
    (hc : Everywhere f1.geo.window fun a => u a = v a ∨ |u a| < norm * |e| / 1000000) :
    fieldEqualDefault (fin norm) m f1 f2 (fin e) = .ok true := by
  have hd : defaultAbs (fin norm) (fin e) = fin (norm * e * (1 / 1000000)) := by
    unfold defaultAbs
    rw [if_neg (by simp [he.ne])]
    rfl
  unfold fieldEqualDefault
  rw [hd]
  obtain ⟨r, e1, e2⟩ := fields_ok h1 h2 hw m (fun x y => .ok (relBad (fin e) (fin (norm * e * (1 / 1000000))) x y)) _ (fun _ _ _ _ => rfl)
  rw [e2.2 ?_] at e1
  · exact e1
  · intro loc a q1 q2
    show relBad _ _ (m b1 a) (m b2 a) = false
    rw [hu loc a q1 q2, hv loc a q1 q2]
    rcases hc loc a q1 q2 with h | h
    · rw [h]
      exact relBad_self _ _ _ (by simp)
    · unfold relBad
      dsimp only
      rw [if_neg (fun h => he.ne (by have := abs_fin_zero.1 h; injection this))]
      have hneg : |u a| + norm * e * (1 / 1000000) < 0 := by
        rw [abs_of_neg he] at h
        linarith
      simp only [Dbl.abs, Dbl.sub, Dbl.add, Dbl.neg, Dbl.div]
      rw [if_neg hneg.ne]
      simp only [Dbl.gt, decide_eq_false_iff_not, not_lt]
      exact le_trans (div_nonpos_of_nonneg_of_nonpos (abs_nonneg _) hneg.le) (abs_nonneg _)

/-- C45. Absolute comparison with any values in the fields and a tolerance that is not zero: a cell passes exactly if one of
the values is a NaN, or both are the same infinity, or both are numbers that differ by at most the tolerance. -/
theorem _root_.SpatialOps.C45_absolute_any_values [IsStrictOrderedRing K] (f1 f2 : FieldObj) (b1 b2 : Nat) (h1 : Readable f1 b1)
    (h2 : Readable f2 b2) (hw : f1.geo.window = f2.geo.window) (m : Mem (Dbl K)) (e : K) (he : e ≠ 0) :
    Answers (fieldEqualAbs m f1 f2 (fin e)) (fieldNotEqualAbs m f1 f2 (fin e)) (Everywhere f1.geo.window fun a =>
      m b1 a = nan ∨ m b2 a = nan ∨ (∃ s, m b1 a = inf s ∧ m b2 a = inf s) ∨
      ∃ x y, m b1 a = fin x ∧ m b2 a = fin y ∧ |x - y| ≤ |e|) := by
  have hne : ¬ (fin e : Dbl K).abs = fin 0 := fun h => he (by have := abs_fin_zero.1 h; injection this)
  apply answers_of h1 h2 hw m _ _ (fun _ _ _ _ => rfl)
  intro loc a _ _
  cases hx : m b1 a with
  | nan => simp only [absBad, if_neg hne]; simp [Dbl.sub, Dbl.add, Dbl.abs, Dbl.gt]
  | inf s =>
    simp only [absBad, if_neg hne]
    cases hy : m b2 a with
    | nan => cases s <;> simp [Dbl.sub, Dbl.neg, Dbl.add, Dbl.abs, Dbl.gt]
    | inf t => cases s <;> cases t <;> simp [Dbl.sub, Dbl.neg, Dbl.add, Dbl.abs, Dbl.gt]
    | fin y => simp [Dbl.sub, Dbl.neg, Dbl.add, Dbl.abs, Dbl.gt]
  | fin x =>
    cases hy : m b2 a with
    | nan => simp only [absBad, if_neg hne]; simp [Dbl.sub, Dbl.neg, Dbl.add, Dbl.abs, Dbl.gt]
    | inf t => simp only [absBad, if_neg hne]; simp [Dbl.sub, Dbl.neg, Dbl.add, Dbl.abs, Dbl.gt]
    | fin y => rw [absBad_fin]; simp

/-- C45. Relative comparison with any values in the fields, a tolerance that is not zero and an offset that is not negative: a cell passes
exactly if the first value is not a number, or the second is a NaN, or both are numbers within the tolerance. So an infinity
in the first field is equal to anything. -/
theorem _root_.SpatialOps.C45_relative_any_values [IsStrictOrderedRing K] (f1 f2 : FieldObj) (b1 b2 : Nat) (h1 : Readable f1 b1)
    (h2 : Readable f2 b2) (hw : f1.geo.window = f2.geo.window) (m : Mem (Dbl K)) (e ea : K) (he : e ≠ 0) (hea : 0 ≤ ea) :
    Answers (fieldEqual m f1 f2 (fin e) (fin ea)) (fieldNotEqual m f1 f2 (fin e) (fin ea)) (Everywhere f1.geo.window fun a =>
      m b1 a = nan ∨ (∃ s, m b1 a = inf s) ∨ m b2 a = nan ∨
      ∃ x y, m b1 a = fin x ∧ m b2 a = fin y ∧ |x - y| ≤ |e| * (|x| + ea)) := by
  have hne : ¬ (fin e : Dbl K).abs = fin 0 := fun h => he (by have := abs_fin_zero.1 h; injection this)
  apply answers_of h1 h2 hw m _ _ (fun _ _ _ _ => rfl)
  intro loc a _ _
  cases hx : m b1 a with
  | nan => simp only [relBad, if_neg hne]; simp [Dbl.sub, Dbl.add, Dbl.abs, Dbl.div, Dbl.gt]
  | inf s =>
    simp only [relBad, if_neg hne]
    cases hy : m b2 a with
    | nan => cases s <;> simp [Dbl.sub, Dbl.neg, Dbl.add, Dbl.abs, Dbl.div, Dbl.gt]
    | inf t => cases s <;> cases t <;> simp [Dbl.sub, Dbl.neg, Dbl.add, Dbl.abs, Dbl.div, Dbl.gt]
    | fin y => simp [Dbl.sub, Dbl.neg, Dbl.add, Dbl.abs, Dbl.div, Dbl.gt]
  | fin x =>
    cases hy : m b2 a with
    | nan => simp only [relBad, if_neg hne]; simp [Dbl.sub, Dbl.neg, Dbl.add, Dbl.abs, Dbl.div, Dbl.gt]
    | inf t =>
      have : ¬ |x| + ea < 0 := not_lt.2 (by positivity)
      simp only [relBad, if_neg hne]; simp [Dbl.sub, Dbl.neg, Dbl.add, Dbl.abs, Dbl.div, Dbl.gt, this]
    | fin y => rw [relBad_fin e ea x y hea he]; simp

/-- C45, deviation. If the norm of the first field is not a number (a single NaN or infinity in the field, or a sum of squares that is too large),
then the form without an offset finds the field equal to every other one, whatever the cells hold, with every tolerance but zero. The norm
of a field of numbers gives the offset of C45_relative_default. -/
theorem _root_.SpatialOps.C45_norm_not_finite_accepts [IsStrictOrderedRing K] (f1 f2 : FieldObj) (b1 b2 : Nat) (h1 : Readable f1 b1)
    (h2 : Readable f2 b2) (hw : f1.geo.window = f2.geo.window) (m : Mem (Dbl K)) (e : K) (he : e ≠ 0) (norm : Dbl K)
    (hn : ∀ x, norm ≠ fin x) : fieldEqualDefault norm m f1 f2 (fin e) = .ok true := by
  have hne : ¬ (fin e : Dbl K).abs = fin 0 := fun h => he (by have := abs_fin_zero.1 h; injection this)
  have hd : defaultAbs norm (fin e) = nan ∨ ∃ s, defaultAbs norm (fin e) = inf s := by
    unfold defaultAbs
    rw [if_neg (by simpa using he)]
    cases norm with
    | nan => exact .inl rfl
    | fin x => exact absurd rfl (hn x)
    | inf s => exact .inr (by simp [Dbl.mul, he])
  unfold fieldEqualDefault
  obtain ⟨r, e1, e2⟩ := fields_ok h1 h2 hw m (fun x y => .ok (relBad (fin e) (defaultAbs norm (fin e)) x y)) _ (fun _ _ _ _ => rfl)
  rw [e2.2 ?_] at e1
  · exact e1
  · intro loc a _ _
    show relBad _ _ (m b1 a) (m b2 a) = false
    rcases hd with hd | ⟨s, hd⟩
    · rw [hd]
      simp only [relBad, if_neg hne]
      cases m b1 a with
      | nan => simp [Dbl.sub, Dbl.add, Dbl.abs, Dbl.div, Dbl.gt]
      | inf t =>
        cases m b2 a with
        | inf q => cases t <;> cases q <;> simp [Dbl.sub, Dbl.neg, Dbl.add, Dbl.abs, Dbl.div, Dbl.gt]
        | _ => simp [Dbl.sub, Dbl.neg, Dbl.add, Dbl.abs, Dbl.div, Dbl.gt]
      | fin x => cases m b2 a <;> simp [Dbl.sub, Dbl.neg, Dbl.add, Dbl.abs, Dbl.div, Dbl.gt]
    · rw [hd]
      simp only [relBad, if_neg hne]
      cases m b1 a with
      | nan => simp [Dbl.sub, Dbl.add, Dbl.abs, Dbl.div, Dbl.gt]
      | inf t =>
        cases m b2 a with
        | nan => cases t <;> cases s <;> simp [Dbl.sub, Dbl.neg, Dbl.add, Dbl.abs, Dbl.div, Dbl.gt]
        | inf q => cases t <;> cases s <;> cases q <;> simp [Dbl.sub, Dbl.neg, Dbl.add, Dbl.abs, Dbl.div, Dbl.gt]
        | fin y => cases t <;> cases s <;> simp [Dbl.sub, Dbl.neg, Dbl.add, Dbl.abs, Dbl.div, Dbl.gt]
      | fin x => cases m b2 a <;> simp [Dbl.sub, Dbl.neg, Dbl.add, Dbl.abs, Dbl.div, Dbl.gt]

/-- C45. A tolerance that is not a number (NaN or an infinity) accepts every pair of fields, in the absolute form, in the relative form with
every offset and in the form without an offset. -/
theorem _root_.SpatialOps.C45_tolerance_not_finite_accepts [IsStrictOrderedRing K] (f1 f2 : FieldObj) (b1 b2 : Nat) (h1 : Readable f1 b1)
    (h2 : Readable f2 b2) (hw : f1.geo.window = f2.geo.window) (m : Mem (Dbl K)) (e ea norm : Dbl K) (he : ∀ x, e ≠ fin x) :
    fieldEqualAbs m f1 f2 e = .ok true ∧ fieldEqual m f1 f2 e ea = .ok true ∧ fieldEqualDefault norm m f1 f2 e = .ok true := by
  have key : ∀ x : Dbl K, x.gt e.abs = false := by
    intro x
    cases e with
    | fin y => exact absurd rfl (he y)
    | nan => cases x <;> rfl
    | inf s => cases x <;> simp [Dbl.abs, Dbl.gt]
  have hne : ¬ e.abs = fin 0 := by
    cases e with
    | fin y => exact absurd rfl (he y)
    | nan => simp [Dbl.abs]
    | inf s => simp [Dbl.abs]
  have rel : ∀ ea, fieldEqual m f1 f2 e ea = .ok true := by
    intro ea
    obtain ⟨r, e1, e2⟩ := fields_ok h1 h2 hw m (fun x y => .ok (relBad e ea x y)) _ (fun _ _ _ _ => rfl)
    rw [e2.2 (fun loc a _ _ => by show relBad _ _ _ _ = false; simp only [relBad, if_neg hne, key])] at e1
    exact e1
  refine ⟨?_, rel ea, rel _⟩
  obtain ⟨r, e1, e2⟩ := fields_ok h1 h2 hw m (fun x y => .ok (absBad e x y)) _ (fun _ _ _ _ => rfl)
  rw [e2.2 (fun loc a _ _ => by show absBad _ _ _ = false; simp only [absBad, if_neg hne, key])] at e1
  exact e1

end

/-! ## Examples -/

namespace Ex

/-- A field of two cells in block `b`. -/
def fld (b : Nat) : FieldObj :=
  ⟨⟨⟨⟨2, 1, 1⟩, 0, ⟨2, 1, 1⟩⟩, ⟨⟨2, 1, 1⟩, 0, ⟨2, 1, 1⟩⟩, BcInfo.build false false false 0, ⟨0, 0, false⟩, ⟨0, 0, false⟩, false⟩,
    some b, none, true, .localRam, 0, false, [], [], false, 2⟩

theorem readable (b : Nat) : Readable (fld b) b :=
  ⟨show (⟨⟨2, 1, 1⟩, 0, ⟨2, 1, 1⟩⟩ : Window).Fits by decide, show (⟨⟨2, 1, 1⟩, 0, ⟨2, 1, 1⟩⟩ : Window).Nonempty by decide,
    Or.inl ⟨rfl, rfl⟩⟩

/-- The fields hold (0, 3) in block 0 and (7, 3) in block 1. -/
def u : Int → ℚ := fun a => if a = 0 then 0 else 3
def v : Int → ℚ := fun a => if a = 0 then 7 else 3
def mem : Mem (Dbl ℚ) := fun b a => if b = 0 then .fin (u a) else .fin (v a)

end Ex

example : fieldEqualAbs Ex.mem (Ex.fld 0) (Ex.fld 1) (.fin (-7)) = .ok true := by
  obtain ⟨r, h1, -, h2⟩ := C45_absolute (Ex.fld 0) (Ex.fld 1) 0 1 (Ex.readable 0) (Ex.readable 1) rfl Ex.mem Ex.u Ex.v
    (fun _ _ _ _ => rfl) (fun _ _ _ _ => rfl) (-7)
  rw [h1, h2.2]
  intro loc a _ _
  unfold Ex.u Ex.v
  by_cases h : a = 0 <;> simp [h]

example : fieldEqualDefault (.fin 3) Ex.mem (Ex.fld 0) (Ex.fld 1) (.fin (-1 / 100)) = .ok true :=
  C45_negative_tolerance_accepts (Ex.fld 0) (Ex.fld 1) 0 1 (Ex.readable 0) (Ex.readable 1) rfl Ex.mem Ex.u Ex.v
    (fun _ _ _ _ => rfl) (fun _ _ _ _ => rfl) (-1 / 100) 3 (by norm_num) (fun _ a _ _ => by
      unfold Ex.u Ex.v
      by_cases h : a = 0
      · right; simp [h]
      · left; simp [h])

/-- An infinity in the first field: the form without an offset finds (infinity, 3) equal to (7, 3). -/
example : fieldEqualDefault (.inf false) (fun b a => if b = 0 ∧ a = 0 then .inf false else Ex.mem b a) (Ex.fld 0) (Ex.fld 1) (.fin (1 / 100)) =
    .ok true :=
  C45_norm_not_finite_accepts (Ex.fld 0) (Ex.fld 1) 0 1 (Ex.readable 0) (Ex.readable 1) rfl _ (1 / 100) (by norm_num) _ (by simp)

/-- A NaN as the tolerance. -/
example : fieldEqualAbs Ex.mem (Ex.fld 0) (Ex.fld 1) .nan = .ok true :=
  (C45_tolerance_not_finite_accepts (Ex.fld 0) (Ex.fld 1) 0 1 (Ex.readable 0) (Ex.readable 1) rfl Ex.mem .nan (.fin 0) (.fin 0) (by simp)).1

/-- C45. Relative comparison is not symmetric: the tolerance is relative to the first field. -/
theorem _root_.SpatialOps.C45_relative_not_symmetric :
    ∃ (f1 f2 : FieldObj) (m : Mem (Dbl ℚ)), Readable f1 0 ∧ Readable f2 1 ∧ f1.geo.window = f2.geo.window ∧
      fieldEqual m f1 f2 (.fin (1 / 2)) (.fin 0) = .ok false ∧ fieldEqual m f2 f1 (.fin (1 / 2)) (.fin 0) = .ok true :=
  ⟨Ex.fld 0, Ex.fld 1, fun b _ => if b = 0 then .fin 1 else .fin 2, Ex.readable 0, Ex.readable 1, rfl,
    by decide +kernel, by decide +kernel⟩

end Compare
end SpatialOps
