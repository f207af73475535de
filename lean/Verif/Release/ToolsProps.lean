import Verif.Release.ToolsModel
import Verif.Release.Spec
import Verif.Point.Props
import Verif.Lagrange.Props

/-!
# C97: point operators, tables and the memory pool in a build without the debug checks
-/

namespace SpatialOps
namespace Rel

open Point Nebo

section
variable {V : Type}

theorem pt_room {f : FieldObj} {b : Nat} (h : Usable f b) {k : Nat} (hk : (k : Int) < f.geo.window.localNpts) :
    0 ≤ pt f k ∧ pt f k < f.geo.window.globNpts := by
  have := nthLoc_spec h.fits h.nonempty hk
  have hw := h.fits
  have hb : InBlock f.geo.window.npts (f.geo.window.offset + nthLoc f.geo.window k) := by
    have := this.1
    unfold Window.Fits at hw
    iv_omega
  exact fortranPos_bound hb

theorem elem_pt {f : FieldObj} {b : Nat} (h : Usable f b) {k : Nat} (hk : (k : Int) < f.geo.window.localNpts) :
    elem f (some b) (It.nth 0 f.geo.window k) = .ok (b, pt f k) := by
  have hd := deref_pt h hk
  have hc : (It.nth 0 f.geo.window k).current = pt f k := by
    unfold It.deref at hd
    by_cases c1 : (It.nth 0 f.geo.window k).count ≠ (It.nth 0 f.geo.window k).xIndex + (It.nth 0 f.geo.window k).yIndex * (It.nth 0 f.geo.window k).xExtent +
        (It.nth 0 f.geo.window k).zIndex * (It.nth 0 f.geo.window k).xyExtent
    · rw [Outcome.throwIf_true c1] at hd; cases hd
    · rw [Outcome.throwIf_false c1, Outcome.ok_bind] at hd
      revert hd
      unfold Outcome.throwIf
      split
      · intro hd; cases hd
      · intro hd; exact Outcome.ok.inj hd
  unfold elem elemAt
  rw [hc]
  dsimp only
  rw [Outcome.ubUnless_true (pt_room h hk)]
  rfl

/-- One point put into a field. -/
def putOne (idx : List Nat) (p f : FieldObj) (bp : Nat) (k : Nat) (s : Mem V × Nat) : Outcome (Mem V × Nat) := do
  let i ← indexAt idx s.2
  let d ← f.subscriptM i
  room f i
  return (s.1.write d.1 d.2 (s.1 bp (pt p k)), s.2 + 1)

/-- One point taken from a field. -/
def getOne (idx : List Nat) (p f : FieldObj) (bp : Nat) (k : Nat) (s : Mem V × Nat) : Outcome (Mem V × Nat) := do
  let i ← indexAt idx s.2
  let d ← f.subscriptC i
  room f i
  return (s.1.write bp (pt p k) (s.1 d.1 d.2), s.2 + 1)

/-- The number of points. -/
def count (p : FieldObj) : Nat := p.geo.window.localNpts.toNat

theorem count_lt {p : FieldObj} {bp : Nat} (hp : Usable p bp) {k : Nat} (hk : k ∈ List.range (count p)) : (k : Int) < p.geo.window.localNpts := by
  have := List.mem_range.1 hk
  have := It.localNpts_nonneg hp.nonempty
  unfold count at *
  omega

theorem bind_same' {α β : Type} {a : Outcome α} {f g : α → Outcome β} (h : ∀ x, f x = g x) : (a >>= f) = (a >>= g) := by
  cases a with
  | ok x => exact h x
  | _ => rfl

theorem put_debug {p f : FieldObj} {bp : Nat} (hp : Usable p bp) (idx : List Nat) (m : Mem V) :
    Point.pointToField idx p f m = foldO (putOne idx p f bp) (List.range (count p)) (m, 0) >>= fun r =>
      Outcome.assert (r.2 = idx.length) >>= fun _ => .ok r.1 := by
  unfold Point.pointToField
  rw [beginC_ok hp, Outcome.ok_bind, endC_ok hp, Outcome.ok_bind]
  dsimp only
  rw [It.forIt_eq hp.fits hp.nonempty]
  refine congrArg (· >>= _) (foldO_congr (fun k hk s => ?_) _)
  unfold putOne
  refine bind_same' fun i => bind_same' fun d => bind_same' fun _ => ?_
  rw [deref_pt hp (count_lt hp hk), Outcome.ok_bind]

theorem put_release {p f : FieldObj} {bp : Nat} (hp : Usable p bp) (idx : List Nat) (m : Mem V) :
    pointToField idx p f m = foldO (putOne idx p f bp) (List.range (count p)) (m, 0) >>= fun r => .ok r.1 := by
  unfold pointToField
  rw [beginC_ok hp, Outcome.ok_bind, endC_ok hp, Outcome.ok_bind]
  dsimp only
  rw [It.forIt_eq hp.fits hp.nonempty]
  refine congrArg (· >>= _) (foldO_congr (fun k hk s => ?_) _)
  unfold putOne
  refine bind_same' fun i => bind_same' fun d => bind_same' fun _ => ?_
  rw [elem_pt hp (count_lt hp hk), Outcome.ok_bind]

theorem beginM_refused {p : FieldObj} {bp : Nat} (hp : Usable p bp) (hr : p.readOnly = true) : p.beginM = .throws := by
  unfold FieldObj.beginM
  rw [Outcome.throwIf_false (by simp [hp.ram]), Outcome.ok_bind, Outcome.throwIf_true hr]
  rfl

theorem get_debug {p f : FieldObj} {bp : Nat} (hp : Usable p bp) (hr : p.readOnly = false) (idx : List Nat) (m : Mem V) :
    Point.fieldToPoint idx f p m = foldO (getOne idx p f bp) (List.range (count p)) (m, 0) >>= fun r =>
      Outcome.assert (r.2 = idx.length) >>= fun _ => .ok r.1 := by
  unfold Point.fieldToPoint
  rw [beginM_ok hp hr, Outcome.ok_bind, endM_ok hp, Outcome.ok_bind]
  dsimp only
  rw [It.forIt_eq hp.fits hp.nonempty]
  refine congrArg (· >>= _) (foldO_congr (fun k hk s => ?_) _)
  unfold getOne
  refine bind_same' fun i => bind_same' fun d => bind_same' fun _ => ?_
  rw [deref_pt hp (count_lt hp hk), Outcome.ok_bind]

theorem get_release {p f : FieldObj} {bp : Nat} (hp : Usable p bp) (hr : p.readOnly = false) (idx : List Nat) (m : Mem V) :
    fieldToPoint idx f p m = foldO (getOne idx p f bp) (List.range (count p)) (m, 0) >>= fun r => .ok r.1 := by
  unfold fieldToPoint
  rw [beginM_ok hp hr, Outcome.ok_bind, endM_ok hp, Outcome.ok_bind]
  dsimp only
  rw [It.forIt_eq hp.fits hp.nonempty]
  refine congrArg (· >>= _) (foldO_congr (fun k hk s => ?_) _)
  unfold getOne
  refine bind_same' fun i => bind_same' fun d => bind_same' fun _ => ?_
  rw [elem_pt hp (count_lt hp hk), Outcome.ok_bind]

theorem same_after_assert {S α : Type} (o : Outcome S) (P : S → Prop) [DecidablePred P] (g : S → α) :
    Same (o >>= fun r => Outcome.assert (P r) >>= fun _ => .ok (g r)) (o >>= fun r => .ok (g r)) := by
  intro a h
  cases o with
  | ok r =>
    rw [Outcome.ok_bind] at h ⊢
    by_cases c : P r
    · rw [Outcome.assert_true c, Outcome.ok_bind] at h
      exact h
    · rw [Outcome.assert_false c] at h
      cases h
  | _ => cases h

/-- C97. Point operators and lists of marked points. -/
theorem _root_.SpatialOps.C97_points_same (nz : V → Bool) (p f : FieldObj) (bp bf : Nat) (hp : Usable p bp) (hf : Usable f bf)
    (idx : List Nat) (m : Mem V) :
    Same (Point.markers nz m f) (markers nz m f) ∧ Same (Point.pointToField idx p f m) (pointToField idx p f m) ∧
    Same (Point.fieldToPoint idx f p m) (fieldToPoint idx f p m) := by
  refine ⟨?_, ?_, ?_⟩
  · have : Point.markers nz m f = markers nz m f := by
      unfold Point.markers markers
      rw [beginC_ok hf, Outcome.ok_bind, endC_ok hf, Outcome.ok_bind, Outcome.ok_bind, Outcome.ok_bind]
      dsimp only
      rw [It.forIt_eq hf.fits hf.nonempty, It.forIt_eq hf.fits hf.nonempty]
      refine congrArg (· >>= _) (foldO_congr (fun k hk s => ?_) _)
      rw [deref_pt hf (count_lt hf hk), Outcome.ok_bind, elem_pt hf (count_lt hf hk), Outcome.ok_bind]
    rw [this]
    exact fun a h => h
  · rw [put_debug hp, put_release hp]
    exact same_after_assert _ _ _
  · cases hr : p.readOnly with
    | false =>
      rw [get_debug hp hr, get_release hp hr]
      exact same_after_assert _ _ _
    | true =>
      intro a h
      unfold Point.fieldToPoint at h
      rw [beginM_refused hp hr] at h
      cases h

/-- A fold that counts its steps depends only on what the steps do at their number. -/
theorem fold_counting {S : Type} {f g : Nat → S × Nat → Outcome (S × Nat)} (n : Nat)
    (hfg : ∀ k < n, ∀ s, f k (s, k) = g k (s, k)) (hc : ∀ k s s', f k (s, k) = .ok s' → s'.2 = k + 1) (s : S) :
    foldO f (List.range n) (s, 0) = foldO g (List.range n) (s, 0) ∧ ∀ r, foldO f (List.range n) (s, 0) = .ok r → r.2 = n := by
  have gen : ∀ (d k : Nat), k + d = n → ∀ s, foldO f (List.range' k d) (s, k) = foldO g (List.range' k d) (s, k) ∧
      ∀ r, foldO f (List.range' k d) (s, k) = .ok r → r.2 = n := by
    intro d
    induction d with
    | zero =>
      intro k hk s
      refine ⟨rfl, fun r h => ?_⟩
      cases h
      exact hk
    | succ d ih =>
      intro k hk s
      rw [List.range'_succ]
      simp only [foldO]
      rw [← hfg k (by omega) s]
      cases e : f k (s, k) with
      | ok s' =>
        obtain ⟨a, b⟩ := s'
        have := hc k s _ e
        dsimp only at this
        subst this
        exact ih (k + 1) (by omega) a
      | _ => exact ⟨rfl, fun r h => by cases h⟩
  rw [List.range_eq_range']
  exact gen n 0 (by omega) s

/-- C97. A list longer than the points there are is not noticed: where the debug build fails its assertion, the release build does what it
would do with the entries that belong to the points. -/
theorem _root_.SpatialOps.C97_points_too_long (p f : FieldObj) (bp : Nat) (hp : Usable p bp) (hr : p.readOnly = false) (idx : List Nat)
    (hl : p.geo.window.localNpts < idx.length) (m : Mem V) :
    pointToField idx p f m = Point.pointToField (idx.take p.geo.window.localNpts.toNat) p f m ∧
    fieldToPoint idx f p m = Point.fieldToPoint (idx.take p.geo.window.localNpts.toNat) f p m ∧
    (∀ m', Point.pointToField idx p f m ≠ .ok m') ∧ ∀ m', Point.fieldToPoint idx f p m ≠ .ok m' := by
  have hN := It.localNpts_nonneg hp.nonempty
  have hn : count p < idx.length := by unfold count; omega
  have hlen : (idx.take (count p)).length = count p := by rw [List.length_take]; omega
  have hat : ∀ k < count p, indexAt idx k = indexAt (idx.take (count p)) k := by
    intro k hk
    unfold indexAt
    rw [List.getElem?_take_of_lt hk]
  have step : ∀ {o : Outcome (Mem V × Nat)}, ((∀ r, o = .ok r → r.2 = count p) →
      (o >>= fun r => .ok r.1) = o >>= fun r => Outcome.assert (r.2 = (idx.take (count p)).length) >>= fun _ => .ok r.1) := by
    intro o h
    cases o with
    | ok r => rw [Outcome.ok_bind, Outcome.ok_bind, Outcome.assert_true (by rw [h r rfl, hlen]), Outcome.ok_bind]
    | _ => rfl
  have nok : ∀ {o : Outcome (Mem V × Nat)}, ((∀ r, o = .ok r → r.2 = count p) →
      ∀ m', (o >>= fun r => Outcome.assert (r.2 = idx.length) >>= fun _ => .ok r.1) ≠ .ok m') := by
    intro o h m' e
    cases o with
    | ok r =>
      rw [Outcome.ok_bind, Outcome.assert_false (by rw [h r rfl]; omega)] at e
      cases e
    | _ => cases e
  have c1 : ∀ (k : Nat) (s : Mem V) (s' : Mem V × Nat), putOne idx p f bp k (s, k) = .ok s' → s'.2 = k + 1 := by
    intro k s s' h
    unfold putOne at h
    obtain ⟨i, -, h⟩ := Outcome.bind_eq_ok.1 h
    obtain ⟨d, -, h⟩ := Outcome.bind_eq_ok.1 h
    obtain ⟨_, -, h⟩ := Outcome.bind_eq_ok.1 h
    cases h
    rfl
  have c2 : ∀ (k : Nat) (s : Mem V) (s' : Mem V × Nat), getOne idx p f bp k (s, k) = .ok s' → s'.2 = k + 1 := by
    intro k s s' h
    unfold getOne at h
    obtain ⟨i, -, h⟩ := Outcome.bind_eq_ok.1 h
    obtain ⟨d, -, h⟩ := Outcome.bind_eq_ok.1 h
    obtain ⟨_, -, h⟩ := Outcome.bind_eq_ok.1 h
    cases h
    rfl
  obtain ⟨p1, p2⟩ := fold_counting (f := putOne idx p f bp) (g := putOne (idx.take (count p)) p f bp) (count p)
    (fun k hk s => by unfold putOne; dsimp only; rw [hat k hk]) c1 m
  obtain ⟨g1, g2⟩ := fold_counting (f := getOne idx p f bp) (g := getOne (idx.take (count p)) p f bp) (count p)
    (fun k hk s => by unfold getOne; dsimp only; rw [hat k hk]) c2 m
  refine ⟨?_, ?_, ?_, ?_⟩
  · show _ = Point.pointToField (idx.take (count p)) p f m
    rw [put_release hp, put_debug hp, ← p1]
    exact step p2
  · show _ = Point.fieldToPoint (idx.take (count p)) f p m
    rw [get_release hp hr, get_debug hp hr, ← g1]
    exact step g2
  · rw [put_debug hp]
    exact nok p2
  · rw [get_debug hp hr]
    exact nok g2

/-- Two points and three entries. -/
example (m : Mem V) : Point.pointToField [1, 4, 2] (Ex.fld 2 0 2 0) (Ex.fld 6 0 6 1) m = .abort ∧
    ∃ m', pointToField [1, 4, 2] (Ex.fld 2 0 2 0) (Ex.fld 6 0 6 1) m = .ok m' ∧ m' 1 1 = m 0 0 ∧ m' 1 4 = m 0 1 ∧ m' 1 2 = m 1 2 := by
  have hp := Ex.usable 2 0 2 0 (by decide)
  have hf := Ex.usable 6 0 6 1 (by decide)
  refine ⟨(C44_wrong_length _ _ 0 1 hp hf rfl (by decide) [1, 4, 2] (by decide) m).1 (by decide), ?_⟩
  rw [(C97_points_too_long _ (Ex.fld 6 0 6 1) 0 hp rfl [1, 4, 2] (by decide) m).1]
  obtain ⟨m', h1, h2, h3⟩ := C44_put_points _ _ 0 1 hp hf rfl (by decide) [1, 4] ⟨by decide, by decide⟩ (by decide) m
  exact ⟨m', h1, h2 0 0 1 ⟨⟨0, 0, 0⟩, by decide, by decide, by decide⟩ rfl,
    h2 1 1 4 ⟨⟨1, 0, 0⟩, by decide, by decide, by decide⟩ rfl, h3 1 2 (.inr (by decide))⟩

end

/-! ## Tables -/

section
variable {K : Type} [Field K] [LinearOrder K]
open Lagr

omit [LinearOrder K] in
/-- The indices of the coefficients follow one another from the first point of the table that is used, and all of them lie in it. -/
theorem kLoop_range {xs : List K} {coef : K → Outcome (Bool × K)} {base : Int} : ∀ {n : Nat} {k : Int} {r : List K × List Int},
    kLoop xs coef base n k = .ok r → r.1.length = r.2.length ∧ ∀ i is, r.2 = i :: is → 0 ≤ i ∧ i + r.1.length ≤ xs.length := by
  have main : ∀ {n : Nat} {k : Int} {r : List K × List Int}, kLoop xs coef base n k = .ok r →
      r.1.length = r.2.length ∧ r.1.length ≤ n ∧ (0 < n → 0 ≤ base + k ∧ base + k + n ≤ xs.length) ∧
      ∀ i is, r.2 = i :: is → base + k ≤ i ∧ i + r.1.length ≤ base + k + n := by
    intro n
    induction n with
    | zero =>
      intro k r h
      cases h
      exact ⟨rfl, le_refl _, fun h => absurd h (lt_irrefl _), fun i is h => by cases h⟩
    | succ n ih =>
      intro k r h
      unfold kLoop at h
      obtain ⟨xk, h1, h⟩ := Outcome.bind_eq_ok.1 h
      obtain ⟨c, -, h⟩ := Outcome.bind_eq_ok.1 h
      obtain ⟨q, h2, h⟩ := Outcome.bind_eq_ok.1 h
      obtain ⟨i1, i2, i3, i4⟩ := ih h2
      have hin : 0 ≤ base + k ∧ base + k < xs.length := by
        unfold rd at h1
        split at h1
        · assumption
        · cases h1
      have hend : base + k + (n + 1 : Nat) ≤ xs.length := by
        rcases Nat.eq_zero_or_pos n with e | e
        · subst e; push_cast; omega
        · have := (i3 e).2; push_cast; omega
      have h := Outcome.ok.inj h
      subst h
      split
      · refine ⟨by simp [i1], by simpa using i2, fun _ => ⟨hin.1, hend⟩, fun i is e => ?_⟩
        injection e with e1 e2
        simp only [List.length_cons]
        push_cast
        omega
      · refine ⟨i1, by omega, fun _ => ⟨hin.1, hend⟩, fun i is e => ?_⟩
        have := i4 i is e
        push_cast
        omega
  intro n k r h
  obtain ⟨m1, m2, m3, m4⟩ := main h
  refine ⟨m1, fun i is e => ?_⟩
  have hpos : 0 < n := by
    rcases Nat.eq_zero_or_pos n with z | z
    · subst z
      cases h
      cases e
    · exact z
  have := m3 hpos
  have := m4 i is e
  omega

omit [LinearOrder K] in
theorem weigh_take (ys : List K) (n : Nat) : ∀ (cs : List K) (i : Int) (v : K), 0 ≤ i → i + cs.length ≤ n →
    weigh (ys.take n) cs i v = weigh ys cs i v := by
  intro cs
  induction cs with
  | nil => intros; rfl
  | cons c cs ih =>
    intro i v h0 h
    rw [List.length_cons] at h
    push_cast at h
    unfold weigh
    have : rd (ys.take n) i = rd ys i := by
      unfold rd
      have e : (ys.take n).getD i.toNat 0 = ys.getD i.toNat 0 := by
        rw [List.getD_eq_getElem?_getD, List.getD_eq_getElem?_getD, List.getElem?_take_of_lt (by omega)]
      have hl : (0 ≤ i ∧ i < ((ys.take n).length : Int)) ↔ (0 ≤ i ∧ i < (ys.length : Int)) := by
        rw [List.length_take]
        omega
      rw [e]
      simp only [hl]
    rw [this]
    exact bind_same' fun y => ih (i + 1) _ (by omega) (by omega)

omit [LinearOrder K] in
theorem combine_take {xs ys : List K} {coef : K → Outcome (Bool × K)} {base : Int} {n : Nat} {k : Int} :
    (kLoop xs coef base n k >>= combine (ys.take xs.length)) = (kLoop xs coef base n k >>= combine ys) := by
  cases e : kLoop xs coef base n k with
  | ok r =>
    rw [Outcome.ok_bind, Outcome.ok_bind]
    obtain ⟨-, h2⟩ := kLoop_range e
    unfold combine
    split
    · rfl
    · rename_i i is h
      obtain ⟨a, b⟩ := h2 i is h
      exact weigh_take ys xs.length r.1 i 0 a b
  | _ => rfl

omit [Field K] [LinearOrder K] in
/-- C97. Tables. -/
theorem _root_.SpatialOps.C97_tables_same (xs ys : List K) (order : Int) : Same (Table.make xs ys order) (.ok (makeTable xs ys order)) := by
  intro t h
  unfold Table.make at h
  obtain ⟨_, -, h⟩ := Outcome.bind_eq_ok.1 h
  cases h
  rfl

/-- C97. A table with more values than points, which the debug build refuses, gives in the release build the values and derivatives of the
table without the surplus, also with the default order. -/
theorem _root_.SpatialOps.C97_longer_table (xs ys : List K) (hl : xs.length < ys.length) (order : Int) :
    Table.make xs ys order = .abort ∧ ∃ t, Table.make xs (ys.take xs.length) order = .ok t ∧ ∀ (x : K) (o : Int),
      ((makeTable xs ys order).interpolate x o = t.interpolate x o ∧ (makeTable xs ys order).derivative x o = t.derivative x o) ∧
      (makeTable xs ys order).interpolateDefault x = t.interpolateDefault x ∧ (makeTable xs ys order).derivativeDefault x = t.derivativeDefault x := by
  have key : ∀ (x : K) (o : Int), (makeTable xs ys order).interpolate x o = Table.interpolate ⟨xs, ys.take xs.length, order⟩ x o ∧
      (makeTable xs ys order).derivative x o = Table.derivative ⟨xs, ys.take xs.length, order⟩ x o := by
    refine fun x o => ⟨?_, ?_⟩
    · unfold Table.interpolate interpCoefs makeTable
      dsimp only
      cases getBounds xs x o with
      | ok b => exact combine_take.symm
      | _ => rfl
    · unfold Table.derivative derivCoefs makeTable
      dsimp only
      cases getBounds xs x o with
      | ok b => exact combine_take.symm
      | _ => rfl
  refine ⟨C41_lengths_checked xs ys order (by omega), ⟨xs, ys.take xs.length, order⟩, ?_, fun x o => ⟨key x o, (key x order).1, (key x order).2⟩⟩
  · unfold Table.make
    rw [Outcome.assert_true (by rw [List.length_take]; omega)]
    rfl

/-- Three points, four values: at the nodes the values of the first three. -/
example : (makeTable [0, 1, 3] [5, 7, -2, 100] 2 : Table ℚ).interpolate 3 2 = .ok (-2) := by
  obtain ⟨-, t, h1, h2⟩ := C97_longer_table ([0, 1, 3] : List ℚ) [5, 7, -2, 100] (by decide) 2
  rw [(h2 3 2).1.1]
  obtain ⟨t', e1, e2⟩ := C41_exact_at_nodes ([0, 1, 3] : List ℚ) [5, 7, -2] (by simp) rfl 2 (by decide) (by decide) 2 2 (by decide)
  obtain rfl := Outcome.ok.inj (h1.symm.trans e1)
  exact e2

end

/-! ## Memory pool -/

/-- C97. The memory pool. -/
theorem _root_.SpatialOps.C97_pool_same (p : Pool) (n fresh t : Nat) : Same (p.get n fresh) (poolGet p n fresh) ∧ Same (p.put t) (poolPut p t) := by
  constructor
  · intro r h
    unfold poolGet
    have hd : p.destroyed = false := by
      unfold Pool.get at h
      by_contra c
      rw [Outcome.assert_false c] at h
      cases h
    rw [Outcome.ubUnless_true hd]
    exact h
  · intro r h
    unfold Pool.put at h
    unfold poolPut
    split at h
    · rename_i hd
      rw [if_pos hd]
      exact h
    · rename_i hd
      rw [if_neg hd]
      obtain ⟨_, h1, h⟩ := Outcome.bind_eq_ok.1 h
      have hc : (Pool.lowerBound p.classes (p.fsm t)).isSome = true := by
        by_contra c
        rw [Outcome.assert_false c] at h1
        cases h1
      rw [Outcome.ubUnless_true hc]
      exact h

example : ∃ r q, Pool.init.get 100 7 = .ok r ∧ r.pool.put r.addr = .ok q := ⟨_, _, rfl, rfl⟩

end Rel
end SpatialOps
