import Verif.Iter.Props

/-!
# Loops over a window by iterators

`forIt` is the loop `for(; i != e; ++i) body(*i)` used by the field classes; the
lemma `forIt_eq` shows that over a whole window it is a fold over the positions
`0, 1, ..., N-1`.
-/

namespace SpatialOps

/-- `for(; i != e; ++i) body(i)` over field iterators, as in
SpatialField.h:765-773 and FieldComparisons.h: `operator!=` compares addresses
(MemoryWindow.h:384). `fuel` bounds the loop; running out is reported as `ub`
and `forIt_eq` shows it cannot happen with the fuel used. -/
def forIt {S : Type} (body : It → S → Outcome S) : Nat → It → It → S → Outcome S
  | fuel, i, e, s =>
    if i.eqOp e then .ok s
    else match fuel with
      | 0 => .ub
      | fuel + 1 => body i s >>= fun s' => forIt body fuel i.inc e s'

/-- Fold with outcomes. -/
def foldO {α S : Type} (f : α → S → Outcome S) : List α → S → Outcome S
  | [], s => .ok s
  | a :: as, s => f a s >>= foldO f as

/-- The iterator after `k` increments. -/
def It.nth (base : Int) (w : Window) : Nat → It
  | 0 => It.start base w
  | k + 1 => (It.nth base w k).inc

theorem foldO_append {α S : Type} (f : α → S → Outcome S) (as bs : List α) (s : S) :
    foldO f (as ++ bs) s = foldO f as s >>= foldO f bs := by
  induction as generalizing s with
  | nil => rfl
  | cons a as ih =>
    simp only [List.cons_append, foldO]
    cases f a s with
    | ok t => simp only [Outcome.ok_bind]; exact ih t
    | abort => rfl
    | throws => rfl
    | ub => rfl

theorem foldO_congr {α S : Type} {f g : α → S → Outcome S} {as : List α}
    (h : ∀ a ∈ as, ∀ s, f a s = g a s) (s : S) : foldO f as s = foldO g as s := by
  induction as generalizing s with
  | nil => rfl
  | cons a as ih =>
    simp only [foldO]
    rw [h a (by simp) s]
    cases g a s with
    | ok t => simp only [Outcome.ok_bind]; exact ih (fun b hb => h b (by simp [hb])) t
    | abort => rfl
    | throws => rfl
    | ub => rfl

namespace It

theorem run_inc_eq_nth (base : Int) (w : Window) (k : Nat) :
    (start base w).run (List.replicate k Op.inc) = .ok (nth base w k) := by
  induction k with
  | zero => rfl
  | succ k ih =>
    rw [List.replicate_succ', run_nil_append, ih]
    rfl

/-- The `k`-th iterator stands on the `k`-th cell and refers to its element. -/
theorem nth_spec {w : Window} (hw : w.Fits) (he : w.Nonempty) (base : Int) {k : Nat}
    (hk : (k : Int) < w.localNpts) :
    ∃ loc a, IsNthCell w.extent k loc ∧ (nth base w k).location = loc ∧ w.flatIndex loc = .ok a ∧
      (nth base w k).deref = .ok (base + a) := by
  obtain ⟨it, fin, loc, a, h1, h2, h3, h4, h5, h6, h7⟩ := C04_kth_increment w hw he base k hk
  rw [run_inc_eq_nth] at h1
  injection h1 with h1
  subst h1
  exact ⟨loc, a, h3, h4, h5, h6⟩

theorem localNpts_nonneg {w : Window} (he : w.Nonempty) : 0 ≤ w.localNpts := by
  obtain ⟨e0, e1, e2⟩ := he
  simp only [IntVec.zero_x, IntVec.zero_y, IntVec.zero_z] at e0 e1 e2
  unfold Window.localNpts; positivity

theorem finish_eq_nth {w : Window} (he : w.Nonempty) (base : Int) :
    finish base w = .ok (nth base w w.localNpts.toNat) := by
  obtain ⟨fin, h1, h2, _⟩ := C04_reaches_end w he base
  rw [run_inc_eq_nth] at h2
  injection h2 with h2
  rw [h1, h2]

theorem nth_ne_end {w : Window} (hw : w.Fits) (he : w.Nonempty) (base : Int) {k : Nat}
    (hk : (k : Int) < w.localNpts) :
    (nth base w k).eqOp (nth base w w.localNpts.toNat) = false := by
  obtain ⟨it, fin, loc, a, h1, h2, h3, h4, h5, h6, h7⟩ := C04_kth_increment w hw he base k hk
  rw [run_inc_eq_nth] at h1
  injection h1 with h1
  subst h1
  rw [finish_eq_nth he] at h2
  injection h2 with h2
  rw [h2]; exact h7

/-- A loop over a whole window is a fold over the positions. -/
theorem forIt_eq {S : Type} {w : Window} (hw : w.Fits) (he : w.Nonempty) (base : Int)
    (body : It → S → Outcome S) (s : S) :
    forIt body w.localNpts.toNat (start base w) (nth base w w.localNpts.toNat) s =
      foldO (fun k => body (nth base w k)) (List.range w.localNpts.toNat) s := by
  have gen : ∀ (m k : Nat), k + m = w.localNpts.toNat → ∀ s,
      forIt body m (nth base w k) (nth base w w.localNpts.toNat) s =
        foldO (fun k => body (nth base w k)) (List.range' k m) s := by
    intro m
    induction m with
    | zero =>
      intro k hk s
      have : k = w.localNpts.toNat := by omega
      subst this
      unfold forIt
      rw [if_pos (by simp [eqOp])]
      rfl
    | succ m ih =>
      intro k hk s
      have hlt : (k : Int) < w.localNpts := by
        have := localNpts_nonneg he; omega
      unfold forIt
      rw [if_neg (by rw [nth_ne_end hw he base hlt]; simp)]
      simp only [List.range'_succ, foldO]
      cases body (nth base w k) s with
      | ok t => simp only [Outcome.ok_bind]; exact ih (k + 1) (by omega) t
      | abort => rfl
      | throws => rfl
      | ub => rfl
  have := gen w.localNpts.toNat 0 (by omega) s
  rw [List.range_eq_range']
  exact this

end It
end SpatialOps
