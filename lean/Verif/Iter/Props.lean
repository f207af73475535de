import Verif.Iter.Lemmas

/-!
# Properties C04, C05, C06: field iterators
-/

namespace SpatialOps
open It

/-- Helper: after an in-range history from `begin`, the state is canonical. -/
theorem run_from_start {w : Window} (he : w.Nonempty) (base : Int) (ops : List Op)
    (h : StaysIn w.localNpts 0 ops) :
    ∃ x y z, Pos w x y z ∧ (start base w).run ops = .ok (canon base w x y z) ∧
      x + w.extent.x * (y + w.extent.y * z) = endPos 0 ops := by
  obtain ⟨e0, e1, e2⟩ := he
  simp only [IntVec.zero_x, IntVec.zero_y, IntVec.zero_z] at e0 e1 e2
  have hp : Pos w 0 0 0 := ⟨by omega, e0, by omega, e1, by omega, Or.inl e2⟩
  have hz : (0:Int) + w.extent.x * (0 + w.extent.y * 0) = 0 := by ring
  have := run_canon (base := base) ⟨e0, e1, e2⟩ ops hp (by rw [hz]; exact h)
  rw [hz, ← start_eq] at this
  exact this

theorem endPos_bounds {n : Int} (ops : List Op) :
    ∀ k, 0 ≤ k ∧ k ≤ n → StaysIn n k ops → 0 ≤ endPos k ops ∧ endPos k ops ≤ n := by
  induction ops with
  | nil => intro k h _; exact h
  | cons o os ih => intro k _ h; exact ih _ h.1 h.2

theorem staysIn_replicate_inc {n : Int} (m : Nat) : ∀ {k : Int}, 0 ≤ k → k + m ≤ n →
    StaysIn n k (List.replicate m Op.inc) := by
  induction m with
  | zero => intro k _ _; trivial
  | succ m ih =>
    intro k h0 h
    simp only [List.replicate_succ, StaysIn, Op.delta]
    refine ⟨⟨by omega, by omega⟩, ih (by omega) (by omega)⟩

theorem endPos_replicate_inc (m : Nat) : ∀ k : Int,
    endPos k (List.replicate m Op.inc) = k + m := by
  induction m with
  | zero => intro k; simp [endPos]
  | succ m ih =>
    intro k
    simp only [List.replicate_succ, endPos, Op.delta, ih]; omega

theorem canon_address {w : Window} (hw : w.Fits) {base x y z : Int}
    (h : InBlock w.extent ⟨x, y, z⟩) :
    ∃ a, w.flatIndex ⟨x, y, z⟩ = .ok a ∧ (canon base w x y z).current = base + a ∧
      0 ≤ a ∧ a < w.globNpts := by
  obtain ⟨e, hb⟩ := Window.flatIndex_eq_ok hw h
  refine ⟨_, e, ?_, (fortranPos_bound hb).1, (fortranPos_bound hb).2⟩
  unfold canon fortranPos
  simp only [IntVec.add_x, IntVec.add_y, IntVec.add_z]
  ring

theorem canon_current_strictMono {w : Window} (hw : w.Fits) {base : Int}
    {x y z x' y' z' : Int} (h : Pos w x y z) (h' : Pos w x' y' z')
    (hlt : x + w.extent.x * (y + w.extent.y * z) < x' + w.extent.x * (y' + w.extent.y * z')) :
    (canon base w x y z).current < (canon base w x' y' z').current := by
  obtain ⟨⟨a1, a2, a3⟩, ⟨b1, b2, b3⟩, ⟨c1, c2, c3⟩, ⟨d1, d2, d3⟩⟩ := hw
  simp only [IntVec.zero_x, IntVec.zero_y, IntVec.zero_z, IntVec.add_x, IntVec.add_y,
    IntVec.add_z] at *
  obtain ⟨h1, h2, h3, h4, h5, h6⟩ := h
  obtain ⟨g1, g2, g3, g4, g5, g6⟩ := h'
  unfold canon
  simp only
  have hrow : y + w.npts.y * z < y' + w.npts.y * z' →
      x + w.npts.x * (y + w.npts.y * z) < x' + w.npts.x * (y' + w.npts.y * z') := by
    intro hl
    have : w.npts.x * (y + w.npts.y * z + 1) ≤ w.npts.x * (y' + w.npts.y * z') :=
      mul_le_mul_of_nonneg_left (by omega) (by omega)
    nlinarith
  have hrow' : ¬ (y' + w.extent.y * z' < y + w.extent.y * z) := by
    intro hl
    have : w.extent.x * (y' + w.extent.y * z' + 1) ≤ w.extent.x * (y + w.extent.y * z) :=
      mul_le_mul_of_nonneg_left (by omega) (by omega)
    nlinarith
  rcases Int.lt_trichotomy z z' with hz | hz | hz
  · have := hrow (by
      have : w.npts.y * (z + 1) ≤ w.npts.y * z' := mul_le_mul_of_nonneg_left (by omega) (by omega)
      nlinarith)
    omega
  · subst hz
    rcases Int.lt_trichotomy y y' with hy | hy | hy
    · have := hrow (by omega)
      omega
    · subst hy; omega
    · exfalso; apply hrow'; omega
  · exfalso
    apply hrow'
    have : w.extent.y * (z' + 1) ≤ w.extent.y * z := mul_le_mul_of_nonneg_left (by omega) (by omega)
    nlinarith

/-! ## C04 -/

/-- C04 (k-th step). In a non-empty window that fits its block, `k` increments
from `begin` (for any `k` below the number of cells) reach an iterator whose
`location()` is the `k`-th cell in fortran order, whose dereference succeeds and
accesses exactly the address `flat_index` gives for that cell, and which does
not compare equal to `end()`. -/
theorem C04_kth_increment (w : Window) (hw : w.Fits) (he : w.Nonempty) (base : Int) (k : Nat)
    (hk : (k : Int) < w.localNpts) :
    ∃ it fin loc a,
      (start base w).run (List.replicate k Op.inc) = .ok it ∧
      finish base w = .ok fin ∧
      IsNthCell w.extent k loc ∧ it.location = loc ∧
      w.flatIndex loc = .ok a ∧ it.deref = .ok (base + a) ∧
      it.eqOp fin = false := by
  have hs := staysIn_replicate_inc (n := w.localNpts) k (k := 0) (by omega) (by omega)
  obtain ⟨x, y, z, hp, hr, hc⟩ := run_from_start he base _ hs
  rw [endPos_replicate_inc] at hc
  have hz : z < w.extent.z := hp.lt_iff.1 (by rw [hc]; unfold Window.localNpts at hk; omega)
  have hb : InBlock w.extent ⟨x, y, z⟩ := ⟨⟨hp.1, hp.2.2.1, hp.2.2.2.2.1⟩, ⟨hp.2.1, hp.2.2.2.1, hz⟩⟩
  obtain ⟨a, ea, ecur, _, _⟩ := canon_address hw (base := base) hb
  have hN : (0:Int) ≤ w.localNpts := by omega
  obtain ⟨x', y', z', hp', hr', hc'⟩ := run_from_start he base [Op.add w.localNpts]
    ⟨⟨by simp only [Op.delta]; omega, by simp only [Op.delta]; omega⟩, trivial⟩
  simp only [endPos, Op.delta, Int.zero_add] at hc'
  have hfin : finish base w = .ok (canon base w x' y' z') := by
    unfold finish
    simp only [run, step] at hr'
    unfold Window.localNpts at hr'
    cases hA : (start base w).addAssign (w.extent.x * w.extent.y * w.extent.z) with
    | ok j => rw [hA] at hr'; simpa using hr'
    | abort => rw [hA] at hr'; cases hr'
    | throws => rw [hA] at hr'; cases hr'
    | ub => rw [hA] at hr'; cases hr'
  refine ⟨_, _, ⟨x, y, z⟩, a, hr, hfin, ⟨hb, ?_⟩, rfl, ea, ?_, ?_⟩
  · unfold fortranPos; simp only; omega
  · rw [deref_canon hp, if_pos hz, ecur]
  · have := canon_current_strictMono hw (base := base) hp hp' (by omega)
    unfold eqOp
    simp only [decide_eq_false_iff_not]
    omega

/-- C04 (reaching the end). After as many increments as the window has cells the
iterator is exactly `end()` (as computed by `begin + N`), and `end()` cannot be
dereferenced. -/
theorem C04_reaches_end (w : Window) (he : w.Nonempty) (base : Int) :
    ∃ fin, finish base w = .ok fin ∧
      (start base w).run (List.replicate w.localNpts.toNat Op.inc) = .ok fin ∧
      fin.deref = .throws := by
  have he' := he
  obtain ⟨e0, e1, e2⟩ := he
  simp only [IntVec.zero_x, IntVec.zero_y, IntVec.zero_z] at e0 e1 e2
  have hN : (0:Int) ≤ w.localNpts := by unfold Window.localNpts; positivity
  have hs := staysIn_replicate_inc (n := w.localNpts) w.localNpts.toNat (k := 0) (by omega) (by omega)
  obtain ⟨x, y, z, hp, hr, hc⟩ := run_from_start he' base _ hs
  rw [endPos_replicate_inc] at hc
  obtain ⟨x', y', z', hp', hr', hc'⟩ := run_from_start he' base [Op.add w.localNpts]
    ⟨⟨by simp only [Op.delta]; omega, by simp only [Op.delta]; omega⟩, trivial⟩
  simp only [endPos, Op.delta, Int.zero_add] at hc'
  obtain ⟨rfl, rfl, rfl⟩ := pos_unique hp hp' (by omega)
  have hfin : finish base w = .ok (canon base w x y z) := by
    unfold finish
    simp only [run, step] at hr'
    unfold Window.localNpts at hr'
    cases hA : (start base w).addAssign (w.extent.x * w.extent.y * w.extent.z) with
    | ok j => rw [hA] at hr'; simpa using hr'
    | abort => rw [hA] at hr'; cases hr'
    | throws => rw [hA] at hr'; cases hr'
    | ub => rw [hA] at hr'; cases hr'
  refine ⟨_, hfin, hr, ?_⟩
  rw [deref_canon hp, if_neg]
  intro hz
  have := hp.lt_iff.2 hz
  unfold Window.localNpts at hc'
  omega

/-- C04 (each cell once). Every cell of the window is visited by exactly one
number of increments below the number of cells. -/
theorem C04_each_cell_once (w : Window) (hw : w.Fits) (he : w.Nonempty) (base : Int)
    (loc : IntVec) (hl : InBlock w.extent loc) :
    ∃ k : Nat, ((k : Int) < w.localNpts ∧
        ∃ it, (start base w).run (List.replicate k Op.inc) = .ok it ∧ it.location = loc) ∧
      ∀ j : Nat, ((j : Int) < w.localNpts ∧
        ∃ it, (start base w).run (List.replicate j Op.inc) = .ok it ∧ it.location = loc) → j = k := by
  have hb := fortranPos_bound hl
  have key : ∀ j : Nat, (j : Int) < w.localNpts →
      (∃ it, (start base w).run (List.replicate j Op.inc) = .ok it ∧ it.location = loc) →
      (j : Int) = fortranPos w.extent loc := by
    intro j hj ⟨it, h1, h2⟩
    obtain ⟨it', _, loc', _, h1', _, hN, h2', _⟩ := C04_kth_increment w hw he base j hj
    rw [h1] at h1'
    injection h1' with h1'
    subst h1'
    rw [h2] at h2'
    subst h2'
    exact hN.2.symm
  refine ⟨(fortranPos w.extent loc).toNat, ⟨?_, ?_⟩, ?_⟩
  · unfold Window.localNpts; omega
  · obtain ⟨it, _, loc', _, h1, _, hN, h2, _⟩ := C04_kth_increment w hw he base
      (fortranPos w.extent loc).toNat (by unfold Window.localNpts; omega)
    refine ⟨it, h1, ?_⟩
    rw [h2]
    apply fortranPos_inj hN.1 hl
    rw [hN.2]; omega
  · rintro j ⟨hj, h⟩
    have := key j hj h
    omega

/-! ## C05 -/

/-- C05 (history independence). Any history of `++`, `--`, `+=`, `-=` whose
positions stay in `[begin, end]` is defined and leaves exactly the state that
plain incrementing to the same position gives. In particular `+= n` is `n`
increments, `-= n` is `n` decrements, `++` and `--` cancel. -/
theorem C05_history_independent (w : Window) (he : w.Nonempty) (base : Int) (ops : List Op)
    (h : StaysIn w.localNpts 0 ops) :
    0 ≤ endPos 0 ops ∧ ∃ it, (start base w).run ops = .ok it ∧
      (start base w).run (List.replicate (endPos 0 ops).toNat Op.inc) = .ok it := by
  have he' := he
  obtain ⟨e0, e1, e2⟩ := he
  simp only [IntVec.zero_x, IntVec.zero_y, IntVec.zero_z] at e0 e1 e2
  have hN : (0:Int) ≤ w.localNpts := by unfold Window.localNpts; positivity
  have hb := endPos_bounds ops 0 ⟨le_refl _, hN⟩ h
  refine ⟨hb.1, ?_⟩
  obtain ⟨x, y, z, hp, hr, hc⟩ := run_from_start he' base ops h
  obtain ⟨x', y', z', hp', hr', hc'⟩ := run_from_start he' base
    (List.replicate (endPos 0 ops).toNat Op.inc)
    (staysIn_replicate_inc (n := w.localNpts) _ (k := 0) (by omega) (by omega))
  rw [endPos_replicate_inc] at hc'
  obtain ⟨rfl, rfl, rfl⟩ := pos_unique hp hp' (by omega)
  exact ⟨_, hr, hr'⟩

/-- C05 (comparison and difference). For two iterators over the same window
reached by any in-range histories: the difference is the number of steps between
them, and `==`, `<`, `<=` agree with it. -/
theorem C05_order_and_difference (w : Window) (hw : w.Fits) (he : w.Nonempty) (base : Int)
    (ops1 ops2 : List Op) (h1 : StaysIn w.localNpts 0 ops1) (h2 : StaysIn w.localNpts 0 ops2)
    (i j : It) (hi : (start base w).run ops1 = .ok i) (hj : (start base w).run ops2 = .ok j) :
    i.diff j = endPos 0 ops1 - endPos 0 ops2 ∧
    (i.eqOp j = true ↔ i.diff j = 0) ∧ (i.ltOp j = true ↔ i.diff j < 0) ∧
    (i.leOp j = true ↔ i.diff j ≤ 0) := by
  obtain ⟨x, y, z, hp, hr, hc⟩ := run_from_start he base ops1 h1
  obtain ⟨x', y', z', hp', hr', hc'⟩ := run_from_start he base ops2 h2
  rw [hi] at hr; injection hr with hr; subst hr
  rw [hj] at hr'; injection hr' with hr'; subst hr'
  have hd : (canon base w x y z).diff (canon base w x' y' z') = endPos 0 ops1 - endPos 0 ops2 := by
    unfold diff canon
    simp only
    omega
  refine ⟨hd, ?_⟩
  rw [hd]
  simp only [eqOp, ltOp, leOp, decide_eq_true_eq]
  rcases Int.lt_trichotomy (endPos 0 ops1) (endPos 0 ops2) with hlt | heq | hgt
  · have := canon_current_strictMono hw (base := base) hp hp' (by omega)
    omega
  · obtain ⟨rfl, rfl, rfl⟩ := pos_unique hp hp' (by omega)
    omega
  · have := canon_current_strictMono hw (base := base) hp' hp (by omega)
    omega

/-- C05 (offset dereference). `it[n]` after an in-range history accesses the
cell `n` further on, if there is one. -/
theorem C05_index (w : Window) (hw : w.Fits) (he : w.Nonempty) (base : Int) (ops : List Op)
    (h : StaysIn w.localNpts 0 ops) (it : It) (hi : (start base w).run ops = .ok it) (n : Int)
    (hn0 : 0 ≤ endPos 0 ops + n) (hn : endPos 0 ops + n < w.localNpts) :
    ∃ loc a, IsNthCell w.extent (endPos 0 ops + n) loc ∧ w.flatIndex loc = .ok a ∧
      it.index n = .ok (base + a) := by
  obtain ⟨x, y, z, hp, hr, hc⟩ := run_from_start he base ops h
  rw [hi] at hr; injection hr with hr; subst hr
  unfold Window.localNpts at hn
  obtain ⟨x', y', z', hp', e, hc'⟩ := add_canon (base := base) he hp n (by omega) (by omega)
  have hz : z' < w.extent.z := hp'.lt_iff.1 (by omega)
  have hb : InBlock w.extent ⟨x', y', z'⟩ :=
    ⟨⟨hp'.1, hp'.2.2.1, hp'.2.2.2.2.1⟩, ⟨hp'.2.1, hp'.2.2.2.1, hz⟩⟩
  obtain ⟨a, ea, ecur, _, _⟩ := canon_address hw (base := base) hb
  refine ⟨⟨x', y', z'⟩, a, ⟨hb, ?_⟩, ea, ?_⟩
  · unfold fortranPos; simp only; omega
  · unfold index
    rw [e, Outcome.ok_bind, deref_canon hp', if_pos hz, ecur]

/-- C05 (empty windows are not supported). On a window with an empty x or y
direction, `end()` divides by zero; the constructor accepts such windows. -/
theorem C05_empty_window_end_is_ub (base : Int) (w : Window)
    (h : w.extent.x = 0 ∨ (w.extent.y = 0 ∧ 0 < w.extent.x)) : finish base w = .ub := by
  unfold finish addAssign start
  dsimp only
  have hx : w.extent.x * w.extent.y * w.extent.z = 0 := by
    rcases h with h | h
    · rw [h]; ring
    · rw [h.1]; ring
  rw [hx, if_neg (by omega), Outcome.ubUnless_false]
  · rfl
  · rcases h with h | h
    · intro hc; exact hc.1 h
    · intro hc; exact hc.2 (by rw [h.1]; ring)

/-! ## C06 -/

/-- C06. After any in-range history the debug check of `operator*` passes exactly
when the iterator is not at the end, and an access that passes is inside the
allocation `[base, base + glob_npts)`. -/
theorem C06_deref_exact (w : Window) (hw : w.Fits) (he : w.Nonempty) (base : Int) (ops : List Op)
    (h : StaysIn w.localNpts 0 ops) (it : It) (hi : (start base w).run ops = .ok it) :
    (endPos 0 ops < w.localNpts →
      ∃ p, it.deref = .ok p ∧ base ≤ p ∧ p < base + w.globNpts) ∧
    (endPos 0 ops = w.localNpts → it.deref = .throws) := by
  obtain ⟨x, y, z, hp, hr, hc⟩ := run_from_start he base ops h
  rw [hi] at hr; injection hr with hr; subst hr
  rw [deref_canon hp]
  have hlt := hp.lt_iff
  unfold Window.localNpts
  constructor
  · intro hl
    have hz : z < w.extent.z := hlt.1 (by omega)
    have hb : InBlock w.extent ⟨x, y, z⟩ :=
      ⟨⟨hp.1, hp.2.2.1, hp.2.2.2.2.1⟩, ⟨hp.2.1, hp.2.2.2.1, hz⟩⟩
    obtain ⟨a, _, ecur, h0, h1⟩ := canon_address hw (base := base) hb
    exact ⟨_, if_pos hz, by omega, by omega⟩
  · intro hl
    rw [if_neg]
    intro hz
    have := hlt.2 hz
    omega

/-- Stepping before `begin` is detected as well. -/
theorem C06_before_begin_throws (w : Window) (base : Int) (h : w.Nonempty) :
    ((start base w).dec).deref = .throws := by
  obtain ⟨e0, e1, e2⟩ := h
  simp only [IntVec.zero_x, IntVec.zero_y, IntVec.zero_z] at e0 e1 e2
  unfold dec start deref
  simp only [Int.zero_sub, if_true]
  rw [Outcome.throwIf_false]
  · rw [Outcome.ok_bind, Outcome.throwIf_true, Outcome.throws_bind]
    omega
  · simp only [not_not]; ring

/-- C06. `it[n]` throws for every `n` that leads outside the window, on either side, after
any in-range history: no out-of-range access is made through the checked
dereference. -/
theorem C06_index_outside_throws (w : Window) (he : w.Nonempty) (base : Int) (ops : List Op)
    (h : StaysIn w.localNpts 0 ops) (it : It) (hi : (start base w).run ops = .ok it) (n : Int)
    (hn : endPos 0 ops + n < 0 ∨ w.localNpts ≤ endPos 0 ops + n) : it.index n = .throws := by
  obtain ⟨x, y, z, hp, hr, hc⟩ := run_from_start he base ops h
  rw [hi] at hr; injection hr with hr; subst hr
  rw [← hc] at hn
  obtain ⟨e0, e1, e2⟩ := he
  simp only [IntVec.zero_x, IntVec.zero_y, IntVec.zero_z] at e0 e1 e2
  have hxy : 0 < w.extent.x * w.extent.y := mul_pos e0 e1
  have hdt : ∀ j : It, (j.xExtent ≤ j.xIndex ∨ j.yExtent ≤ j.yIndex ∨ j.zExtent ≤ j.zIndex ∨
      j.xIndex < 0 ∨ j.yIndex < 0 ∨ j.zIndex < 0) → j.deref = .throws := by
    intro j hj
    unfold deref
    by_cases h1 : j.count ≠ j.xIndex + j.yIndex * j.xExtent + j.zIndex * j.xyExtent
    · rw [Outcome.throwIf_true h1]; rfl
    · rw [Outcome.throwIf_false h1, Outcome.ok_bind, Outcome.throwIf_true hj]; rfl
  have hcl := hp.count_le
  have hlt := hp.lt_iff
  obtain ⟨p1, p2, p3, p4, p5, p6⟩ := hp
  unfold Window.localNpts at hn
  unfold index addAssign canon start
  dsimp only
  split
  · rename_i hs
    rw [Outcome.ok_bind]
    apply hdt
    dsimp only
    rcases p6 with p6 | ⟨p6, q1, q2⟩
    · exfalso
      have b1 := fortranPos_bound (d := w.extent) (c := ⟨x + n, y, z⟩)
        ⟨⟨by dsimp only [IntVec.zero_x]; omega, p3, p5⟩, ⟨by dsimp only; omega, p4, p6⟩⟩
      unfold fortranPos at b1
      dsimp only at b1
      omega
    · omega
  · rw [Outcome.ubUnless_true ⟨by omega, by omega⟩, Outcome.ok_bind, Outcome.pure_eq, Outcome.ok_bind]
    apply hdt
    dsimp only
    generalize x + w.extent.x * (y + w.extent.y * z) + n = c at hn
    rcases hn with hn | hn
    · -- before the beginning: one of the three indices is negative
      by_contra hcon
      simp only [not_or, not_lt] at hcon
      obtain ⟨_, _, _, a1, a2, a3⟩ := hcon
      have b1 := Int.mul_tdiv_add_tmod c (w.extent.x * w.extent.y)
      have b2 := Int.mul_tdiv_add_tmod (c.tmod (w.extent.x * w.extent.y)) w.extent.x
      have b3 : (c.tmod (w.extent.x * w.extent.y)).tmod w.extent.x = c.tmod w.extent.x :=
        Int.tmod_tmod_of_dvd c (Dvd.intro _ rfl)
      rw [b3] at b2
      have c1 : 0 ≤ w.extent.x * w.extent.y * c.tdiv (w.extent.x * w.extent.y) := mul_nonneg hxy.le a3
      have c2 : 0 ≤ w.extent.x * (c.tmod (w.extent.x * w.extent.y)).tdiv w.extent.x := mul_nonneg e0.le a2
      omega
    · right; right; left
      rw [Int.tdiv_eq_ediv_of_nonneg (by omega)]
      rw [Int.le_ediv_iff_mul_le hxy]
      calc w.extent.z * (w.extent.x * w.extent.y) = w.extent.x * w.extent.y * w.extent.z := by ring
        _ ≤ c := hn

/-! ## Non-vacuity -/

/-- A 3D window strictly inside its block with a history using all movements. -/
def exW : Window := ⟨⟨6, 5, 4⟩, ⟨1, 2, 1⟩, ⟨4, 2, 3⟩⟩

example : exW.Fits ∧ exW.Nonempty ∧
    StaysIn exW.localNpts 0 [.add 23, .sub 9, .inc, .dec, .add 3, .sub 17, .add 24] := by
  refine ⟨by decide, by decide, ?_⟩
  simp [StaysIn, Op.delta, exW, Window.localNpts]

/-- Position 15 is 15 cells after the first and 9 before the end. -/
example : ((start 100 exW).run [.add 23, .sub 9, .inc] >>= fun i => i.index (-16)) = .throws ∧
    ((start 100 exW).run [.add 23, .sub 9, .inc] >>= fun i => i.index 9) = .throws := by decide

example : (start 100 exW).run [.add 23, .sub 9, .inc] = (start 100 exW).run (List.replicate 15 .inc)
    ∧ ((start 100 exW).run [.add 23, .sub 9, .inc] >>= fun i => .ok i.location) = .ok ⟨3, 1, 1⟩ := by
  decide

end SpatialOps
