import Verif.NeboPar.Core

/-!
# Properties C23 and C25: thread-parallel assignment and the partition of the work
-/

namespace SpatialOps
open Nebo

/-! ## C25 -/

/-- C25. For at least one task and a region with cells, the chosen split is one the
window can be cut into: positive and not finer than the region; it has the requested
number of parts if some direction has that many cells, and a single part otherwise. -/
theorem C25_split_fits (extent : IntVec) (he : IntVec.Lt 0 extent) (count : Int) (hc : 1 ≤ count) :
    IntVec.Lt 0 (findPartition extent count) ∧ IntVec.Le (findPartition extent count) extent ∧
    (count ≤ extent.x ∨ count ≤ extent.y ∨ count ≤ extent.z →
      partitionCount (findPartition extent count) = count) ∧
    (¬ (count ≤ extent.x ∨ count ≤ extent.y ∨ count ≤ extent.z) → findPartition extent count = ⟨1, 1, 1⟩) := by
  obtain ⟨h1, h2⟩ := findPartition_ok he hc
  refine ⟨h1, h2, ?_, ?_⟩
  · intro h
    unfold findPartition partitionCount
    split
    · simp
    · split
      · simp
      · split
        · simp
        · omega
  · intro h
    unfold findPartition
    rw [if_neg (by omega), if_neg (by omega), if_neg (by omega)]

/-- C25. The locations handed to the tasks are exactly the locations of the split, each
once, and there are as many as tasks. -/
theorem C25_locations_each_once (split : IntVec) (hs : IntVec.Lt 0 split) :
    (locations split (partitionCount split).toNat 0).Nodup ∧
    ((locations split (partitionCount split).toNat 0).length : Int) = partitionCount split ∧
    ∀ loc, loc ∈ locations split (partitionCount split).toNat 0 ↔ InBlock split loc := by
  obtain ⟨h1, h2⟩ := locations_spec hs
  have hp : 0 < partitionCount split := by
    have := locPos_bound (split := split) (a := 0) (by iv_omega); omega
  have hlen := locations_length split (partitionCount split).toNat 0
  refine ⟨?_, ?_, ?_⟩
  · rw [List.nodup_iff_getElem?_ne_getElem?]
    intro i j hij hj
    rw [hlen] at hj
    obtain ⟨x, x1, x2, x3⟩ := h1 i (by omega)
    obtain ⟨y, y1, y2, y3⟩ := h1 j hj
    rw [x1, y1]
    intro h
    injection h with h
    subst h
    omega
  · rw [hlen]; omega
  · intro loc
    constructor
    · intro h
      obtain ⟨i, hi⟩ := List.mem_iff_getElem?.1 h
      have hlt : i < (partitionCount split).toNat := by
        rw [← hlen]; exact (List.getElem?_eq_some_iff.1 hi).1
      obtain ⟨x, x1, x2, -⟩ := h1 i hlt
      rw [x1] at hi
      injection hi with hi
      subst hi
      exact x2
    · intro h
      obtain ⟨i, -, hi⟩ := h2 loc h
      exact List.mem_of_getElem? hi

/-- C25. The parts of the region at these locations are non-empty, lie inside it and
every cell is in the part of exactly one location. -/
theorem C25_parts_cover_exactly_once (w : Window) (hw : w.Fits) (hn : w.Nonempty) (count : Int) (hc : 1 ≤ count) :
    let split := findPartition w.extent count
    let locs := locations split (partitionCount split).toNat 0
    (∀ loc ∈ locs, ∃ v, w.refine split loc = .ok v ∧ v.npts = w.npts ∧ v.Nonempty ∧ ∀ c, v.Covers c → w.Covers c) ∧
    ∀ c, w.Covers c → ∃ loc, (loc ∈ locs ∧ ∃ v, w.refine split loc = .ok v ∧ v.Covers c) ∧
      ∀ l', (l' ∈ locs ∧ ∃ v, w.refine split l' = .ok v ∧ v.Covers c) → l' = loc := by
  intro split locs
  obtain ⟨h1, h2⟩ := findPartition_ok hn hc
  obtain ⟨-, -, hm⟩ := C25_locations_each_once split h1
  obtain ⟨t1, t2⟩ := C03_refine_tiles w hw split ⟨h1, h2⟩
  constructor
  · intro loc hl
    obtain ⟨v, v1, v2, v3, v4, v5⟩ := t1 loc ((hm loc).1 hl)
    exact ⟨v, v1, v2, v4, v5⟩
  · intro c hcov
    obtain ⟨loc, ⟨a1, a2⟩, a3⟩ := t2 c hcov
    exact ⟨loc, ⟨(hm loc).2 a1, a2⟩, fun l' ⟨b1, b2⟩ => a3 l' ⟨(hm l').1 b1, b2⟩⟩

example : findPartition ⟨6, 5, 1⟩ 5 = ⟨1, 5, 1⟩ ∧ findPartition ⟨6, 5, 1⟩ 6 = ⟨6, 1, 1⟩ ∧
    findPartition ⟨6, 5, 1⟩ 7 = ⟨1, 1, 1⟩ ∧
    locations ⟨2, 1, 2⟩ 4 0 = [⟨0, 0, 0⟩, ⟨0, 0, 1⟩, ⟨1, 0, 0⟩, ⟨1, 0, 1⟩] := by decide

example : (⟨⟨6, 5, 1⟩, ⟨1, 1, 0⟩, ⟨4, 3, 1⟩⟩ : Window).Fits ∧
    (⟨⟨6, 5, 1⟩, ⟨1, 1, 0⟩, ⟨4, 3, 1⟩⟩ : Window).Nonempty := by decide

/-! ## C23 -/

/-- `k` steps of the running assignment, in any order the scheduler chooses. -/
inductive ParRun {V : Type} (s0 : ParState V) : Nat → ParState V → Prop where
  | start : ParRun s0 0 s0
  | step {k : Nat} {s s' : ParState V} : ParRun s0 k s → ParStep s s' → ParRun s0 (k + 1) s'

theorem run_inv {V : Type} {W : Nat → Nat → Int → Prop} {All : Nat → Int → Prop} {m0 : Mem V}
    {fin : Nat → Mem V} {N T : Nat} {s0 : ParState V}
    (hdisj : ∀ i j b a, i < N → j < N → W i b a → W j b a → i = j)
    (hall : ∀ i b a, i < N → W i b a → All b a)
    (h : Inv W All m0 fin N T s0) {k : Nat} {s : ParState V} (hr : ParRun s0 k s) :
    ∃ T', T = T' + k ∧ Inv W All m0 fin N T' s := by
  induction hr with
  | start => exact ⟨T, rfl, h⟩
  | step _ hs ih =>
    obtain ⟨T', h1, h2⟩ := ih
    obtain ⟨T'', h3, h4⟩ := h2.step hdisj hall hs
    exact ⟨T'', by omega, h4⟩

/-- Two tasks are about to access the same element and one of the accesses is a write. -/
def Race {V : Type} (s : ParState V) : Prop :=
  ∃ (i j b : Nat) (a : Int) (v : V) (k A : Act V), i ≠ j ∧ s.tasks[i]? = some (some (.write b a v k)) ∧ s.tasks[j]? = some (some A) ∧
    ((∃ r, A = .read b a r) ∨ ∃ x r, A = .write b a x r)

theorem no_race {V : Type} {W : Nat → Nat → Int → Prop} {All : Nat → Int → Prop} {m0 : Mem V}
    {fin : Nat → Mem V} {N T : Nat} {s : ParState V}
    (hdisj : ∀ i j b a, i < N → j < N → W i b a → W j b a → i = j)
    (hall : ∀ i b a, i < N → W i b a → All b a) (h : Inv W All m0 fin N T s) : ¬ Race s := by
  rintro ⟨i, j, b, a, v, k, A, hij, hi, hj, hA⟩
  obtain ⟨f, -, hf⟩ := h.task
  have li : i < N := by rw [← h.len]; exact (List.getElem?_eq_some_iff.1 hi).1
  have lj : j < N := by rw [← h.len]; exact (List.getElem?_eq_some_iff.1 hj).1
  obtain ⟨_, _, -, hr, -⟩ := hf i _ hi
  obtain ⟨_, _, -, hr2, -⟩ := hf j _ hj
  cases hr with
  | write hw _ =>
    rcases hA with ⟨r, rfl⟩ | ⟨x, r, rfl⟩
    · cases hr2 with
      | read hw2 _ =>
        rcases hw2 with hw2 | hw2
        · exact hij (hdisj i j b a li lj hw hw2)
        · exact hw2 (hall i b a li hw)
    · cases hr2 with
      | write hw2 _ => exact hij (hdisj i j b a li lj hw hw2)

private theorem parallel_main {V : Type} [Add V] [Mul V] {n : IntVec} {l : FieldObj} {b : Nat}
    (ht : Target n l b) {e : Expr V .num} (he : e.Wf n) (hi : e.Independent l 0) {pg : GhostData}
    (hpg : e.possibleGhosts = .ok pg) (hx : IntVec.Le l.geo.bc.hasExtra pg.plus) (useGhost : Bool)
    (hne : ∃ c, if useGhost then Stored n l c ∧ e.DefinedAt n c else Interior n l c)
    {count : Int} (hcount : 1 ≤ count) (m : Mem V) :
    ∃ s0 m', parallelAssign useGhost l count e m = .ok s0 ∧ sequentialAssign useGhost l e m = .ok m' ∧
      (∃ bound, ∀ k s, ParRun s0 k s → k ≤ bound) ∧
      ∀ k s, ParRun s0 k s →
        ¬ Race s ∧ (s.waits ≠ 0 → ∃ s', ParStep s s') ∧
        (s.waits = 0 → s.mem = m' ∧ ∀ t ∈ s.tasks, t = none) := by
  obtain ⟨s0, W, All, fin, N, T, p1, p2, p3, p4, p5, p6, p7⟩ :=
    parallelAssign_core ht he hi hpg hx useGhost hne hcount m
  obtain ⟨m', q1, q2, q3⟩ := sequentialAssign_core ht he hi hpg hx useGhost hne m
  refine ⟨s0, m', p1, q1, ⟨T, ?_⟩, ?_⟩
  · intro k s hr
    obtain ⟨T', h1, -⟩ := run_inv p4 p5 p2 hr
    omega
  · intro k s hr
    obtain ⟨T', -, hinv⟩ := run_inv p4 p5 p2 hr
    refine ⟨no_race p4 p5 hinv, hinv.progress, fun hw => ?_⟩
    obtain ⟨f1, f2⟩ := hinv.finished hw
    constructor
    · funext blk a
      by_cases hall : All blk a
      · obtain ⟨rfl, c, hc, rfl⟩ := p6 blk a hall
        obtain ⟨i, hi', w1, w2⟩ := p7 c hc
        rw [f1 i hi' _ _ w1, w2, q2 c hc]
      · rw [hinv.rest blk a hall, q3]
        by_cases hb : blk = b
        · refine .inr fun c hc ha => hall ?_
          obtain ⟨i, hi', w1, -⟩ := p7 c hc
          rw [hb, ← ha]
          exact p5 i _ _ hi' w1
        · exact .inl hb
    · intro t htm
      obtain ⟨i, hi'⟩ := List.mem_iff_getElem?.1 htm
      have hlt : i < N := by rw [← hinv.len]; exact (List.getElem?_eq_some_iff.1 hi').1
      rw [f2 i hlt] at hi'
      injection hi' with hi'
      exact hi'.symm

/-- C23. `lhs <<= e` (`useGhost`) and `interior_assign` run by a pool of threads, for
any requested number of parts: the tasks, interleaved in any way at the level of single
memory accesses, never race for an element, never get stuck, come to an end after a bounded number of steps, and
when the call returns every task has ended and memory is exactly what the sequential
assignment produces. -/
theorem C23_parallel_equals_sequential {V : Type} [Add V] [Mul V] (n : IntVec) (hn : IntVec.Lt 0 n)
    (l : FieldObj) (b : Nat) (ht : Target n l b) (e : Expr V .num) (he : e.Wf n)
    (hd : ∀ c, Interior n l c → e.DefinedAt n c) (hi : e.Independent l 0) (useGhost : Bool)
    (count : Int) (hcount : 1 ≤ count) (m : Mem V) :
    ∃ s0 m', parallelAssign useGhost l count e m = .ok s0 ∧ sequentialAssign useGhost l e m = .ok m' ∧
      (∃ bound, ∀ k s, ParRun s0 k s → k ≤ bound) ∧
      ∀ k s, ParRun s0 k s →
        ¬ Race s ∧ (s.waits ≠ 0 → ∃ s', ParStep s s') ∧
        (s.waits = 0 → s.mem = m' ∧ ∀ t ∈ s.tasks, t = none) := by
  have hx := ht.mesh.extra
  have hg := ht.mesh.ghosts
  obtain ⟨pg, hpg⟩ := possibleGhosts_ok hn e he fun c h0 h1 => hd c ⟨h0, by iv_omega⟩
  obtain ⟨pv, pex⟩ := possibleGhosts_exact e he pg hpg
  have hint : IntVec.Le l.geo.bc.hasExtra pg.plus := by
    have := (pex (n + l.geo.bc.hasExtra - ⟨1, 1, 1⟩)).1 (hd _ (by unfold Interior; iv_omega))
    unfold InBox at this; iv_omega
  refine parallel_main ht he hi hpg hint useGhost ⟨0, ?_⟩ hcount m
  cases useGhost with
  | true =>
    rw [if_pos rfl]
    unfold GhostData.Valid at hg
    exact ⟨by unfold Stored; iv_omega, hd 0 (by unfold Interior; iv_omega)⟩
  | false =>
    rw [if_neg (by simp)]
    unfold Interior; iv_omega

example : ∃ (n : IntVec) (l : FieldObj) (b : Nat), IntVec.Lt 0 n ∧ Target n l b ∧ NeboEx.expr.Wf n ∧
    (∀ c, Interior n l c → NeboEx.expr.DefinedAt n c) ∧ NeboEx.expr.Independent l 0 :=
  ⟨⟨4, 3, 1⟩, NeboEx.fld true 0, 0, by decide, NeboEx.target true 0, NeboEx.wf, NeboEx.definedOn rfl,
    NeboEx.independent⟩

/-- C23. The same in directions of extent one, where the interior is computed as
negative (see C22_assign_any_mesh). -/
theorem C23_parallel_any_mesh {V : Type} [Add V] [Mul V] (n : IntVec) (l : FieldObj)
    (b : Nat) (ht : Target n l b) (e : Expr V .num) (he : e.Wf n) (hi : e.Independent l 0)
    (pg : GhostData) (hpg : e.possibleGhosts = .ok pg) (hx : IntVec.Le l.geo.bc.hasExtra pg.plus)
    (c : IntVec) (hc : Stored n l c ∧ e.DefinedAt n c) (count : Int) (hcount : 1 ≤ count) (m : Mem V) :
    ∃ s0 m', parallelAssign true l count e m = .ok s0 ∧ assign l e m = .ok m' ∧
      (∃ bound, ∀ k s, ParRun s0 k s → k ≤ bound) ∧
      ∀ k s, ParRun s0 k s →
        ¬ Race s ∧ (s.waits ≠ 0 → ∃ s', ParStep s s') ∧
        (s.waits = 0 → s.mem = m' ∧ ∀ t ∈ s.tasks, t = none) :=
  parallel_main ht he hi hpg hx true ⟨c, by rw [if_pos rfl]; exact hc⟩ hcount m

/-- C23. The number of parts is not checked when it is set: with a count of zero or less
no task is created at all, the call returns at once and nothing is assigned. -/
theorem C23_nonpositive_count_assigns_nothing {V : Type} [Add V] [Mul V] (useGhost : Bool)
    (l : FieldObj) (e : Expr V .num) (count : Int) (hc : count ≤ 0) (m : Mem V) (s0 : ParState V)
    (h : parallelAssign useGhost l count e m = .ok s0) : s0.tasks = [] ∧ s0.waits = 0 ∧ s0.mem = m := by
  unfold parallelAssign at h
  obtain ⟨pg, -, h⟩ := Outcome.bind_eq_ok.1 h
  obtain ⟨rg, -, h⟩ := Outcome.bind_eq_ok.1 h
  obtain ⟨lg, -, h⟩ := Outcome.bind_eq_ok.1 h
  obtain ⟨r, hr, h⟩ := Outcome.bind_eq_ok.1 h
  dsimp only at h
  obtain ⟨g, -, h⟩ := Outcome.bind_eq_ok.1 h
  obtain ⟨geo, -, h⟩ := Outcome.bind_eq_ok.1 h
  obtain ⟨rhs, -, h⟩ := Outcome.bind_eq_ok.1 h
  have hz : 0 ≤ r.window.extent.z := by
    unfold resizeGhost FieldGeo.reshape at hr
    obtain ⟨w, hw, hr⟩ := Outcome.bind_eq_ok.1 hr
    unfold Window.make at hw
    obtain ⟨_, hsan, hw⟩ := Outcome.bind_eq_ok.1 hw
    injection hw with hw
    have hs : Window.sanityCheck w := by
      rw [← hw]
      by_contra hs
      rw [Outcome.assert_false hs] at hsan
      cases hsan
    unfold FieldGeo.windowCopy at hr
    obtain ⟨_, _, hr⟩ := Outcome.bind_eq_ok.1 hr
    obtain ⟨_, _, hr⟩ := Outcome.bind_eq_ok.1 hr
    obtain ⟨_, _, hr⟩ := Outcome.bind_eq_ok.1 hr
    obtain ⟨_, _, hr⟩ := Outcome.bind_eq_ok.1 hr
    obtain ⟨_, _, hr⟩ := Outcome.bind_eq_ok.1 hr
    obtain ⟨_, _, hr⟩ := Outcome.bind_eq_ok.1 hr
    injection hr with hr
    rw [← hr]
    exact hs.2.2.1.2.2
  have hp : (partitionCount (findPartition r.window.extent count)).toNat = 0 := by
    unfold findPartition partitionCount
    rw [if_pos (by omega)]
    dsimp only
    omega
  rw [hp] at h
  injection h with h
  rw [← h]
  exact ⟨rfl, rfl, rfl⟩

/-- The number of tasks created. -/
private def taskCount (o : Outcome (ParState Int)) : Option (Nat × Nat) :=
  match o with
  | .ok s => some (s.tasks.length, s.waits)
  | _ => none

/-- Non-vacuity of the previous theorem, and of the number of tasks otherwise: with 0
and 5 parts requested. -/
example : taskCount (parallelAssign true (NeboEx.fld true 0) 0 NeboEx.expr fun _ _ => 0) = some (0, 0) ∧
    taskCount (parallelAssign true (NeboEx.fld true 0) 5 NeboEx.expr fun _ _ => 0) = some (5, 5) := by
  constructor <;> decide +kernel

end SpatialOps
