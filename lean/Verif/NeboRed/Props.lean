import Verif.NeboRed.Lemmas
import Verif.Nebo.Props
import Mathlib.Algebra.BigOperators.Group.List.Basic

/-!
# Properties C27 and C28: reductions of field expressions
-/

namespace SpatialOps
namespace Nebo

/-- A listing of a region is determined by the region. -/
theorem Lists.unique {a b : List IntVec} {P : IntVec → Prop} (ha : Lists a P) (hb : Lists b P) : a = b := by
  have irr : ∀ {x y : IntVec}, FortranLt x y → x ≠ y := by
    rintro x y h rfl
    unfold FortranLt at h
    omega
  have hp : a.Perm b := (List.perm_ext_iff_of_nodup (ha.1.imp irr) (hb.1.imp irr)).2 fun c => by
    rw [ha.2, hb.2]
  refine hp.eq_of_pairwise ?_ ha.1 hb.1
  intro x y _ _ h1 h2
  exfalso
  unfold FortranLt at h1 h2
  omega

/-- The region of a reduction over everything. -/
private theorem all_region {V : Type} {n : IntVec} (hn : IntVec.Lt 0 n) {e : Expr V .num} (he : e.Wf n)
    (hd : ∀ c, InBlock n c → e.DefinedAt n c) :
    ∃ g, e.possibleGhosts = .ok g ∧ IntVec.Lt 0 (n + g.minus + g.plus) ∧
      ∀ c, InBox n g.minus g.plus c ↔ e.DefinedAt n c := by
  obtain ⟨g, hg⟩ := possibleGhosts_ok hn e he fun c h1 h2 => hd c ⟨h1, h2⟩
  obtain ⟨hv, hex⟩ := possibleGhosts_exact e he g hg
  refine ⟨g, hg, ?_, fun c => (hex c).symm⟩
  unfold GhostData.Valid at hv
  iv_omega

private theorem inner_region {n : IntVec} (hn : IntVec.Lt 0 n) :
    ∃ g, GhostData.makeUniform 0 = .ok g ∧ IntVec.Lt 0 (n + g.minus + g.plus) ∧
      ∀ c, InBox n g.minus g.plus c ↔ InBlock n c := by
  refine ⟨⟨⟨0, 0, 0⟩, ⟨0, 0, 0⟩, false⟩, by decide, by iv_omega, ?_⟩
  intro c
  unfold InBox
  constructor <;> intro h <;> iv_omega

/-! ## C27 -/

/-- C27. `nebo_fold` ends and returns the fold of the expression's values over exactly
the cells where the expression is defined, each taken once, in fortran order. -/
theorem _root_.SpatialOps.C27_fold_all_cells {V R : Type} [Add V] [Mul V] (n : IntVec) (hn : IntVec.Lt 0 n)
    (e : Expr V .num) (he : e.Wf n) (hs : e.StencilFree) (ho : e.HasOperand)
    (hd : ∀ c, InBlock n c → e.DefinedAt n c) (proc : R → V → R) (initial : R) (m : Mem V) :
    ∃ cells, Lists cells (e.DefinedAt n) ∧
      Returns (neboFold proc initial e m) (cells.foldl (fun r c => proc r (e.value m c)) initial) := by
  obtain ⟨g, hg, hbox, hr⟩ := all_region hn he hd
  obtain ⟨w, hw, h1, -⟩ := red_core (R := R) hbox he hs ho (fun c hc => (hr c).1 hc) m
  obtain ⟨l1, l2⟩ := regionCells_lists hbox
  refine ⟨regionCells n g.minus g.plus, ⟨l1, fun c => (l2 c).trans (hr c)⟩, ?_⟩
  obtain ⟨k, hk⟩ := h1 proc initial
  refine ⟨k, fun j hj => ?_⟩
  unfold neboFold andThen
  rw [hg]
  dsimp only
  rw [hw]
  exact hk j hj

/-- C27. `nebo_reduce` ends and returns the fold of the values of all cells where the
expression is defined, in fortran order, starting with the first cell's value. -/
theorem _root_.SpatialOps.C27_reduce_all_cells {V : Type} [Add V] [Mul V] (n : IntVec) (hn : IntVec.Lt 0 n)
    (e : Expr V .num) (he : e.Wf n) (hs : e.StencilFree) (ho : e.HasOperand)
    (hd : ∀ c, InBlock n c → e.DefinedAt n c) (proc : V → V → V) (m : Mem V) :
    ∃ first rest, Lists (first :: rest) (e.DefinedAt n) ∧
      Returns (neboReduce proc e m) (rest.foldl (fun r c => proc r (e.value m c)) (e.value m first)) := by
  obtain ⟨g, hg, hbox, hr⟩ := all_region hn he hd
  obtain ⟨w, hw, -, h1⟩ := red_core (R := V) hbox he hs ho (fun c hc => (hr c).1 hc) m
  obtain ⟨l1, l2⟩ := regionCells_lists hbox
  obtain ⟨c, cs, hc, k, hk⟩ := h1 proc
  rw [hc] at l1 l2
  refine ⟨c, cs, ⟨l1, fun c => (l2 c).trans (hr c)⟩, k, fun j hj => ?_⟩
  unfold neboReduce andThen
  rw [hg]
  dsimp only
  rw [hw]
  exact hk j hj

private theorem max_fold {V : Type} [LinearOrder V] (f : IntVec → V) (c : IntVec) (cs : List IntVec) :
    (∃ x ∈ c :: cs, f x = cs.foldl (fun r c => stdMax r (f c)) (f c)) ∧
    ∀ x ∈ c :: cs, f x ≤ cs.foldl (fun r c => stdMax r (f c)) (f c) := by
  have gen : ∀ (cs : List IntVec) (r : V),
      (cs.foldl (fun r c => stdMax r (f c)) r = r ∨ ∃ x ∈ cs, f x = cs.foldl (fun r c => stdMax r (f c)) r) ∧
      r ≤ cs.foldl (fun r c => stdMax r (f c)) r ∧ ∀ x ∈ cs, f x ≤ cs.foldl (fun r c => stdMax r (f c)) r := by
    intro cs
    induction cs with
    | nil => intro r; simp
    | cons d ds ih =>
      intro r
      obtain ⟨h1, h2, h3⟩ := ih (stdMax r (f d))
      rw [List.foldl_cons]
      have hm : (stdMax r (f d) = r ∨ stdMax r (f d) = f d) ∧ r ≤ stdMax r (f d) ∧ f d ≤ stdMax r (f d) := by
        unfold stdMax
        split
        · rename_i h; exact ⟨.inr rfl, le_of_lt h, le_refl _⟩
        · rename_i h; exact ⟨.inl rfl, le_refl _, le_of_not_gt h⟩
      refine ⟨?_, le_trans hm.2.1 h2, ?_⟩
      · rcases h1 with h1 | ⟨x, hx, h1⟩
        · rw [h1]
          rcases hm.1 with e | e
          · exact .inl e
          · exact .inr ⟨d, by simp, e.symm⟩
        · exact .inr ⟨x, by simp [hx], h1⟩
      · intro x hx
        rcases List.mem_cons.1 hx with rfl | hx
        · exact le_trans hm.2.2 h2
        · exact h3 x hx
  obtain ⟨h1, h2, h3⟩ := gen cs (f c)
  refine ⟨?_, ?_⟩
  · rcases h1 with h1 | ⟨x, hx, h1⟩
    · exact ⟨c, by simp, h1.symm⟩
    · exact ⟨x, by simp [hx], h1⟩
  · intro x hx
    rcases List.mem_cons.1 hx with rfl | hx
    · exact h2
    · exact h3 x hx

private theorem min_fold {V : Type} [LinearOrder V] (f : IntVec → V) (c : IntVec) (cs : List IntVec) :
    (∃ x ∈ c :: cs, f x = cs.foldl (fun r c => stdMin r (f c)) (f c)) ∧
    ∀ x ∈ c :: cs, cs.foldl (fun r c => stdMin r (f c)) (f c) ≤ f x :=
  max_fold (V := Vᵒᵈ) f c cs

/-- C27. On linearly ordered values `nebo_max` returns a value the expression takes at
some cell where it is defined, and no smaller than its value at any such cell. -/
theorem _root_.SpatialOps.C27_max {V : Type} [Add V] [Mul V] [LinearOrder V] (n : IntVec) (hn : IntVec.Lt 0 n)
    (e : Expr V .num) (he : e.Wf n) (hs : e.StencilFree) (ho : e.HasOperand)
    (hd : ∀ c, InBlock n c → e.DefinedAt n c) (m : Mem V) :
    ∃ r : V, Returns (neboMax e m) r ∧ (∃ c, e.DefinedAt n c ∧ e.value m c = r) ∧
      ∀ c, e.DefinedAt n c → (e.value m c : V) ≤ r := by
  obtain ⟨c, cs, ⟨-, hl⟩, hr⟩ := C27_reduce_all_cells n hn e he hs ho hd stdMax m
  obtain ⟨⟨x, hx, h1⟩, h2⟩ := max_fold (V := V) (fun c => e.value m c) c cs
  exact ⟨_, hr, ⟨x, (hl x).1 hx, h1⟩, fun c hc => h2 c ((hl c).2 hc)⟩

/-- C27. Likewise `nebo_min`. -/
theorem _root_.SpatialOps.C27_min {V : Type} [Add V] [Mul V] [LinearOrder V] (n : IntVec) (hn : IntVec.Lt 0 n)
    (e : Expr V .num) (he : e.Wf n) (hs : e.StencilFree) (ho : e.HasOperand)
    (hd : ∀ c, InBlock n c → e.DefinedAt n c) (m : Mem V) :
    ∃ r : V, Returns (neboMin e m) r ∧ (∃ c, e.DefinedAt n c ∧ e.value m c = r) ∧
      ∀ c, e.DefinedAt n c → r ≤ (e.value m c : V) := by
  obtain ⟨c, cs, ⟨-, hl⟩, hr⟩ := C27_reduce_all_cells n hn e he hs ho hd stdMin m
  obtain ⟨⟨x, hx, h1⟩, h2⟩ := min_fold (V := V) (fun c => e.value m c) c cs
  exact ⟨_, hr, ⟨x, (hl x).1 hx, h1⟩, fun c hc => h2 c ((hl c).2 hc)⟩

private theorem sum_fold {V : Type} [AddCommMonoid V] (f : IntVec → V) (cs : List IntVec) (r : V) :
    cs.foldl (fun r c => r + f c) r = r + (cs.map f).sum := by
  induction cs generalizing r with
  | nil => simp
  | cons d ds ih => rw [List.foldl_cons, ih, List.map_cons, List.sum_cons, add_assoc]

/-- C27. In exact arithmetic `nebo_sum` returns the sum, and `nebo_norm` the root of the
sum of squares, of the values at all cells where the expression is defined. -/
theorem _root_.SpatialOps.C27_sum_and_norm {V : Type} [AddCommMonoid V] [Mul V] (n : IntVec) (hn : IntVec.Lt 0 n)
    (e : Expr V .num) (he : e.Wf n) (hs : e.StencilFree) (ho : e.HasOperand)
    (hd : ∀ c, InBlock n c → e.DefinedAt n c) (sqrt : V → V) (pow : V → V → V) (two : V)
    (hfin : ∀ c, e.DefinedAt n c → IntVec.Le (-⟨ghostMax, ghostMax, ghostMax⟩) c ∧
      IntVec.Lt c (n + ⟨ghostMax, ghostMax, ghostMax⟩)) (m : Mem V) :
    ∃ cells, Lists cells (e.DefinedAt n) ∧
      Returns (neboSum e m) (cells.map fun c => (e.value m c : V)).sum ∧
      Returns (neboNorm sqrt pow two e m) (sqrt (cells.map fun c => pow (e.value m c) two).sum) := by
  obtain ⟨c, cs, hl, hr⟩ := C27_reduce_all_cells n hn e he hs ho hd (fun a b => a + b) m
  obtain ⟨d, ds, hl', k, hk⟩ := C27_reduce_all_cells n hn (.bin (s := .num) (t := .num) pow e (.scalar (t := .num) two))
    ⟨he, trivial⟩ ⟨hs, trivial⟩ (.inl ho) (fun c hc => ⟨hd c hc, hfin c (hd c hc)⟩) (fun a b => a + b) m
  have heq : c :: cs = d :: ds := by
    refine hl.unique ⟨hl'.1, fun x => (hl'.2 x).trans ⟨fun h => h.1, fun h => ⟨h, hfin x h⟩⟩⟩
  obtain ⟨rfl, rfl⟩ := List.cons_eq_cons.1 heq
  refine ⟨c :: cs, hl, ?_, k, fun j hj => ?_⟩
  · rw [List.map_cons, List.sum_cons, ← sum_fold (fun c => (e.value m c : V))]
    exact hr
  · unfold neboNorm neboSum
    rw [hk j hj]
    dsimp only
    rw [List.map_cons, List.sum_cons, ← sum_fold (fun c => pow (e.value m c) two)]
    rfl

/-- Non-vacuity: `cond(mask, 2*a)(b)`, the fields having ghost cells, and `b` boundary
cells. -/
example : ∃ (n : IntVec) (e : Expr Int .num), IntVec.Lt 0 n ∧ e.Wf n ∧ e.StencilFree ∧ e.HasOperand ∧
    (∀ c, InBlock n c → e.DefinedAt n c) ∧
    (∀ c, e.DefinedAt n c → IntVec.Le (-⟨ghostMax, ghostMax, ghostMax⟩) c ∧
      IntVec.Lt c (n + ⟨ghostMax, ghostMax, ghostMax⟩)) := by
  refine ⟨⟨4, 3, 1⟩, .cond (.mask NeboEx.msk) (.bin (s := .num) (t := .num) (· * ·) (.scalar (t := .num) 2)
    (.field (NeboEx.fld false 1))) (.field (NeboEx.fld true 2)), by decide,
    ⟨⟨NeboEx.onMesh false, by decide⟩, ⟨trivial, NeboEx.onMesh false, by decide⟩, NeboEx.onMesh true, by decide⟩,
    ⟨trivial, ⟨trivial, trivial⟩, trivial⟩, .inl trivial, ?_, ?_⟩
  · have hh := hasCell_iff (NeboEx.onMesh false)
    have ht := hasCell_iff (NeboEx.onMesh true)
    intro c hc
    have e1 : (NeboEx.geo false).validGhosts.minus = ⟨1, 1, 0⟩ := rfl
    have e2 : (NeboEx.geo false).validGhosts.plus + (NeboEx.geo false).bc.hasExtra = ⟨1, 1, 0⟩ := by decide
    have e3 : (NeboEx.geo true).validGhosts.minus = ⟨1, 1, 0⟩ := rfl
    have e4 : (NeboEx.geo true).validGhosts.plus + (NeboEx.geo true).bc.hasExtra = ⟨2, 1, 0⟩ := by decide
    rw [e1, e2] at hh
    rw [e3, e4] at ht
    unfold InBox at hh ht
    refine ⟨(hh c).2 (by iv_omega), ⟨?_, (hh c).2 (by iv_omega)⟩, (ht c).2 (by iv_omega)⟩
    simp only [Expr.DefinedAt, ghostMax]
    iv_omega
  · intro c hc
    exact hc.2.1.1

/-! ## C28 -/

/-- C28. `nebo_fold_interior` ends and returns the fold of the values over exactly the
mesh cells `0 ≤ c < n`, in fortran order. -/
theorem _root_.SpatialOps.C28_interior_fold {V R : Type} [Add V] [Mul V] (n : IntVec) (hn : IntVec.Lt 0 n)
    (e : Expr V .num) (he : e.Wf n) (hs : e.StencilFree) (ho : e.HasOperand)
    (hd : ∀ c, InBlock n c → e.DefinedAt n c) (proc : R → V → R) (initial : R) (m : Mem V) :
    ∃ cells, Lists cells (InBlock n) ∧
      Returns (neboFoldInterior proc initial e m) (cells.foldl (fun r c => proc r (e.value m c)) initial) := by
  obtain ⟨g, hg, hbox, hr⟩ := inner_region hn
  obtain ⟨w, hw, h1, -⟩ := red_core (R := R) hbox he hs ho (fun c hc => hd c ((hr c).1 hc)) m
  obtain ⟨l1, l2⟩ := regionCells_lists hbox
  refine ⟨regionCells n g.minus g.plus, ⟨l1, fun c => (l2 c).trans (hr c)⟩, ?_⟩
  obtain ⟨k, hk⟩ := h1 proc initial
  refine ⟨k, fun j hj => ?_⟩
  unfold neboFoldInterior andThen
  rw [hg]
  dsimp only
  rw [hw]
  exact hk j hj

/-- C28. `nebo_reduce_interior` likewise, starting with the first cell's value. -/
theorem _root_.SpatialOps.C28_interior_reduce {V : Type} [Add V] [Mul V] (n : IntVec) (hn : IntVec.Lt 0 n)
    (e : Expr V .num) (he : e.Wf n) (hs : e.StencilFree) (ho : e.HasOperand)
    (hd : ∀ c, InBlock n c → e.DefinedAt n c) (proc : V → V → V) (m : Mem V) :
    ∃ first rest, Lists (first :: rest) (InBlock n) ∧
      Returns (neboReduceInterior proc e m) (rest.foldl (fun r c => proc r (e.value m c)) (e.value m first)) := by
  obtain ⟨g, hg, hbox, hr⟩ := inner_region hn
  obtain ⟨w, hw, -, h1⟩ := red_core (R := V) hbox he hs ho (fun c hc => hd c ((hr c).1 hc)) m
  obtain ⟨l1, l2⟩ := regionCells_lists hbox
  obtain ⟨c, cs, hc, k, hk⟩ := h1 proc
  rw [hc] at l1 l2
  refine ⟨c, cs, ⟨l1, fun c => (l2 c).trans (hr c)⟩, k, fun j hj => ?_⟩
  unfold neboReduceInterior andThen
  rw [hg]
  dsimp only
  rw [hw]
  exact hk j hj

/-- C28. In exact arithmetic `nebo_sum_interior` and `nebo_norm_interior` return the sum
and the root of the sum of squares over exactly the mesh cells `0 ≤ c < n`. -/
theorem _root_.SpatialOps.C28_interior_sum_and_norm {V : Type} [AddCommMonoid V] [Mul V] (n : IntVec)
    (hn : IntVec.Lt 0 n) (e : Expr V .num) (he : e.Wf n) (hs : e.StencilFree) (ho : e.HasOperand)
    (hd : ∀ c, InBlock n c → e.DefinedAt n c) (sqrt : V → V) (pow : V → V → V) (two : V) (m : Mem V) :
    ∃ cells, Lists cells (InBlock n) ∧
      Returns (neboSumInterior e m) (cells.map fun c => (e.value m c : V)).sum ∧
      Returns (neboNormInterior sqrt pow two e m) (sqrt (cells.map fun c => pow (e.value m c) two).sum) := by
  obtain ⟨c, cs, hl, hr⟩ := C28_interior_reduce n hn e he hs ho hd (fun a b => a + b) m
  obtain ⟨d, ds, hl', k, hk⟩ := C28_interior_reduce n hn (.bin (s := .num) (t := .num) pow e (.scalar (t := .num) two))
    ⟨he, trivial⟩ ⟨hs, trivial⟩ (.inl ho) (fun c hc => ⟨hd c hc, by
      simp only [Expr.DefinedAt, ghostMax]; iv_omega⟩) (fun a b => a + b) m
  obtain ⟨rfl, rfl⟩ := List.cons_eq_cons.1 (hl.unique hl')
  refine ⟨c :: cs, hl, ?_, k, fun j hj => ?_⟩
  · rw [List.map_cons, List.sum_cons, ← sum_fold (fun c => (e.value m c : V))]
    exact hr
  · unfold neboNormInterior neboSumInterior
    rw [hk j hj]
    dsimp only
    rw [List.map_cons, List.sum_cons, ← sum_fold (fun c => pow (e.value m c) two)]
    rfl

/-- C28, what holds of it. For a field without extra boundary cells the interior
reductions combine exactly the cells of its interior, the ones `interior_assign` writes:
shown for the sum, maximum and minimum. Missing: fields with boundary cells, see
`C28_boundary_cells_left_out`. -/
theorem _root_.SpatialOps.C28_interior_of_field_partial {V : Type} [AddCommMonoid V] [Mul V] [LinearOrder V] (n : IntVec)
    (hn : IntVec.Lt 0 n) (f : FieldObj) (hf : OnMesh n f.geo) (hv : f.values ≠ none)
    (hb : f.geo.bc.hasExtra = 0) (m : Mem V) :
    ∃ cells, Lists cells (Interior n f) ∧
      Returns (neboSumInterior (.field f) m)
        (cells.map fun c => m (f.values.getD 0) (cellAddr f.geo c)).sum ∧
      (∃ r, Returns (neboMaxInterior (.field f) m) r ∧
        (∃ c, Interior n f c ∧ m (f.values.getD 0) (cellAddr f.geo c) = r) ∧
        ∀ c, Interior n f c → m (f.values.getD 0) (cellAddr f.geo c) ≤ r) ∧
      (∃ r, Returns (neboMinInterior (.field f) m) r ∧
        (∃ c, Interior n f c ∧ m (f.values.getD 0) (cellAddr f.geo c) = r) ∧
        ∀ c, Interior n f c → r ≤ m (f.values.getD 0) (cellAddr f.geo c)) := by
  have hI : ∀ c, InBlock n c ↔ Interior n f c := by
    intro c; unfold Interior; rw [hb]; constructor <;> intro h <;> iv_omega
  have hd : ∀ c, InBlock n c → (Expr.field (V := V) f).DefinedAt n c := by
    intro c hc
    have h2 := hf.valid
    rw [show (Expr.field (V := V) f).DefinedAt n c = HasCell f.geo c from rfl, hasCell_iff hf, hb]
    unfold GhostData.Valid at h2
    unfold InBox
    iv_omega
  obtain ⟨c, cs, hl, hr⟩ := C28_interior_reduce n hn (Expr.field (V := V) f) ⟨hf, hv⟩ trivial trivial hd (fun a b => a + b) m
  obtain ⟨c1, cs1, hl1, hr1⟩ := C28_interior_reduce n hn (Expr.field (V := V) f) ⟨hf, hv⟩ trivial trivial hd stdMax m
  obtain ⟨c2, cs2, hl2, hr2⟩ := C28_interior_reduce n hn (Expr.field (V := V) f) ⟨hf, hv⟩ trivial trivial hd stdMin m
  refine ⟨c :: cs, ⟨hl.1, fun x => (hl.2 x).trans (hI x)⟩, ?_, ?_, ?_⟩
  · rw [List.map_cons, List.sum_cons, ← sum_fold (fun c => m (f.values.getD 0) (cellAddr f.geo c))]
    exact hr
  · obtain ⟨⟨x, hx, h1⟩, h2⟩ := max_fold (fun c => m (f.values.getD 0) (cellAddr f.geo c)) c1 cs1
    exact ⟨_, hr1, ⟨x, (hI x).1 ((hl1.2 x).1 hx), h1⟩, fun c hc => h2 c ((hl1.2 c).2 ((hI c).2 hc))⟩
  · obtain ⟨⟨x, hx, h1⟩, h2⟩ := min_fold (fun c => m (f.values.getD 0) (cellAddr f.geo c)) c2 cs2
    exact ⟨_, hr2, ⟨x, (hI x).1 ((hl2.2 x).1 hx), h1⟩, fun c hc => h2 c ((hl2.2 c).2 ((hI c).2 hc))⟩

example : ∃ (n : IntVec) (f : FieldObj), IntVec.Lt 0 n ∧ OnMesh n f.geo ∧ f.values ≠ none ∧
    f.geo.bc.hasExtra = 0 :=
  ⟨⟨4, 3, 1⟩, NeboEx.fld false 0, by decide, NeboEx.onMesh false, by decide, by decide⟩

/-- C28, deviation. The extra cells of a field on a boundary belong to its interior
(`interior_assign` writes them and interior iterators visit them) but the interior
reductions leave them out: a field of 15 interior cells, all containing 1, has the
interior sum 12. -/
theorem _root_.SpatialOps.C28_boundary_cells_left_out :
    ∃ (n : IntVec) (f : FieldObj) (m : Mem Int) (cells : List IntVec), IntVec.Lt 0 n ∧ OnMesh n f.geo ∧
      f.values ≠ none ∧ Lists cells (Interior n f) ∧ f.geo.interior.localNpts = 15 ∧ cells.length = 15 ∧
      (∀ c ∈ cells, m (f.values.getD 0) (cellAddr f.geo c) = 1) ∧
      Returns (neboSumInterior (.field f) m) 12 := by
  obtain ⟨l1, l2⟩ := regionCells_lists (n := ⟨4, 3, 1⟩) (minus := 0) (plus := ⟨1, 0, 0⟩) (by decide)
  refine ⟨⟨4, 3, 1⟩, NeboEx.fld true 0, fun _ _ => 1, regionCells ⟨4, 3, 1⟩ 0 ⟨1, 0, 0⟩, by decide,
    NeboEx.onMesh true, by decide, ⟨l1, fun c => (l2 c).trans ?_⟩, by decide, by decide, fun _ _ => rfl, ?_⟩
  · have e : (NeboEx.fld true 0).geo.bc.hasExtra = ⟨1, 0, 0⟩ := by decide
    unfold Interior InBox
    rw [e]
    constructor <;> intro h <;> iv_omega
  · obtain ⟨c, cs, hl, k, hk⟩ := C28_interior_reduce (V := Int) ⟨4, 3, 1⟩ (by decide)
      (.field (NeboEx.fld true 0)) ⟨NeboEx.onMesh true, by decide⟩ trivial trivial (by
        intro c hc
        rw [show (Expr.field (V := Int) (NeboEx.fld true 0)).DefinedAt ⟨4, 3, 1⟩ c =
          HasCell (NeboEx.geo true) c from rfl, hasCell_iff (NeboEx.onMesh true)]
        have e3 : (NeboEx.geo true).validGhosts.minus = ⟨1, 1, 0⟩ := rfl
        have e4 : (NeboEx.geo true).validGhosts.plus + (NeboEx.geo true).bc.hasExtra = ⟨2, 1, 0⟩ := by decide
        rw [e3, e4]
        unfold InBox
        iv_omega) (fun a b => a + b) fun _ _ => 1
    have l3 := regionCells_lists (n := ⟨4, 3, 1⟩) (minus := 0) (plus := 0) (by decide)
    have := hl.unique (b := regionCells ⟨4, 3, 1⟩ 0 0) ⟨l3.1, fun c => (l3.2 c).trans (by
      unfold InBox; constructor <;> intro h <;> iv_omega)⟩
    refine ⟨k, fun j hj => ?_⟩
    unfold neboSumInterior
    rw [hk j hj]
    have e5 : regionCells ⟨4, 3, 1⟩ 0 0 = (regionCells ⟨4, 3, 1⟩ 0 0).headD 0 :: (regionCells ⟨4, 3, 1⟩ 0 0).tail := by
      decide
    rw [e5] at this
    obtain ⟨rfl, rfl⟩ := List.cons_eq_cons.1 this
    rfl

end Nebo
end SpatialOps
