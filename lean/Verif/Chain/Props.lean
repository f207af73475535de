import Verif.Chain.Lemmas

/-!
# C70: intermediate fields and composed expressions
-/

namespace SpatialOps
open Nebo
namespace Chain

variable {V : Type} [Add V] [Mul V]

/-- C70. A sequence of assignments to intermediate fields is accepted, and afterwards any
expression has, wherever it has a value both ways, the value it has before with the intermediate fields
replaced by their expressions. Any number of statements, any expressions; a field may be assigned several times. -/
theorem _root_.SpatialOps.C70_values_partial (n : IntVec) (hn : IntVec.Lt 0 n) (F : Expr V .num) (hF : F.Wf n) (prog : List (Stmt V))
    (hp : Steps n F prog) (m : Mem V) :
    ∃ m', runAll prog m = .ok m' ∧ ∀ c, DefinedThrough n F c prog → F.value m' c = (composed prog F).value m c := by
  induction prog generalizing m with
  | nil => exact ⟨m, rfl, fun _ _ => rfl⟩
  | cons s rest ih =>
    obtain ⟨⟨b, ht⟩, hs, hw, hd, hi, hu, hFu, hr⟩ := hp
    obtain ⟨m1, h1, ha⟩ := C22_assign_pointwise n hn s.t b ht s.e hw hd hi m
    obtain ⟨m2, h2, hv⟩ := ih hr m1
    refine ⟨m2, by simp only [runAll, h1, Outcome.ok_bind, h2], fun c hc => ?_⟩
    have e : s.t.values.getD 0 = b := by rw [ht.mem]; rfl
    have hc1 := hc.1
    simp only [composed, e] at hc1 ⊢
    rw [hv c hc.2]
    exact value_subst ht.mem hs ha _ c (wf_composed hF rest hr) (usedAs_composed hFu rest hu) hc.2.head hc1

/-- C70. The final field gets the same values whether the operators are applied one by one, with an intermediate field for each
result, or composed in a single expression: at every interior cell, and at every ghost cell where both are defined. -/
theorem _root_.SpatialOps.C70_composed_equals_stepwise_partial (n : IntVec) (hn : IntVec.Lt 0 n) (prog : List (Stmt V)) (l : FieldObj) (b : Nat)
    (hl : Target n l b) (F : Expr V .num) (hF : F.Wf n) (hp : Steps n F prog)
    (hd : ∀ c, Interior n l c → DefinedThrough n F c prog)
    (hi : F.Independent l 0) (hi' : (composed prog F).Independent l 0) (m : Mem V) :
    ∃ m1 m2, runAll (prog ++ [⟨l, F⟩]) m = .ok m1 ∧ assign l (composed prog F) m = .ok m2 ∧
      (∀ c, Interior n l c → m1 b (cellAddr l.geo c) = m2 b (cellAddr l.geo c)) ∧
      (∀ c, Stored n l c → DefinedThrough n F c prog → m1 b (cellAddr l.geo c) = m2 b (cellAddr l.geo c)) := by
  obtain ⟨m0, h0, hv⟩ := C70_values_partial n hn F hF prog hp m
  obtain ⟨m1, h1, ha1⟩ := C22_assign_pointwise n hn l b hl F hF (fun c hc => (hd c hc).last) hi m0
  obtain ⟨m2, h2, ha2⟩ := C22_assign_pointwise n hn l b hl (composed prog F) (wf_composed hF prog hp) (fun c hc => (hd c hc).head) hi' m
  have happ : ∀ (p : List (Stmt V)) (q : List (Stmt V)) (a : Mem V), runAll (p ++ q) a = runAll p a >>= runAll q := by
    intro p q
    induction p with
    | nil => intro a; rfl
    | cons s r ih =>
      intro a
      simp only [List.cons_append, runAll]
      cases assign s.t s.e a <;> first | rfl | exact ih _
  have key : ∀ c, Stored n l c → DefinedThrough n F c prog → m1 b (cellAddr l.geo c) = m2 b (cellAddr l.geo c) := by
    intro c hs hc
    rw [ha1.1 c ⟨hs, hc.last⟩, ha2.1 c ⟨hs, hc.head⟩, hv c hc]
  have hg := hl.mesh.ghosts
  refine ⟨m1, m2, ?_, h2, fun c hc => key c ?_ (hd c hc), key⟩
  · rw [happ, h0, Outcome.ok_bind]
    simp only [runAll, h1, Outcome.ok_bind]
  · unfold Interior at hc
    unfold GhostData.Valid at hg
    unfold Stored
    iv_omega

/-! ### Ghost cells of intermediate fields -/

/-- `shift(f)`: the value of the left neighbour. -/
def left (f : FieldObj) : Expr Int .num := .sumStencil (.one ⟨-1, 0, 0⟩) (.field f)

def a : FieldObj := NeboEx.fld false 1
def t : FieldObj := NeboEx.fld false 2
def l : FieldObj := NeboEx.fld false 3

/-- Zero everywhere but in the ghost cell left of the first interior cell of `t`, which holds `v`. -/
def stale (v : Int) : Mem Int := fun b i => if b = 2 ∧ i = cellAddr t.geo ⟨-1, 0, 0⟩ then v else 0

/-- C70. Assigning to a field does not take note of the ghost cells that could not be computed: after `t <<= left(a)` the left ghost
cells of `t` hold what they held before, and `l <<= left(t)` uses them as if they were valid. It is accepted, and
an interior cell of `l` depends on what `t` contained before it was assigned. The composed expression is refused. -/
theorem _root_.SpatialOps.C70_stale_ghosts_used :
    ∃ (n : IntVec) (s1 s2 : Stmt Int) (c : IntVec), IntVec.Lt 0 n ∧ Target n s1.t 2 ∧ Target n s2.t 3 ∧
      s1.e.Wf n ∧ (∀ c, Interior n s1.t c → s1.e.DefinedAt n c) ∧ s2.e.Wf n ∧ Interior n s2.t c ∧
      (∀ v, ∃ m', runAll [s1, s2] (stale v) = .ok m' ∧ m' 3 (cellAddr s2.t.geo c) = v) ∧
      (∀ m, assign s2.t (composed [s1] s2.e) m = .throws ∨ assign s2.t (composed [s1] s2.e) m = .abort) := by
  have hh := hasCell_iff (NeboEx.onMesh false)
  have e1 : (NeboEx.geo false).validGhosts.minus = ⟨1, 1, 0⟩ := rfl
  have e2 : (NeboEx.geo false).validGhosts.plus + (NeboEx.geo false).bc.hasExtra = ⟨1, 1, 0⟩ := by decide
  have e3 : (NeboEx.geo false).bc.hasExtra = ⟨0, 0, 0⟩ := by decide
  rw [e1, e2] at hh
  unfold InBox at hh
  have wf : ∀ b, (left (NeboEx.fld false b)).Wf ⟨4, 3, 1⟩ := fun b => by
    unfold left Expr.Wf Expr.Wf; exact ⟨NeboEx.onMesh false, by simp [NeboEx.fld]⟩
  have df : ∀ b b' c, Interior ⟨4, 3, 1⟩ (NeboEx.fld false b) c → (left (NeboEx.fld false b')).DefinedAt ⟨4, 3, 1⟩ c := by
    intro b b' c hc
    have hc' : IntVec.Le 0 c ∧ IntVec.Lt c (⟨4, 3, 1⟩ + (NeboEx.geo false).bc.hasExtra) := hc
    rw [e3] at hc'
    intro q hq
    simp only [Pts.toList, List.mem_singleton] at hq
    subst hq
    exact ⟨(hh c).2 (by iv_omega), (hh _).2 (by iv_omega)⟩
  refine ⟨⟨4, 3, 1⟩, ⟨t, left a⟩, ⟨l, left t⟩, ⟨0, 0, 0⟩, by decide, NeboEx.target false 2, NeboEx.target false 3,
    wf 1, df 2 1, wf 2, by unfold Interior; decide, fun v => ?_, fun m => ?_⟩
  rotate_left
  · refine C22_undefined_interior_refused ⟨4, 3, 1⟩ l _ (wf_subst (wf 1) _ (wf 2)) ⟨0, 0, 0⟩ (by unfold Interior; decide) (fun h => ?_) m _ (.inl rfl)
    have h1 := (h ⟨-1, 0, 0⟩ (by simp [Pts.toList])).2
    have h2 : HasCell (NeboEx.geo false) (⟨0, 0, 0⟩ + ⟨-1, 0, 0⟩ + ⟨-1, 0, 0⟩) := (h1 ⟨-1, 0, 0⟩ (by simp [Pts.toList])).2
    have h3 := (hh _).1 h2
    iv_omega
  obtain ⟨m1, h1, ha1⟩ := C22_assign_pointwise ⟨4, 3, 1⟩ (by decide) t 2 (NeboEx.target false 2) (left a) (wf 1) (df 2 1)
    (fun q _ => .inl (by decide)) (stale v)
  obtain ⟨m2, h2, ha2⟩ := C22_assign_pointwise ⟨4, 3, 1⟩ (by decide) l 3 (NeboEx.target false 3) (left t) (wf 2) (df 3 2)
    (fun q _ => .inl (by decide)) m1
  refine ⟨m2, by simp only [runAll, h1, h2, Outcome.ok_bind], ?_⟩
  have hi : Interior ⟨4, 3, 1⟩ l ⟨0, 0, 0⟩ := by unfold Interior; decide
  rw [ha2.1 ⟨0, 0, 0⟩ ⟨by unfold Stored; decide, df 3 2 _ hi⟩]
  show m1 2 (cellAddr t.geo (⟨0, 0, 0⟩ + ⟨-1, 0, 0⟩)) = v
  have hsame : m1 2 (cellAddr t.geo ⟨-1, 0, 0⟩) = stale v 2 (cellAddr t.geo ⟨-1, 0, 0⟩) := by
    refine ha1.2 _ _ (.inr fun c hc he => ?_)
    have hd := (hc.2 ⟨-1, 0, 0⟩ (by simp [Pts.toList])).2
    have hd' := (hh _).1 hd
    have hs : IntVec.Le ⟨-1, -1, 0⟩ c ∧ IntVec.Lt c ⟨5, 4, 1⟩ := hc.1
    simp only [cellAddr, fortranPos, origin, t, NeboEx.fld, NeboEx.geo, Bool.false_eq_true, if_false, Int.add_zero] at he
    iv_omega
  rw [show (⟨0, 0, 0⟩ + ⟨-1, 0, 0⟩ : IntVec) = ⟨-1, 0, 0⟩ from by decide, hsame]
  simp [stale]

/-! ### Example: two levels of intermediate fields -/

/-- `f4 <<= 2 * a; f5 <<= left(f4)`. -/
def prog : List (Stmt Int) :=
  [⟨NeboEx.fld false 4, .bin (s := .num) (t := .num) (· * ·) (.scalar (t := .num) 2) (.field a)⟩, ⟨NeboEx.fld false 5, left (NeboEx.fld false 4)⟩]

/-- The right neighbour's value of `f5`; composed, `right(left(2 * a))`. -/
def final : Expr Int .num := .sumStencil (.one ⟨1, 0, 0⟩) (.field (NeboEx.fld false 5))

theorem ex_steps : Steps ⟨4, 3, 1⟩ final prog := by
  have hh := hasCell_iff (NeboEx.onMesh false)
  have e1 : (NeboEx.geo false).validGhosts.minus = ⟨1, 1, 0⟩ := rfl
  have e2 : (NeboEx.geo false).validGhosts.plus + (NeboEx.geo false).bc.hasExtra = ⟨1, 1, 0⟩ := by decide
  have e3 : (NeboEx.geo false).bc.hasExtra = ⟨0, 0, 0⟩ := by decide
  rw [e1, e2] at hh
  unfold InBox at hh
  have hs : ∀ b c, HasCell (NeboEx.fld false b).geo c → Stored ⟨4, 3, 1⟩ (NeboEx.fld false b) c := by
    intro b c hc
    have := (hh c).1 hc
    show IntVec.Le (-⟨1, 1, 0⟩) c ∧ IntVec.Lt c (⟨4, 3, 1⟩ + (NeboEx.geo false).bc.hasExtra + ⟨1, 1, 0⟩)
    rw [e3]
    iv_omega
  refine ⟨⟨4, NeboEx.target false 4⟩, hs 4, ⟨trivial, NeboEx.onMesh false, by decide⟩, ?_, ⟨trivial, .inl (by decide)⟩, ?_, ?_,
    ⟨5, NeboEx.target false 5⟩, hs 5, ?_, ?_, fun q _ => .inl (by decide), by simp, fun _ => rfl, trivial⟩
  · intro c hc
    have hc' : IntVec.Le 0 c ∧ IntVec.Lt c (⟨4, 3, 1⟩ + (NeboEx.geo false).bc.hasExtra) := hc
    rw [e3] at hc'
    refine ⟨?_, (hh c).2 (by iv_omega)⟩
    simp only [Expr.DefinedAt, ghostMax]
    iv_omega
  · intro s hs
    simp only [List.mem_singleton] at hs
    subst hs
    exact fun _ => rfl
  · exact fun _ => rfl
  · unfold left Expr.Wf Expr.Wf; exact ⟨NeboEx.onMesh false, by decide⟩
  · intro c hc
    have hc' : IntVec.Le 0 c ∧ IntVec.Lt c (⟨4, 3, 1⟩ + (NeboEx.geo false).bc.hasExtra) := hc
    rw [e3] at hc'
    intro q hq
    simp only [Pts.toList, List.mem_singleton] at hq
    subst hq
    exact ⟨(hh c).2 (by iv_omega), (hh _).2 (by iv_omega)⟩

theorem ex_defined (c : IntVec) (hc : Interior ⟨4, 3, 1⟩ l c) : DefinedThrough ⟨4, 3, 1⟩ final c prog := by
  have hh := hasCell_iff (NeboEx.onMesh false)
  have e1 : (NeboEx.geo false).validGhosts.minus = ⟨1, 1, 0⟩ := rfl
  have e2 : (NeboEx.geo false).validGhosts.plus + (NeboEx.geo false).bc.hasExtra = ⟨1, 1, 0⟩ := by decide
  have e3 : (NeboEx.geo false).bc.hasExtra = ⟨0, 0, 0⟩ := by decide
  rw [e1, e2] at hh
  unfold InBox at hh
  have hc' : IntVec.Le 0 c ∧ IntVec.Lt c (⟨4, 3, 1⟩ + (NeboEx.geo false).bc.hasExtra) := hc
  rw [e3] at hc'
  have big : ∀ d : IntVec, IntVec.Le ⟨-9, -9, -9⟩ d → IntVec.Lt d ⟨9, 9, 9⟩ →
      IntVec.Le (-⟨ghostMax, ghostMax, ghostMax⟩) d ∧ IntVec.Lt d (⟨4, 3, 1⟩ + ⟨ghostMax, ghostMax, ghostMax⟩) := by
    intro d h1 h2
    simp only [ghostMax]
    iv_omega
  have one : ∀ (p q : IntVec), q ∈ (Pts.one p).toList → q = p := fun p q h => by simpa [Pts.toList] using h
  refine ⟨fun q hq => ?_, fun q hq => ?_, fun q hq => ?_⟩
  · have e := one _ _ hq
    subst e
    refine ⟨fun q hq => ?_, fun q hq => ?_⟩ <;> (
      have e := one _ _ hq
      subst e
      exact ⟨⟨big _ (by iv_omega) (by iv_omega), (hh _).2 (by iv_omega)⟩,
        ⟨big _ (by iv_omega) (by iv_omega), (hh _).2 (by iv_omega)⟩⟩)
  · have e := one _ _ hq
    subst e
    refine ⟨fun q hq => ?_, fun q hq => ?_⟩ <;> (
      have e := one _ _ hq
      subst e
      exact ⟨(hh _).2 (by iv_omega), (hh _).2 (by iv_omega)⟩)
  · have e := one _ _ hq
    subst e
    exact ⟨(hh _).2 (by iv_omega), (hh _).2 (by iv_omega)⟩

example (m : Mem Int) : ∃ m1 m2, runAll (prog ++ [⟨l, final⟩]) m = .ok m1 ∧ assign l (composed prog final) m = .ok m2 ∧
    ∀ c, Interior ⟨4, 3, 1⟩ l c → m1 3 (cellAddr l.geo c) = m2 3 (cellAddr l.geo c) := by
  obtain ⟨m1, m2, h1, h2, h3, -⟩ := C70_composed_equals_stepwise_partial ⟨4, 3, 1⟩ (by decide) prog l 3 (NeboEx.target false 3) final
    (by unfold final Expr.Wf Expr.Wf; exact ⟨NeboEx.onMesh false, by decide⟩) ex_steps ex_defined (fun _ _ => .inl (by decide))
    (fun _ _ _ _ => ⟨trivial, .inl (by decide)⟩) m
  exact ⟨m1, m2, h1, h2, h3⟩

end Chain
end SpatialOps
