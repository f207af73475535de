import Verif.NeboCond.Spec
import Verif.Nebo.Props

/-!
# Property C26: `cond`
-/

namespace SpatialOps
namespace Nebo

variable {V : Type}

/-- The clauses of a builder as expressions. -/
def CondBuilder.exprs : CondBuilder V → List (Expr V .bool × Expr V .num)
  | .simple cs => convertClauses cs
  | .general cs => cs

/-- The clauses of a call, last first, as expressions. -/
private theorem clauses_eq (more : List (TestArg V × ValArg V)) (b : CondBuilder V) :
    (more.foldl (fun b c => b.clause c.1 c.2) b).exprs =
      (more.map fun c => (c.1.toExpr, c.2.toExpr)).reverse ++ b.exprs := by
  induction more generalizing b with
  | nil => rfl
  | cons c cs ih =>
    rw [List.foldl_cons, ih, List.map_cons, List.reverse_cons, List.append_assoc]
    congr 1
    obtain ⟨t, v⟩ := c
    cases b <;> cases t <;> cases v <;> rfl

private theorem start_eq (t : TestArg V) (v : ValArg V) : (condStart t v).exprs = [(t.toExpr, v.toExpr)] := by
  cases t <;> cases v <;> rfl

private theorem reverse_eq (cs : List (Expr V .bool × Expr V .num)) (r : Expr V .num) :
    reverseClauses cs r = cs.reverse.foldr (fun c r => Expr.cond c.1 c.2 r) r := by
  induction cs generalizing r with
  | nil => rfl
  | cons c cs ih => rw [reverseClauses, ih, List.reverse_cons, List.foldr_append]; rfl

private theorem simple_eq [Add V] [Mul V] (cs : List (Bool × V)) (d : V) (r : Expr V .num) (m : Mem V) (c : IntVec)
    (hr : (r.value m c : V) = d) : ((reverseClauses (convertClauses cs) r).value m c : V) = reverseSimple cs d := by
  induction cs generalizing d r with
  | nil => exact hr
  | cons x xs ih => exact ih _ _ (by simp only [Expr.value]; rw [hr]; rfl)

/-- The result as nested conditionals in the order written; a plain result has the same
value. -/
private theorem final_value [Add V] [Mul V] (b : CondBuilder V) (last : ValArg V) (m : Mem V) (c : IntVec) :
    ((b.final last).toExpr.value m c : V) = (reverseClauses b.exprs last.toExpr).value m c := by
  cases b <;> cases last <;> try rfl
  rename_i cs d
  exact (simple_eq cs d (.scalar (t := .num) d) m c rfl).symm

private theorem call_value [Add V] [Mul V] (first : TestArg V × ValArg V) (more : List (TestArg V × ValArg V))
    (last : ValArg V) (m : Mem V) (c : IntVec) :
    ((condCall first more last).toExpr.value m c : V) =
      ((first :: more).foldr (fun cl r => Expr.cond cl.1.toExpr cl.2.toExpr r) last.toExpr).value m c := by
  unfold condCall
  rw [final_value, clauses_eq, start_eq, reverse_eq, List.reverse_append, List.reverse_reverse]
  simp only [List.reverse_cons, List.reverse_nil, List.nil_append, List.foldr_append, List.foldr_cons,
    List.foldr_nil, List.foldr_map]

/-- C26. Whatever mixture of `bool`s, masks, boolean expressions, numbers, fields and
expressions a `cond` consists of, and however many clauses it has, at every cell its value
is that of the first clause, in the order written, whose condition holds there, and the
final value if none does. -/
theorem _root_.SpatialOps.C26_first_clause_wins [Add V] [Mul V] (first : TestArg V × ValArg V)
    (more : List (TestArg V × ValArg V)) (last : ValArg V) (m : Mem V) (c : IntVec) :
    ((condCall first more last).toExpr.value m c : V) = firstHolding m c (first :: more) last := by
  rw [call_value]
  generalize first :: more = cs
  induction cs with
  | nil => cases last <;> rfl
  | cons cl cs ih =>
    unfold firstHolding at ih ⊢
    rw [List.foldr_cons, List.find?_cons]
    have e1 : cl.1.toExpr.value m c = cl.1.holds m c := by cases cl.1 <;> rfl
    have e2 : (cl.2.toExpr.value m c : V) = cl.2.at m c := by cases cl.2 <;> rfl
    simp only [Expr.value]
    rw [e1, e2, ih]
    cases cl.1.holds m c <;> rfl

/-- C26. A `cond` of plain `bool`s and numbers with a plain final value is a plain number
and not an expression, and every other `cond` is an expression. -/
theorem _root_.SpatialOps.C26_plain_iff_all_plain (first : TestArg V × ValArg V) (more : List (TestArg V × ValArg V))
    (last : ValArg V) :
    (∃ d, condCall first more last = .value d) ↔
      (∀ cl ∈ first :: more, ∃ b d, cl = (.plain b, .plain d)) ∧ ∃ d, last = .plain d := by
  have key : ∀ (more : List (TestArg V × ValArg V)) (b : CondBuilder V),
      (∃ cs, more.foldl (fun b c => b.clause c.1 c.2) b = .simple cs) ↔
        (∃ cs, b = .simple cs) ∧ ∀ cl ∈ more, ∃ b d, cl = (.plain b, .plain d) := by
    intro more
    induction more with
    | nil => intro b; simp
    | cons c cs ih =>
      intro b
      rw [List.foldl_cons, ih]
      obtain ⟨t, v⟩ := c
      cases b <;> cases t <;> cases v <;> simp [CondBuilder.clause]
  have h0 : (∃ cs, condStart first.1 first.2 = .simple cs) ↔ ∃ b d, first = (.plain b, .plain d) := by
    obtain ⟨t, v⟩ := first
    cases t <;> cases v <;> simp [condStart]
  have h1 : ∀ b : CondBuilder V, (∃ d, b.final last = .value d) ↔ (∃ cs, b = .simple cs) ∧ ∃ d, last = .plain d := by
    intro b
    cases b <;> cases last <;> simp [CondBuilder.final]
  unfold condCall
  rw [h1, key, h0]
  simp only [List.mem_cons, forall_eq_or_imp]

/-- The parts of a general `cond`. -/
private theorem call_expr (first : TestArg V × ValArg V) (more : List (TestArg V × ValArg V)) (last : ValArg V)
    (e : Expr V .num) (h : condCall first more last = .expr e) :
    e = (first :: more).foldr (fun cl r => Expr.cond cl.1.toExpr cl.2.toExpr r) last.toExpr := by
  have : ∀ b : CondBuilder V, b.final last = .expr e → e = reverseClauses b.exprs last.toExpr := by
    intro b hb
    cases b <;> cases last <;> first | (cases hb; rfl) | cases hb
  rw [this _ h, clauses_eq, start_eq, reverse_eq, List.reverse_append, List.reverse_reverse]
  simp only [List.reverse_cons, List.reverse_nil, List.nil_append, List.foldr_append, List.foldr_cons,
    List.foldr_nil, List.foldr_map]

private theorem all_parts (P : {t : Ty} → Expr V t → Prop)
    (hP : ∀ (t : Expr V .bool) (a b : Expr V .num), P (.cond t a b) ↔ P t ∧ P a ∧ P b)
    (cs : List (TestArg V × ValArg V)) (last : ValArg V) :
    P (cs.foldr (fun cl r => Expr.cond cl.1.toExpr cl.2.toExpr r) last.toExpr) ↔ AllArgs P cs last := by
  unfold AllArgs
  induction cs with
  | nil => simp
  | cons c cs ih =>
    rw [List.foldr_cons, hP, ih]
    simp only [List.mem_cons, forall_eq_or_imp]
    constructor
    · rintro ⟨h1, h2, h3, h4⟩; exact ⟨⟨⟨h1, h2⟩, h3⟩, h4⟩
    · rintro ⟨⟨⟨h1, h2⟩, h3⟩, h4⟩; exact ⟨h1, h2, h3, h4⟩

/-- C26. An expression made by `cond` is defined exactly where all its conditions and
all its values are: clauses not chosen at a cell count as well. -/
theorem _root_.SpatialOps.C26_defined_where_all_parts_are (n : IntVec) (first : TestArg V × ValArg V)
    (more : List (TestArg V × ValArg V)) (last : ValArg V) (e : Expr V .num)
    (h : condCall first more last = .expr e) (c : IntVec) :
    e.DefinedAt n c ↔ AllArgs (fun x => x.DefinedAt n c) (first :: more) last := by
  rw [call_expr first more last e h]
  exact all_parts (fun x => x.DefinedAt n c) (fun _ _ _ => Iff.rfl) _ _

/-- C26. `lhs <<= cond(...)(...)(...)`: every stored cell at which all parts are defined
receives the value of the first clause holding there, computed from the old memory, and
nothing else changes. -/
theorem _root_.SpatialOps.C26_assign_cond [Add V] [Mul V] (n : IntVec) (hn : IntVec.Lt 0 n) (l : FieldObj) (b : Nat)
    (ht : Target n l b) (first : TestArg V × ValArg V) (more : List (TestArg V × ValArg V)) (last : ValArg V)
    (e : Expr V .num) (h : condCall first more last = .expr e)
    (hw : AllArgs (fun x => x.Wf n) (first :: more) last)
    (hd : ∀ c, Interior n l c → AllArgs (fun x => x.DefinedAt n c) (first :: more) last)
    (hi : AllArgs (fun x => x.Independent l 0) (first :: more) last) (m : Mem V) :
    ∃ m', assign l e m = .ok m' ∧
      (∀ c, Stored n l c → AllArgs (fun x => x.DefinedAt n c) (first :: more) last →
        m' b (cellAddr l.geo c) = firstHolding m c (first :: more) last) ∧
      ∀ blk a, (blk ≠ b ∨ ∀ c, Stored n l c → AllArgs (fun x => x.DefinedAt n c) (first :: more) last →
        cellAddr l.geo c ≠ a) → m' blk a = m blk a := by
  have hD := C26_defined_where_all_parts_are n first more last e h
  have he := call_expr first more last e h
  have hW : e.Wf n := by
    rw [he]; exact (all_parts (fun x => x.Wf n) (fun _ _ _ => Iff.rfl) _ _).2 hw
  have hI : e.Independent l 0 := by
    rw [he]; exact (all_parts (fun x => x.Independent l 0) (fun _ _ _ => Iff.rfl) _ _).2 hi
  obtain ⟨m', h1, h2, h3⟩ := C22_assign_pointwise n hn l b ht e hW (fun c hc => (hD c).2 (hd c hc)) hI m
  refine ⟨m', h1, fun c hs hc => ?_, fun blk a hb => h3 blk a ?_⟩
  · rw [h2 c ⟨hs, (hD c).2 hc⟩, ← C26_first_clause_wins, h]; rfl
  · rcases hb with hb | hb
    · exact .inl hb
    · exact .inr fun c hc => hb c hc.1 ((hD c).1 hc.2)

/-- Non-vacuity: `cond(false, 7)(mask, a)(b < 3, 2)(b)`, which starts plain and becomes an
expression, meets the hypotheses; and three clauses of which the second wins. -/
example : ∃ (n : IntVec) (l : FieldObj) (b : Nat) (first : TestArg Int × ValArg Int)
    (more : List (TestArg Int × ValArg Int)) (last : ValArg Int) (e : Expr Int .num),
    IntVec.Lt 0 n ∧ Target n l b ∧ condCall first more last = .expr e ∧
    AllArgs (fun x => x.Wf n) (first :: more) last ∧
    (∀ c, Interior n l c → AllArgs (fun x => x.DefinedAt n c) (first :: more) last) ∧
    AllArgs (fun x => x.Independent l 0) (first :: more) last := by
  refine ⟨⟨4, 3, 1⟩, NeboEx.fld false 0, 0, (.plain false, .plain 7),
    [(.expr (.mask NeboEx.msk), .expr (.field (NeboEx.fld false 1))),
     (.expr (.bin (s := .num) (t := .bool) (fun x y : Int => decide (x < y)) (.field (NeboEx.fld true 2))
       (.scalar (t := .num) 3)), .plain 2)],
    .expr (.field (NeboEx.fld true 2)), _, by decide, NeboEx.target false 0, rfl, ?_, ?_, ?_⟩
  · refine ⟨?_, NeboEx.onMesh true, by decide⟩
    intro cl hcl
    simp only [List.mem_cons, List.not_mem_nil, or_false] at hcl
    rcases hcl with rfl | rfl | rfl
    · exact ⟨trivial, trivial⟩
    · exact ⟨⟨NeboEx.onMesh false, by decide⟩, NeboEx.onMesh false, by decide⟩
    · exact ⟨⟨⟨NeboEx.onMesh true, by decide⟩, trivial⟩, trivial⟩
  · intro c hc
    have hh := hasCell_iff (NeboEx.onMesh false)
    have ht := hasCell_iff (NeboEx.onMesh true)
    have e1 : (NeboEx.geo false).validGhosts.minus = ⟨1, 1, 0⟩ := rfl
    have e2 : (NeboEx.geo false).validGhosts.plus + (NeboEx.geo false).bc.hasExtra = ⟨1, 1, 0⟩ := by decide
    have e3 : (NeboEx.geo true).validGhosts.minus = ⟨1, 1, 0⟩ := rfl
    have e4 : (NeboEx.geo true).validGhosts.plus + (NeboEx.geo true).bc.hasExtra = ⟨2, 1, 0⟩ := by decide
    have e5 : (NeboEx.fld false 0).geo.bc.hasExtra = 0 := by decide
    rw [e1, e2] at hh
    rw [e3, e4] at ht
    unfold InBox at hh ht
    unfold Interior at hc
    rw [e5] at hc
    have s : IntVec.Le (-⟨ghostMax, ghostMax, ghostMax⟩) c ∧
        IntVec.Lt c (⟨4, 3, 1⟩ + ⟨ghostMax, ghostMax, ghostMax⟩) := by
      simp only [ghostMax]; iv_omega
    refine ⟨?_, (ht c).2 (by iv_omega)⟩
    intro cl hcl
    simp only [List.mem_cons, List.not_mem_nil, or_false] at hcl
    rcases hcl with rfl | rfl | rfl
    · exact ⟨s, s⟩
    · exact ⟨(hh c).2 (by iv_omega), (hh c).2 (by iv_omega)⟩
    · exact ⟨⟨(ht c).2 (by iv_omega), s⟩, s⟩
  · refine ⟨?_, .inl (by decide)⟩
    intro cl hcl
    simp only [List.mem_cons, List.not_mem_nil, or_false] at hcl
    rcases hcl with rfl | rfl | rfl
    · exact ⟨trivial, trivial⟩
    · exact ⟨trivial, .inl (by decide)⟩
    · exact ⟨⟨.inl (by decide), trivial⟩, trivial⟩

example : condCall (V := Int) (.plain false, .plain 1) [(.plain true, .plain 2), (.plain true, .plain 3)] (.plain 4)
    = .value 2 := rfl

end Nebo
end SpatialOps
