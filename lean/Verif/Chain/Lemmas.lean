import Verif.Chain.Spec
import Verif.Nebo.Props

/-!
# Lemmas about replacing intermediate fields by expressions
-/

namespace SpatialOps
open Nebo
namespace Chain

variable {V : Type}

theorem Pts.sum_congr [Add V] {α : Type} {f g : α → V} : ∀ (pts : Pts α), (∀ q ∈ pts.toList, f q = g q) → pts.sum f = pts.sum g
  | .one a, h => h a (by simp [Pts.toList])
  | .more e a, h => by
    simp only [Pts.sum]
    rw [Pts.sum_congr e fun q hq => h q (by simp [Pts.toList, hq]), h a (by simp [Pts.toList])]

/-- The value of an expression after `t <<= e` is that of the expression with `e` for `t` before it. -/
theorem value_subst [Add V] [Mul V] {n : IntVec} {t : FieldObj} {b : Nat} {e : Expr V .num} {m m1 : Mem V} (hb : t.values = some b)
    (hs : ∀ c, HasCell t.geo c → Stored n t c)
    (ha : Assigned t b e (fun c => Stored n t c ∧ e.DefinedAt n c) m m1) :
    ∀ {s : Ty} (F : Expr V s) (c : IntVec), F.Wf n → F.UsedAs t → F.DefinedAt n c → (F.subst b e).DefinedAt n c →
      F.value m1 c = (F.subst b e).value m c := by
  have other : ∀ (f : FieldObj) (a : Int), f.values ≠ none → f.values ≠ some b → m1 (f.values.getD 0) a = m (f.values.getD 0) a := by
    intro f a h1 h2
    cases hv : f.values with
    | none => exact absurd hv h1
    | some v =>
      refine ha.2 _ _ (.inl ?_)
      rw [hv] at h2
      simpa using h2
  intro s F
  induction F with
  | scalar v => intros; rfl
  | field f =>
    intro c hw hu hd hd'
    by_cases hf : f.values = some b
    · have hg : f.geo = t.geo := hu (hf.trans hb.symm)
      simp only [Expr.subst, hf, if_true] at hd' ⊢
      simp only [Expr.DefinedAt] at hd
      rw [hg] at hd
      have := ha.1 c ⟨hs c hd, hd'⟩
      simp only [Expr.value, hf, hg, Option.getD_some]
      exact this
    · simp only [Expr.subst, hf, if_false]
      exact other f _ hw.2 hf
  | single f =>
    intro c hw hu hd hd'
    exact other f 0 hw.1 fun h => hu (h.trans hb.symm)
  | mask k => intros; rfl
  | maskShift p a ih => intro c hw hu hd hd'; exact ih _ hw hu hd.2 hd'.2
  | un op a ih => intro c hw hu hd hd'; simp only [Expr.value, Expr.subst]; rw [ih _ hw hu hd hd']
  | bin op a a' ih ih' =>
    intro c hw hu hd hd'
    simp only [Expr.value, Expr.subst]; rw [ih _ hw.1 hu.1 hd.1 hd'.1, ih' _ hw.2 hu.2 hd.2 hd'.2]
  | and a a' ih ih' =>
    intro c hw hu hd hd'
    simp only [Expr.value, Expr.subst]; rw [ih _ hw.1 hu.1 hd.1 hd'.1, ih' _ hw.2 hu.2 hd.2 hd'.2]
  | or a a' ih ih' =>
    intro c hw hu hd hd'
    simp only [Expr.value, Expr.subst]; rw [ih _ hw.1 hu.1 hd.1 hd'.1, ih' _ hw.2 hu.2 hd.2 hd'.2]
  | cond x a a' ihx ih ih' =>
    intro c hw hu hd hd'
    simp only [Expr.value, Expr.subst]
    rw [ihx _ hw.1 hu.1 hd.1 hd'.1, ih _ hw.2.1 hu.2.1 hd.2.1 hd'.2.1, ih' _ hw.2.2 hu.2.2 hd.2.2 hd'.2.2]
  | stencil pts a ih =>
    intro c hw hu hd hd'
    simp only [Expr.value, Expr.subst]
    refine Pts.sum_congr pts fun q hq => ?_
    have := ih (c + q.1) hw hu (hd q hq).2 (hd' q hq).2
    rw [this]
  | sumStencil pts a ih =>
    intro c hw hu hd hd'
    simp only [Expr.value, Expr.subst]
    refine Pts.sum_congr pts fun q hq => ?_
    have := ih (c + q) hw hu (hd q hq).2 (hd' q hq).2
    rw [this]

theorem usedAs_subst {t : FieldObj} {b : Nat} {e : Expr V .num} (he : e.UsedAs t) :
    ∀ {s : Ty} (F : Expr V s), F.UsedAs t → (F.subst b e).UsedAs t := by
  intro s F
  induction F with
  | scalar v => intro _; trivial
  | field f =>
    intro h
    simp only [Expr.subst]
    split
    · exact he
    · exact h
  | single f => intro h; exact h
  | mask k => intro _; trivial
  | maskShift p a ih => exact ih
  | un op a ih => exact ih
  | bin op a a' ih ih' => exact fun h => ⟨ih h.1, ih' h.2⟩
  | and a a' ih ih' => exact fun h => ⟨ih h.1, ih' h.2⟩
  | or a a' ih ih' => exact fun h => ⟨ih h.1, ih' h.2⟩
  | cond x a a' ihx ih ih' => exact fun h => ⟨ihx h.1, ih h.2.1, ih' h.2.2⟩
  | stencil pts a ih => exact ih
  | sumStencil pts a ih => exact ih

theorem wf_subst {n : IntVec} {b : Nat} {e : Expr V .num} (he : e.Wf n) :
    ∀ {s : Ty} (F : Expr V s), F.Wf n → (F.subst b e).Wf n := by
  intro s F
  induction F with
  | scalar v => intro _; trivial
  | field f =>
    intro h
    simp only [Expr.subst]
    split
    · exact he
    · exact h
  | single f => intro h; exact h
  | mask k => intro h; exact h
  | maskShift p a ih => exact ih
  | un op a ih => exact ih
  | bin op a a' ih ih' => exact fun h => ⟨ih h.1, ih' h.2⟩
  | and a a' ih ih' => exact fun h => ⟨ih h.1, ih' h.2⟩
  | or a a' ih ih' => exact fun h => ⟨ih h.1, ih' h.2⟩
  | cond x a a' ihx ih ih' => exact fun h => ⟨ihx h.1, ih h.2.1, ih' h.2.2⟩
  | stencil pts a ih => exact ih
  | sumStencil pts a ih => exact ih

theorem usedAs_composed {t : FieldObj} {F : Expr V .num} (hF : F.UsedAs t) :
    ∀ (prog : List (Stmt V)), (∀ s ∈ prog, s.e.UsedAs t) → (composed prog F).UsedAs t
  | [], _ => hF
  | s :: rest, h => usedAs_subst (h s (by simp)) _ (usedAs_composed hF rest fun s' hs => h s' (by simp [hs]))

theorem wf_composed {n : IntVec} {F : Expr V .num} (hF : F.Wf n) :
    ∀ (prog : List (Stmt V)), Steps n F prog → (composed prog F).Wf n
  | [], _ => hF
  | _ :: rest, h => wf_subst h.2.2.1 _ (wf_composed hF rest h.2.2.2.2.2.2.2)

theorem _root_.SpatialOps.Nebo.DefinedThrough.head {n : IntVec} {F : Expr V .num} {c : IntVec} :
    ∀ {prog : List (Stmt V)}, DefinedThrough n F c prog → (composed prog F).DefinedAt n c
  | [], h => h
  | _ :: _, h => h.1

theorem _root_.SpatialOps.Nebo.DefinedThrough.last {n : IntVec} {F : Expr V .num} {c : IntVec} {prog : List (Stmt V)}
    (h : DefinedThrough n F c prog) : F.DefinedAt n c := by
  induction prog with
  | nil => exact h
  | cons _ _ ih => exact ih h.2

end Chain
end SpatialOps
