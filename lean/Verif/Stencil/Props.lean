import Verif.Stencil.Spec
import Verif.Nebo.Props
import Verif.OpDb.Props
import Mathlib.Tactic.Ring
import Mathlib.Tactic.FieldSimp
import Mathlib.Tactic.NormNum
import Mathlib.Tactic.LinearCombination
import Mathlib.Algebra.Field.Basic
import Mathlib.Algebra.CharZero.Defs
import Mathlib.Data.Rat.Cast.CharZero

namespace SpatialOps
namespace Stencil

open Nebo

/-! ## Moments -/

section
variable {K : Type} [Field K]

/-- Map over a collection. -/
def pmap {α β : Type} (f : α → β) : Pts α → Pts β
  | .one a => .one (f a)
  | .more e a => .more (pmap f e) (f a)

theorem sum_pmap {α β V : Type} [Add V] (g : β → V) (f : α → β) (p : Pts α) :
    (pmap f p).sum g = p.sum fun a => g (f a) := by
  induction p with
  | one a => rfl
  | more e a ih => simp only [pmap, Pts.sum, ih]

theorem sum_congr {α V : Type} [Add V] {g g' : α → V} (p : Pts α) (hg : ∀ a ∈ p.toList, g a = g' a) :
    p.sum g = p.sum g' := by
  induction p with
  | one a => exact hg a (by simp [Pts.toList])
  | more e a ih =>
    simp only [Pts.sum]
    rw [ih fun b hb => hg b (by simp [Pts.toList, hb]), hg a (by simp [Pts.toList])]

theorem sum_mul {α : Type} (g : α → K) (k : K) (p : Pts α) : p.sum (fun a => g a * k) = p.sum g * k := by
  induction p with
  | one a => rfl
  | more e a ih => simp only [Pts.sum, ih]; ring

theorem sum_add {α : Type} (g g' : α → K) (p : Pts α) :
    p.sum (fun a => g a + g' a) = p.sum g + p.sum g' := by
  induction p with
  | one a => rfl
  | more e a ih => simp only [Pts.sum, ih]; ring

theorem sum_cast {α : Type} (g : α → Int) (p : Pts α) :
    p.sum (fun a => ((g a : Int) : K)) = ((p.sum g : Int) : K) := by
  induction p with
  | one a => rfl
  | more e a ih => simp only [Pts.sum, ih]; push_cast; ring

theorem mem_pmap {α β : Type} (f : α → β) (p : Pts α) (b : β) :
    b ∈ (pmap f p).toList ↔ ∃ a ∈ p.toList, f a = b := by
  induction p with
  | one a => simp [pmap, Pts.toList, eq_comm]
  | more e a ih => simp only [pmap, Pts.toList, List.mem_append, ih, List.mem_singleton]; aesop

/-- Total weight. -/
def m0 (w : Pts (IntVec × Int)) : Int := w.sum fun q => q.2
/-- Weighted sum of the point components. -/
def m1 (w : Pts (IntVec × Int)) (d : Dir) : Int := w.sum fun q => comp q.1 d * q.2

theorem position_add (h : Dir → K) (f : FieldType) (c p : IntVec) (d : Dir) :
    position h f (c + p) d = position h f c d + h d * (comp p d : K) := by
  unfold position
  have e : comp (c + p) d = comp c d + comp p d := by cases d <;> rfl
  rw [e]; push_cast
  split <;> ring

theorem affine_add (h : Dir → K) (f : FieldType) (a0 : K) (a : Dir → K) (c p : IntVec) :
    affine a0 a (position h f (c + p)) = affine a0 a (position h f c) +
      (a .x * h .x * (comp p .x : K) + a .y * h .y * (comp p .y : K) + a .z * h .z * (comp p .z : K)) := by
  unfold affine
  rw [position_add, position_add, position_add]; ring

/-- The weighted sum over the stencil points of an affine function. -/
theorem weighted (h : Dir → K) (f : FieldType) (a0 : K) (a : Dir → K) (c : IntVec) (w : Pts (IntVec × Int)) :
    w.sum (fun q => affine a0 a (position h f (c + q.1)) * (q.2 : K)) =
      affine a0 a (position h f c) * (m0 w : K) +
      (a .x * h .x * (m1 w .x : K) + a .y * h .y * (m1 w .y : K) + a .z * h .z * (m1 w .z : K)) := by
  unfold m0 m1
  rw [← sum_cast, ← sum_cast, ← sum_cast, ← sum_cast]
  induction w with
  | one q => simp only [Pts.sum, affine_add]; push_cast; ring
  | more e q ih =>
    simp only [Pts.sum]
    rw [ih, affine_add]
    push_cast
    ring

/-- The integer weights, denominator and scaling direction of an operator. -/
def weights (t : OpType) (c : Coef) : Option (Pts (IntVec × Int) × Nat × Option Dir) :=
  match t, c with
  | .coefs _ pts _ _, .half => (pair pts (coef2 1 1)).map fun w => (w, 2, none)
  | .coefs _ pts _ _, .per d => (pair pts (coef2 (-1) 1)).map fun w => (w, 1, some d)
  | .coefs _ pts _ _, .quarter => (pair pts (coef4 1 1 1 1)).map fun w => (w, 4, none)
  | .coefs _ pts _ _, .halfPer d => (pair pts (coef2 (-1) 1)).map fun w => (w, 2, some d)
  | .sum pts _ _, .absent => some (pmap (fun p => (p, 1)) pts, 1, none)
  | .average pts _ _, .absent => some (pmap (fun p => (p, 1)) pts, len pts, none)
  | _, _ => none

/-- The factor common to all coefficients. -/
def factor (h : Dir → K) (den : Nat) : Option Dir → K
  | none => 1 / (den : K)
  | some d => 1 / (den : K) / h d

omit [Field K] in
theorem pair_pmap (f : Int → K) (ps : Pts IntVec) (cs : Pts Int) :
    pair ps (pmap f cs) = (pair ps cs).map (pmap fun q => (q.1, f q.2)) := by
  induction ps generalizing cs with
  | one p => cases cs <;> rfl
  | more e p ih =>
    cases cs with
    | one c => rfl
    | more cs c =>
      simp only [pmap, pair, ih]
      cases pair e cs <;> rfl

omit [Field K] in
theorem defined_of_pmap {n : IntVec} {arg : Expr K .num} {f : Int → K} {w : Pts (IntVec × Int)} {c : IntVec}
    (h : (Expr.stencil (pmap (fun q => (q.1, f q.2)) w) arg).DefinedAt n c) :
    ∀ q ∈ w.toList, arg.DefinedAt n (c + q.1) := by
  intro q hq
  exact (h (q.1, f q.2) ((mem_pmap _ _ _).2 ⟨q, hq, rfl⟩)).2

/-- The value of an operator at a cell is the weighted sum of its argument's values. -/
theorem apply_value (h : Dir → K) (t : OpType) (cf : Coef) (arg : Expr K .num) (w : Pts (IntVec × Int))
    (den : Nat) (s : Option Dir) (hw : weights t cf = some (w, den, s)) :
    ∃ e, t.apply (cf.build h) arg = some e ∧ ∀ (n : IntVec) (m : Mem K) (c : IntVec),
      (e.DefinedAt n c → ∀ q ∈ w.toList, arg.DefinedAt n (c + q.1)) ∧
      e.value m c = (w.sum fun q => (arg.value m (c + q.1) : K) * (q.2 : K)) * factor h den s := by
  have key : ∀ (o : Tag) (pts : Pts IntVec) (sr de : FieldType) (cs : Pts Int) (cs' : Pts K) (f : Int → K)
      (den : Nat) (s : Option Dir), cs' = pmap f cs → (∀ k : Int, f k = (k : K) * factor h den s) →
      ∀ w, pair pts cs = some w →
      ∃ e, (OpType.coefs o pts sr de).apply (some cs') arg = some e ∧ ∀ (n : IntVec) (m : Mem K) (c : IntVec),
      (e.DefinedAt n c → ∀ q ∈ w.toList, arg.DefinedAt n (c + q.1)) ∧
      e.value m c = (w.sum fun q => (arg.value m (c + q.1) : K) * (q.2 : K)) * factor h den s := by
    intro o pts sr de cs cs' f den s hcs hf w hp
    refine ⟨.stencil (pmap (fun q => (q.1, f q.2)) w) arg, ?_, ?_⟩
    · simp only [OpType.apply, hcs, pair_pmap, hp, Option.map_some]
    · intro n m c
      refine ⟨defined_of_pmap, ?_⟩
      simp only [Expr.value]
      rw [sum_pmap, ← sum_mul]
      apply sum_congr
      intro q _
      rw [hf]; ring
  cases t with
  | coefs o pts sr de =>
    cases cf with
    | half =>
      simp only [weights] at hw
      cases hp : pair pts (coef2 1 1 : Pts Int) with
      | none => rw [hp] at hw; simp at hw
      | some w' =>
        rw [hp] at hw; simp only [Option.map_some, Option.some.injEq, Prod.mk.injEq] at hw
        obtain ⟨rfl, rfl, rfl⟩ := hw
        exact key o pts sr de _ _ (fun k => (k : K) * factor h 2 none) 2 none
          (by simp [coef2, coef1, addCoef, pmap, factor]) (fun _ => rfl) _ hp
    | per d =>
      simp only [weights] at hw
      cases hp : pair pts (coef2 (-1) 1 : Pts Int) with
      | none => rw [hp] at hw; simp at hw
      | some w' =>
        rw [hp] at hw; simp only [Option.map_some, Option.some.injEq, Prod.mk.injEq] at hw
        obtain ⟨rfl, rfl, rfl⟩ := hw
        exact key o pts sr de _ _ (fun k => (k : K) * factor h 1 (some d)) 1 (some d)
          (by simp [coef2, coef1, addCoef, pmap, factor]; ring) (fun _ => rfl) _ hp
    | quarter =>
      simp only [weights] at hw
      cases hp : pair pts (coef4 1 1 1 1 : Pts Int) with
      | none => rw [hp] at hw; simp at hw
      | some w' =>
        rw [hp] at hw; simp only [Option.map_some, Option.some.injEq, Prod.mk.injEq] at hw
        obtain ⟨rfl, rfl, rfl⟩ := hw
        exact key o pts sr de _ _ (fun k => (k : K) * factor h 4 none) 4 none
          (by simp [coef4, coef1, addCoef, pmap, factor]) (fun _ => rfl) _ hp
    | halfPer d =>
      simp only [weights] at hw
      cases hp : pair pts (coef2 (-1) 1 : Pts Int) with
      | none => rw [hp] at hw; simp at hw
      | some w' =>
        rw [hp] at hw; simp only [Option.map_some, Option.some.injEq, Prod.mk.injEq] at hw
        obtain ⟨rfl, rfl, rfl⟩ := hw
        exact key o pts sr de _ _ (fun k => (k : K) * factor h 2 (some d)) 2 (some d)
          (by simp [coef2, coef1, addCoef, pmap, factor]; ring) (fun _ => rfl) _ hp
    | absent => simp [weights] at hw
  | sum pts sr de =>
    cases cf with
    | absent =>
      simp only [weights, Option.some.injEq, Prod.mk.injEq] at hw
      obtain ⟨rfl, rfl, rfl⟩ := hw
      refine ⟨.sumStencil pts arg, rfl, ?_⟩
      intro n m c
      refine ⟨?_, ?_⟩
      · intro hd q hq
        obtain ⟨p, hp, rfl⟩ := (mem_pmap _ _ _).1 hq
        exact (hd p hp).2
      · simp only [Expr.value, factor]
        rw [sum_pmap]; simp
    | _ => simp [weights] at hw
  | average pts sr de =>
    cases cf with
    | absent =>
      simp only [weights, Option.some.injEq, Prod.mk.injEq] at hw
      obtain ⟨rfl, rfl, rfl⟩ := hw
      refine ⟨_, rfl, ?_⟩
      intro n m c
      refine ⟨?_, ?_⟩
      · intro hd q hq
        obtain ⟨p, hp, rfl⟩ := (mem_pmap _ _ _).1 hq
        exact (hd.1 p hp).2
      · simp only [Expr.value, factor]
        rw [sum_pmap]; simp
    | _ => simp [weights] at hw

/-! ## The table -/

/-- The moments of an interpolating operator. -/
def interpOk (src dest : FieldType) (w : Pts (IntVec × Int)) (den : Nat) (s : Option Dir) : Bool :=
  s == none && den != 0 && m0 w == den &&
    [Dir.x, .y, .z].all fun d => 2 * m1 w d == den * (indexStagger dest d - indexStagger src d)

/-- The moments of a differentiating operator. -/
def diffOk (d : Dir) (w : Pts (IntVec × Int)) (den : Nat) (s : Option Dir) : Bool :=
  s == some d && den != 0 && m0 w == 0 &&
    [Dir.x, .y, .z].all fun e => m1 w e == if e = d then (den : Int) else 0

/-- Only direction `d` differs. -/
def onlyDir (src dest : FieldType) (d : Dir) : Bool :=
  [Dir.x, .y, .z].all fun e => (staggered src e != staggered dest e) == (e == d)

/-- The check of one registration. -/
def regOk (r : Reg) : Bool :=
  match operatorType r.op r.src r.dest with
  | none => false
  | some t => match weights t r.coef with
    | none => false
    | some (w, den, s) => match r.op with
      | .interpolant | .filter | .interpolantD _ => interpOk r.src r.dest w den s
      | .gradient | .divergence =>
        [Dir.x, .y, .z].any fun d => onlyDir r.src r.dest d && diffOk d w den s
      | .gradientD d => diffOk d w den s

theorem all_ok : registrations.all regOk = true := by decide +kernel

theorem all_dirs {P : Dir → Bool} (h : [Dir.x, .y, .z].all P = true) (d : Dir) : P d = true := by
  rw [List.all_eq_true] at h
  cases d <;> exact h _ (by simp)

theorem stagger_eq (f : FieldType) (d : Dir) : indexStagger f d = if staggered f d then -1 else 0 := by
  cases f <;> cases d <;> rfl

variable [CharZero K]

theorem position_stagger (h : Dir → K) (f : FieldType) (c : IntVec) (d : Dir) :
    position h f c d = h d * ((comp c d : K) + (1 + (indexStagger f d : K)) / 2) := by
  rw [stagger_eq]
  unfold position
  split <;> push_cast <;> ring

theorem interp_exact {src dest : FieldType} {w : Pts (IntVec × Int)} {den : Nat} {s : Option Dir}
    (hok : interpOk src dest w den s = true) (h : Dir → K) (a0 : K) (a : Dir → K) (c : IntVec) :
    (w.sum fun q => affine a0 a (position h src (c + q.1)) * (q.2 : K)) * factor h den s =
      affine a0 a (position h dest c) := by
  unfold interpOk at hok
  simp only [Bool.and_eq_true, beq_iff_eq, bne_iff_ne] at hok
  obtain ⟨⟨⟨rfl, h2⟩, h3⟩, h4⟩ := hok
  have h5 := fun d => all_dirs h4 d
  have hden : (den : K) ≠ 0 := Nat.cast_ne_zero.2 h2
  have h6 : ∀ d, (2 : K) * (m1 w d : K) = den * ((indexStagger dest d : K) - (indexStagger src d : K)) := by
    intro d
    have := eq_of_beq (h5 d)
    have := congrArg (Int.cast : Int → K) this
    push_cast at this
    exact this
  have h7 : (m0 w : K) = den := by rw [h3]; push_cast; rfl
  have h8 : ∀ d, (m1 w d : K) = den * ((indexStagger dest d : K) - (indexStagger src d : K)) / 2 := by
    intro d; rw [← h6 d]; field_simp
  rw [weighted, h7, h8, h8, h8]
  unfold factor affine
  simp only [position_stagger]
  field_simp
  ring

theorem diff_exact {src : FieldType} {d : Dir} {w : Pts (IntVec × Int)} {den : Nat} {s : Option Dir}
    (hok : diffOk d w den s = true) (h : Dir → K) (hh : h d ≠ 0) (a0 : K) (a : Dir → K) (c : IntVec) :
    (w.sum fun q => affine a0 a (position h src (c + q.1)) * (q.2 : K)) * factor h den s = a d := by
  unfold diffOk at hok
  simp only [Bool.and_eq_true, beq_iff_eq, bne_iff_ne] at hok
  obtain ⟨⟨⟨rfl, h2⟩, h3⟩, h4⟩ := hok
  have h5 := fun d => all_dirs h4 d
  have hden : (den : K) ≠ 0 := Nat.cast_ne_zero.2 h2
  have h6 : ∀ e, (m1 w e : K) = if e = d then (den : K) else 0 := by
    intro e
    have := eq_of_beq (h5 e)
    rw [this]
    split <;> push_cast <;> rfl
  rw [weighted, h3, h6, h6, h6]
  unfold factor
  cases d <;> simp <;> field_simp

/-- C29. For every operator type registered by `build_stencils`, applied to any expression whose
values are those of an affine function at the source field's coordinates, at every cell where the
result is defined: interpolants and filters give the function at the destination's coordinate,
gradients and divergences its derivative. -/
theorem _root_.SpatialOps.C29_exact_on_affine_functions (r : Reg) (hr : r ∈ registrations) (h : Dir → K)
    (hh : ∀ d, h d ≠ 0) (arg : Expr K .num) (n : IntVec) (m : Mem K) (a0 : K) (a : Dir → K)
    (harg : ∀ c, arg.DefinedAt n c → arg.value m c = affine a0 a (position h r.src c)) :
    ∃ e, r.apply h arg = some e ∧ ∀ c, e.DefinedAt n c → Exact h a0 a r c (e.value m c) := by
  have hok := List.all_eq_true.1 all_ok r hr
  unfold regOk at hok
  cases ht : operatorType r.op r.src r.dest with
  | none => rw [ht] at hok; simp at hok
  | some t =>
    rw [ht] at hok
    dsimp only at hok
    cases hw : weights t r.coef with
    | none => rw [hw] at hok; simp at hok
    | some wds =>
      obtain ⟨w, den, s⟩ := wds
      rw [hw] at hok
      dsimp only at hok
      obtain ⟨e, he, hv⟩ := apply_value h t r.coef arg w den s hw
      refine ⟨e, by unfold Reg.apply; rw [ht]; exact he, ?_⟩
      intro c hc
      obtain ⟨v1, v2⟩ := hv n m c
      have hsum : e.value m c =
          (w.sum fun q => affine a0 a (position h r.src (c + q.1)) * (q.2 : K)) * factor h den s := by
        rw [v2]
        congr 1
        apply sum_congr
        intro q hq
        rw [harg _ (v1 hc q hq)]
      have hdiff : ([Dir.x, .y, .z].any fun d => onlyDir r.src r.dest d && diffOk d w den s) = true →
          ∃ d, OnlyDirection r.src r.dest d ∧ e.value m c = a d := by
        intro hany
        obtain ⟨d, -, hd⟩ := List.any_eq_true.1 hany
        rw [Bool.and_eq_true] at hd
        refine ⟨d, ?_, by rw [hsum]; exact diff_exact hd.2 h (hh d) a0 a c⟩
        intro d'
        have := all_dirs hd.1 d'
        generalize staggered r.src d' = b1 at *
        generalize staggered r.dest d' = b2 at *
        cases b1 <;> cases b2 <;> simp_all
      unfold Exact
      cases hop : r.op <;> rw [hop] at hok <;> dsimp only at hok ⊢
      · rw [hsum]; exact interp_exact hok h a0 a c
      · exact hdiff hok
      · exact hdiff hok
      · rw [hsum]; exact interp_exact hok h a0 a c
      · rw [hsum]; exact interp_exact hok h a0 a c
      · rw [hsum]; exact diff_exact hok h (hh _) a0 a c

omit [Field K] [CharZero K] in
theorem apply_wf {V : Type} [NatCast V] [One V] [Neg V] [Mul V] [Div V] {n : IntVec} {t : OpType} {cs : Option (Pts V)} {arg e : Expr V .num}
    (h : t.apply cs arg = some e) (ha : arg.Wf n) : e.Wf n := by
  unfold OpType.apply at h
  split at h
  · cases hp : pair _ _ with
    | none => rw [hp] at h; simp at h
    | some w => rw [hp] at h; simp only [Option.map_some, Option.some.injEq] at h; subst h; exact ha
  · simp only [Option.some.injEq] at h; subst h; exact ha
  · simp only [Option.some.injEq] at h; subst h; exact ⟨ha, trivial⟩
  · simp at h

omit [Field K] [CharZero K] in
theorem apply_independent {V : Type} [NatCast V] [One V] [Neg V] [Mul V] [Div V] {l : FieldObj} {t : OpType} {cs : Option (Pts V)} {arg e : Expr V .num}
    (h : t.apply cs arg = some e) (ha : ∀ s, arg.Independent l s) (s : IntVec) : e.Independent l s := by
  unfold OpType.apply at h
  split at h
  · cases hp : pair _ _ with
    | none => rw [hp] at h; simp at h
    | some w =>
      rw [hp] at h; simp only [Option.map_some, Option.some.injEq] at h; subst h
      exact fun q _ => ha _
  · simp only [Option.some.injEq] at h; subst h; exact fun q _ => ha _
  · simp only [Option.some.injEq] at h; subst h; exact ⟨fun q _ => ha _, trivial⟩
  · simp at h

/-- All stencil points are at most one cell away. -/
def near (p : IntVec) : Bool := decide (IntVec.Le ⟨-1, -1, -1⟩ p ∧ IntVec.Le p ⟨1, 1, 1⟩)

/-- The points of an operator type. -/
def OpType.points : OpType → Pts IntVec
  | .coefs _ p _ _ | .sum p _ _ | .average p _ _ => p

theorem all_near : registrations.all (fun r => match r.type with
    | none => false
    | some t => t.points.toList.all near) = true := by decide +kernel

omit [Field K] in
theorem pair_points {ps : Pts IntVec} {cs : Pts K} {w : Pts (IntVec × K)} (h : pair ps cs = some w) :
    ∀ q ∈ w.toList, q.1 ∈ ps.toList := by
  induction ps generalizing cs w with
  | one p =>
    cases cs with
    | one c => simp only [pair, Option.some.injEq] at h; subst h; simp [Pts.toList]
    | more cs c => simp [pair] at h
  | more e p ih =>
    cases cs with
    | one c => simp [pair] at h
    | more cs c =>
      simp only [pair] at h
      cases hp : pair e cs with
      | none => rw [hp] at h; simp at h
      | some w' =>
        rw [hp] at h; simp only [Option.map_some, Option.some.injEq] at h; subst h
        intro q hq
        simp only [Pts.toList, List.mem_append, List.mem_singleton] at hq ⊢
        rcases hq with hq | rfl
        · exact .inl (ih hp q hq)
        · exact .inr rfl

omit [Field K] [CharZero K] in
theorem apply_defined {V : Type} [NatCast V] [One V] [Neg V] [Mul V] [Div V] {n : IntVec} {t : OpType} {cs : Option (Pts V)} {arg e : Expr V .num}
    (h : t.apply cs arg = some e) {c : IntVec} (h0 : arg.DefinedAt n c)
    (ha : ∀ p ∈ t.points.toList, arg.DefinedAt n (c + p))
    (hc : IntVec.Le (-⟨ghostMax, ghostMax, ghostMax⟩) c ∧ IntVec.Lt c (n + ⟨ghostMax, ghostMax, ghostMax⟩)) : e.DefinedAt n c := by
  unfold OpType.apply at h
  split at h
  · rename_i pts _ _ cs'
    cases hp : pair pts cs' with
    | none => rw [hp] at h; simp at h
    | some w =>
      rw [hp] at h; simp only [Option.map_some, Option.some.injEq] at h; subst h
      exact fun q hq => ⟨h0, ha _ (pair_points hp q hq)⟩
  · simp only [Option.some.injEq] at h; subst h; exact fun q hq => ⟨h0, ha _ hq⟩
  · simp only [Option.some.injEq] at h; subst h; exact ⟨fun q hq => ⟨h0, ha _ hq⟩, hc⟩
  · simp at h

/-- C29. `op.apply_to_field(src, dest)` with a registered operator: if the source, which shares no
memory with the destination, holds an affine function at its interior and valid ghost cells, and has
cells at the operator's points around every interior cell of the destination, the assignment succeeds, the destination's
interior holds the function (or derivative) exactly, and so do its ghost cells wherever the source
has the cells needed; nothing else changes. -/
theorem _root_.SpatialOps.C29_apply_to_field (r : Reg) (hr : r ∈ registrations) (h : Dir → K)
    (hh : ∀ d, h d ≠ 0) (n : IntVec) (hn : IntVec.Lt 0 n) (l : FieldObj) (b : Nat) (ht : Target n l b)
    (hx : IntVec.Le l.geo.bc.hasExtra ⟨1, 1, 1⟩) (s : FieldObj) (hs : OnMesh n s.geo) (hv : s.values ≠ none)
    (hne : s.values ≠ l.values) (m : Mem K) (a0 : K) (a : Dir → K)
    (hsrc : ∀ c, HasCell s.geo c →
      m (s.values.getD 0) (cellAddr s.geo c) = affine a0 a (position h r.src c))
    (hroom : ∀ c, Interior n l c → HasCell s.geo c ∧
      ∀ t, r.type = some t → ∀ p ∈ t.points.toList, HasCell s.geo (c + p)) :
    ∃ e m', r.apply h (.field s) = some e ∧ assign l e m = .ok m' ∧
      (∀ c, Interior n l c → Exact h a0 a r c (m' b (cellAddr l.geo c))) ∧
      (∀ c, Stored n l c → e.DefinedAt n c → Exact h a0 a r c (m' b (cellAddr l.geo c))) ∧
      (∀ blk x, (blk ≠ b ∨ ∀ c, Stored n l c → cellAddr l.geo c ≠ x) → m' blk x = m blk x) := by
  obtain ⟨e, he, hval⟩ := C29_exact_on_affine_functions r hr h hh (.field s) n m a0 a hsrc
  have he' := he
  unfold Reg.apply at he'
  cases htp : operatorType r.op r.src r.dest with
  | none => rw [htp] at he'; simp at he'
  | some t =>
    rw [htp] at he'
    simp only [Option.bind_some] at he'
    have hdef : ∀ c, Interior n l c → e.DefinedAt n c := by
      intro c hc
      refine apply_defined he' (hroom c hc).1 (fun p hp => (hroom c hc).2 t htp p hp) ?_
      · unfold Interior at hc
        unfold ghostMax
        generalize l.geo.bc.hasExtra = ex at *
        iv_omega
    have hind : e.Independent l 0 := apply_independent he' (fun _ => .inl hne) 0
    obtain ⟨m', e1, e2, e3⟩ := C22_assign_pointwise n hn l b ht e (apply_wf he' ⟨hs, hv⟩) hdef hind m
    refine ⟨e, m', he, e1, ?_, ?_, ?_⟩
    · intro c hc
      rw [e2 c ⟨?_, hdef c hc⟩]
      · exact hval c (hdef c hc)
      · have hg := ht.mesh.ghosts
        unfold Interior at hc
        unfold Stored
        unfold GhostData.Valid at hg
        generalize l.geo.bc.hasExtra = ex at *
        iv_omega
    · intro c h1 h2
      rw [e2 c ⟨h1, h2⟩]
      exact hval c h2
    · intro blk x hx
      apply e3
      rcases hx with hx | hx
      · exact .inl hx
      · exact .inr fun c hc => hx c hc.1

/-- Example: the x gradient from scalar volumes to their x faces on a `4x3x1` mesh, for `2 + 3x`,
spacing one half. -/
example : ∃ e m', (Reg.mk .gradient .sVol .sSurfX (.per .x)).apply (fun _ => (1 / 2 : ℚ)) (.field (NeboEx.fld false 1)) =
      some e ∧ assign (NeboEx.fld true 0) e
        (fun _ x => affine 2 (fun d => if d = .x then (3 : ℚ) else 0) (position (fun _ => 1 / 2) .sVol ⟨x % 6 - 1, 0, 0⟩)) =
      .ok m' ∧ ∀ c, Interior ⟨4, 3, 1⟩ (NeboEx.fld true 0) c → m' 0 (cellAddr (NeboEx.geo true) c) = 3 := by
  have hh := hasCell_iff (NeboEx.onMesh false)
  have e1 : (NeboEx.geo false).validGhosts.minus = ⟨1, 1, 0⟩ := rfl
  have e2 : (NeboEx.geo false).validGhosts.plus + (NeboEx.geo false).bc.hasExtra = ⟨1, 1, 0⟩ := by decide
  rw [e1, e2] at hh
  unfold InBox at hh
  obtain ⟨e, m', h1, h2, h3, -⟩ := C29_apply_to_field (K := ℚ) ⟨.gradient, .sVol, .sSurfX, .per .x⟩ (by decide +kernel)
    (fun _ => 1 / 2) (fun _ => by norm_num) ⟨4, 3, 1⟩ (by decide) (NeboEx.fld true 0) 0 (NeboEx.target true 0)
    (by decide) (NeboEx.fld false 1) (NeboEx.onMesh false) (by decide) (by decide)
    (fun _ x => affine 2 (fun d => if d = .x then (3 : ℚ) else 0) (position (fun _ => 1 / 2) .sVol ⟨x % 6 - 1, 0, 0⟩))
    2 (fun d => if d = .x then 3 else 0)
    (by
      intro c hc
      have hc := (hh c).1 hc
      have : cellAddr (NeboEx.geo false) c % 6 - 1 = c.x := by
        have : cellAddr (NeboEx.geo false) c = (1 + c.x) + 6 * (1 + c.y) + 6 * 5 * (0 + c.z) := by
          show fortranPos ⟨6, 5, 1⟩ (⟨1, 1, 0⟩ + c) = _
          simp only [fortranPos, IntVec.add_x, IntVec.add_y, IntVec.add_z]
          ring
        rw [this]
        obtain ⟨⟨a1, -, -⟩, b1, -, -⟩ := hc
        simp only [IntVec.neg_x, IntVec.add_x] at a1 b1
        omega
      show affine _ _ (position _ _ ⟨cellAddr (NeboEx.geo false) c % 6 - 1, 0, 0⟩) = _
      rw [this]
      simp [affine, position, staggered, comp])
    (by
      intro c hc
      have e5 : (NeboEx.fld true 0).geo.bc.hasExtra = ⟨1, 0, 0⟩ := by decide
      unfold Interior at hc
      rw [e5] at hc
      refine ⟨(hh c).2 (by iv_omega), ?_⟩
      intro t ht p hp
      have ht' : t = .coefs .gradient (.more (.one ⟨-1, 0, 0⟩) ⟨0, 0, 0⟩) .sVol .sSurfX := by
        have : (Reg.mk .gradient .sVol .sSurfX (.per .x)).type = some (.coefs .gradient (.more (.one ⟨-1, 0, 0⟩) ⟨0, 0, 0⟩) .sVol .sSurfX) := by
          decide +kernel
        rw [ht] at this; injection this
      subst ht'
      simp only [OpType.points, Pts.toList, List.mem_append, List.mem_singleton] at hp
      rcases hp with rfl | rfl
      · exact (hh _).2 (by iv_omega)
      · exact (hh _).2 (by iv_omega))
  refine ⟨e, m', h1, h2, fun c hc => ?_⟩
  obtain ⟨d, hd, hv⟩ := h3 c hc
  have : d = .x := ((hd .x).1 (by decide)).symm
  subst this
  exact hv

end

/-! ## build_stencils and the database -/

theorem types_some : ∀ r ∈ registrations, r.type ≠ none := by
  have : registrations.all (fun r => r.type.isSome) = true := by decide +kernel
  intro r hr
  have := List.all_eq_true.1 this r hr
  intro h; rw [h] at this; simp at this

theorem types_nodup : (registrations.map Reg.type).Nodup := by decide +kernel

/-- The registrations as type and pointer, from number `k` on. -/
def entries (ptr : Nat → Nat) (k : Nat) (rs : List Reg) : List (Option OpType × Nat) :=
  (rs.zipIdx k).map fun ri => (ri.1.type, ptr ri.2)

theorem since_build (ptr : Nat → Nat) (h : List (OpDb.Call (Option OpType))) :
    OpDb.since (h ++ buildStencils ptr) = OpDb.since h ++ entries ptr 0 registrations := by
  unfold buildStencils
  generalize 0 = k
  have : ∀ (rs : List Reg) (k : Nat) (h : List (OpDb.Call (Option OpType))),
      OpDb.since (h ++ (rs.zipIdx k).map fun ri => .register ri.1.type (ptr ri.2)) =
      OpDb.since h ++ entries ptr k rs := by
    intro rs
    induction rs with
    | nil => intro k h; simp [entries]
    | cons r rs ih =>
      intro k h
      have := ih (k + 1) (h ++ [.register r.type (ptr k)])
      rw [OpDb.since_append] at this
      simp only [List.zipIdx_cons, List.map_cons, entries] at this ⊢
      rw [← List.singleton_append, ← List.append_assoc, this]
      simp
  exact this registrations k h

theorem filter_entries (ptr : Nat → Nat) (rs : List Reg) (k i : Nat) (hi : i < rs.length)
    (hn : (rs.map Reg.type).Nodup) :
    (entries ptr k rs).filter (fun e => e.1 = rs[i].type) = [(rs[i].type, ptr (k + i))] := by
  induction rs generalizing k i with
  | nil => simp at hi
  | cons r rs ih =>
    rw [List.map_cons, List.nodup_cons] at hn
    have hcons : entries ptr k (r :: rs) = (r.type, ptr k) :: entries ptr (k + 1) rs := by
      simp [entries, List.zipIdx_cons]
    rw [hcons]
    cases i with
    | zero =>
      rw [List.filter_cons_of_pos (by simp)]
      have : (entries ptr (k + 1) rs).filter (fun e => e.1 = r.type) = [] := by
        rw [List.filter_eq_nil_iff]
        rintro ⟨t, p⟩ ht heq
        have heq : t = r.type := by simpa using heq
        unfold entries at ht
        obtain ⟨⟨r', j⟩, hj, hj'⟩ := List.mem_map.1 ht
        simp only [Prod.mk.injEq] at hj'
        apply hn.1
        rw [← heq, ← hj'.1]
        exact List.mem_map_of_mem (List.fst_mem_of_mem_zipIdx hj)
      simp [this]
    | succ i =>
      have hi' : i < rs.length := by simpa using hi
      have hne : r.type ≠ rs[i].type := by
        intro h
        apply hn.1
        rw [h]
        exact List.mem_map_of_mem (List.getElem_mem hi')
      have e : (r :: rs)[i + 1] = rs[i] := by simp
      rw [e, List.filter_cons_of_neg (by simpa using hne), ih (k + 1) i hi' hn.2]
      congr 2
      congr 1
      omega

theorem filter_entries_other (ptr : Nat → Nat) (rs : List Reg) (k : Nat) (t : Option OpType)
    (ht : ∀ r ∈ rs, r.type ≠ t) : (entries ptr k rs).filter (fun e => e.1 = t) = [] := by
  rw [List.filter_eq_nil_iff]
  rintro ⟨t', p⟩ hm heq
  have heq : t' = t := by simpa using heq
  unfold entries at hm
  obtain ⟨⟨r', j⟩, hj, hj'⟩ := List.mem_map.1 hm
  simp only [Prod.mk.injEq] at hj'
  exact ht r' (List.fst_mem_of_mem_zipIdx hj) (by rw [hj'.1, heq])

/-- C31. `build_stencils` on a database that, since it was last emptied, has had no operator of the
types in question: afterwards each of its operators is the only one of its type, and is returned by
`retrieve_operator` without an id. -/
theorem _root_.SpatialOps.C31_each_type_registered_once (h : List (OpDb.Call (Option OpType)))
    (hnew : ∀ r ∈ registrations, OpDb.registered r.type h = []) (ptr : Nat → Nat) (i : Nat)
    (hi : i < registrations.length) :
    (∃ t, registrations[i].type = some t) ∧
    OpDb.registered registrations[i].type (h ++ buildStencils ptr) = [ptr i] ∧
    (OpDb.run OpDb.new (h ++ buildStencils ptr)).retrieve registrations[i].type (-1) = .ok (ptr i) := by
  have h1 : OpDb.registered registrations[i].type (h ++ buildStencils ptr) = [ptr i] := by
    have h0 := hnew _ (List.getElem_mem hi)
    unfold OpDb.registered at h0 ⊢
    rw [since_build, List.filter_append, List.map_append, h0, filter_entries ptr _ 0 i hi types_nodup]
    simp
  refine ⟨Option.ne_none_iff_exists'.1 (types_some _ (List.getElem_mem hi)), h1, ?_⟩
  rw [C30_retrieve_without_id, h1]

/-- Example: on a new database; registration 6 is the x gradient on scalar volumes. -/
example : registrations[6]? = some ⟨.gradient, .sVol, .sSurfX, .per .x⟩ ∧
    (OpDb.run OpDb.new (buildStencils (100 + ·))).retrieve (operatorType .gradient .sVol .sSurfX) (-1) = .ok 106 :=
  ⟨by decide +kernel, (C31_each_type_registered_once [] (fun _ _ => rfl) (100 + ·) 6 (by decide +kernel)).2.2⟩

/-- C31. After calling `build_stencils` twice on such a database no operator can be retrieved without
an id (`retrieve_operator` throws); with the ids 1 and 2 the operators of the first and second call
are returned. -/
theorem _root_.SpatialOps.C31_called_twice (h : List (OpDb.Call (Option OpType)))
    (hnew : ∀ r ∈ registrations, OpDb.registered r.type h = []) (p q : Nat → Nat) (i : Nat)
    (hi : i < registrations.length) :
    let d := OpDb.run OpDb.new (h ++ buildStencils p ++ buildStencils q)
    d.retrieve registrations[i].type (-1) = .throws ∧
    d.retrieve registrations[i].type 1 = .ok (p i) ∧ d.retrieve registrations[i].type 2 = .ok (q i) := by
  have h1 : OpDb.registered registrations[i].type (h ++ buildStencils p ++ buildStencils q) = [p i, q i] := by
    have h0 := (C31_each_type_registered_once h hnew p i hi).2.1
    unfold OpDb.registered at h0 ⊢
    rw [since_build, List.filter_append, List.map_append, h0, filter_entries q _ 0 i hi types_nodup]
    simp
  refine ⟨?_, ?_, ?_⟩
  · rw [C30_retrieve_without_id, h1]
  · rw [C30_retrieve_by_id _ _ _ (by decide), h1]; rfl
  · rw [C30_retrieve_by_id _ _ _ (by decide), h1]; rfl

/-- C31. `build_stencils` registers nothing else: operators of any other type are the same before and
after. -/
theorem _root_.SpatialOps.C31_other_types_unchanged (h : List (OpDb.Call (Option OpType))) (ptr : Nat → Nat)
    (t : Option OpType) (ht : ∀ r ∈ registrations, r.type ≠ t) (id : Int) :
    (OpDb.run OpDb.new (h ++ buildStencils ptr)).retrieve t id = (OpDb.run OpDb.new h).retrieve t id := by
  unfold OpDb.retrieve
  rw [OpDb.find_run, OpDb.find_run]
  unfold OpDb.registered
  rw [since_build, List.filter_append, filter_entries_other ptr _ 0 t ht, List.append_nil]

/-- An operator with this tag, source and destination is registered. -/
def has (op : Tag) (src dest : FieldType) : Bool :=
  registrations.any fun r => decide (r.op = op) && decide (r.src = src) && decide (r.dest = dest)

/-- C31. The operator types documented as available: all interpolants, gradients and divergences
between each volume and its faces, and for each volume the filter and the directional
interpolants and gradients, are registered. -/
theorem _root_.SpatialOps.C31_basic_operators_present (v : FieldType) (hv : v ∈ volumes) (d : Dir) (f : FieldType)
    (hf : v.face d = some f) :
    (∃ c, Reg.mk .interpolant v f c ∈ registrations) ∧ (∃ c, Reg.mk .interpolant f v c ∈ registrations) ∧
    (∃ c, Reg.mk .gradient v f c ∈ registrations) ∧ (∃ c, Reg.mk .divergence f v c ∈ registrations) ∧
    (∃ c, Reg.mk .filter v v c ∈ registrations) ∧ (∃ c, Reg.mk (.interpolantD d) v v c ∈ registrations) ∧
    (∃ c, Reg.mk (.gradientD d) v v c ∈ registrations) := by
  have hex : ∀ op src dest, has op src dest = true → ∃ c, Reg.mk op src dest c ∈ registrations := by
    intro op src dest h
    obtain ⟨r, hr, h⟩ := List.any_eq_true.1 h
    simp only [Bool.and_eq_true, decide_eq_true_eq] at h
    obtain ⟨⟨rfl, rfl⟩, rfl⟩ := h
    exact ⟨r.coef, hr⟩
  have : (has .interpolant v f && has .interpolant f v && has .gradient v f && has .divergence f v &&
      has .filter v v && has (.interpolantD d) v v && has (.gradientD d) v v) = true := by
    simp only [volumes, List.mem_cons, List.not_mem_nil, or_false] at hv
    rcases hv with rfl | rfl | rfl | rfl <;> cases d <;> cases hf <;> decide +kernel
  simp only [Bool.and_eq_true] at this
  obtain ⟨⟨⟨⟨⟨⟨t1, t2⟩, t3⟩, t4⟩, t5⟩, t6⟩, t7⟩ := this
  exact ⟨hex _ _ _ t1, hex _ _ _ t2, hex _ _ _ t3, hex _ _ _ t4, hex _ _ _ t5, hex _ _ _ t6, hex _ _ _ t7⟩

/-! ## Coefficients -/

theorem len_toList {α : Type} (p : Pts α) : p.toList.length = len p := by
  induction p with
  | one a => rfl
  | more e a ih => simp [Pts.toList, len, ih]

/-- C48 (all lengths but one). `get_coef(i)` of a collection of at least two coefficients returns the
`i`-th coefficient given, and throws for every other index. -/
theorem _root_.SpatialOps.C48_get_coef_partial {K : Type} (cs : Pts K) (hl : 2 ≤ cs.toList.length) (i : Int) :
    getCoef cs i = if 0 ≤ i then
      match cs.toList[i.toNat]? with
      | some c => .ok c
      | none => .throws
    else .throws := by
  by_cases h0 : 0 ≤ i
  · rw [if_pos h0]
    have key : ∀ cs : Pts K, i < (len cs : Int) → getCoef cs i =
        match cs.toList[i.toNat]? with
        | some c => .ok c
        | none => .throws := by
      intro cs
      induction cs with
      | one c =>
        intro hi
        have : i = 0 := by simp only [len] at hi; omega
        subst this
        rfl
      | more e c ih =>
        intro hi
        simp only [len] at hi
        unfold getCoef
        rw [Outcome.throwIf_false (by omega), Outcome.ok_bind, Outcome.throwIf_false (by omega), Outcome.ok_bind]
        simp only [Pts.toList]
        by_cases hlast : i = (len e : Int)
        · rw [if_pos (by omega), List.getElem?_append_right (by rw [len_toList]; omega), len_toList]
          have : i.toNat - len e = 0 := by omega
          rw [this]
          rfl
        · rw [if_neg (by omega), ih (by omega), List.getElem?_append_left (by rw [len_toList]; omega)]
    rw [len_toList] at hl
    by_cases hi : i < (len cs : Int)
    · exact key cs hi
    · rw [List.getElem?_eq_none (by rw [len_toList]; omega)]
      cases cs with
      | one c => simp [len] at hl
      | more e c =>
        simp only [len] at hi
        unfold getCoef
        rw [Outcome.throwIf_false (by omega), Outcome.ok_bind, Outcome.throwIf_true (by omega)]
        rfl
  · rw [if_neg h0]
    cases cs <;> unfold getCoef <;> rw [Outcome.throwIf_true (by omega)] <;> rfl

/-- C48 (deviation). A collection of one coefficient answers the index 1, which does not exist, with
its coefficient instead of throwing; it throws for all others but 0. -/
theorem _root_.SpatialOps.C48_single_coefficient_accepts_index_one {K : Type} (c : K) (i : Int) :
    getCoef (.one c) i = if i = 0 ∨ i = 1 then .ok c else .throws := by
  unfold getCoef
  by_cases h : i = 0 ∨ i = 1
  · rw [if_pos h, Outcome.throwIf_false (by omega), Outcome.ok_bind, Outcome.throwIf_false (by omega)]; rfl
  · rw [if_neg h]
    by_cases h0 : i < 0
    · rw [Outcome.throwIf_true h0]; rfl
    · rw [Outcome.throwIf_false h0, Outcome.ok_bind, Outcome.throwIf_true (by omega)]; rfl

/-- C48. The collections built by `build_coef_collection`, `build_two_point_coef_collection` and
`build_four_point_coef_collection`, and by appending, hold the given coefficients in order. -/
theorem _root_.SpatialOps.C48_collections_keep_order {K : Type} (c1 c2 c3 c4 : K) (cs : Pts K) :
    (coef1 c1).toList = [c1] ∧ (coef2 c1 c2).toList = [c1, c2] ∧ (coef4 c1 c2 c3 c4).toList = [c1, c2, c3, c4] ∧
    (addCoef cs c1).toList = cs.toList ++ [c1] := ⟨rfl, rfl, rfl, rfl⟩

/-- C48. A stencil multiplies the value at its `i`-th point by the `i`-th coefficient. -/
theorem _root_.SpatialOps.C48_points_and_coefficients_match {K : Type} (ps : Pts IntVec) (cs : Pts K) :
    (ps.toList.length = cs.toList.length → ∃ w, pair ps cs = some w ∧ w.toList = ps.toList.zip cs.toList) ∧
    (ps.toList.length ≠ cs.toList.length → pair ps cs = none) := by
  rw [len_toList, len_toList]
  induction ps generalizing cs with
  | one p =>
    cases cs with
    | one c => exact ⟨fun _ => ⟨_, rfl, rfl⟩, fun h => absurd rfl h⟩
    | more cs c =>
      have : 0 < len cs := by cases cs <;> simp [len]
      exact ⟨fun h => by simp only [len] at h; omega, fun _ => rfl⟩
  | more e p ih =>
    cases cs with
    | one c =>
      have : 0 < len e := by cases e <;> simp [len]
      exact ⟨fun h => by simp only [len] at h; omega, fun _ => rfl⟩
    | more cs c =>
      obtain ⟨i1, i2⟩ := ih cs
      constructor
      · intro h
        obtain ⟨w, w1, w2⟩ := i1 (by simpa [len] using h)
        refine ⟨.more w (p, c), by simp [pair, w1], ?_⟩
        simp only [Pts.toList, w2]
        rw [List.zip_append (by rw [len_toList, len_toList]; simpa [len] using h)]
        rfl
      · intro h
        have := i2 (by simpa [len] using h)
        simp [pair, this]

/-! ## Index triplets -/

/-- C50. Compile-time index arithmetic is componentwise integer arithmetic. -/
theorem _root_.SpatialOps.C50_componentwise (a b : IntVec) (d : Dir) :
    comp (tAdd a b) d = comp a d + comp b d ∧ comp (tSub a b) d = comp a d - comp b d ∧
    comp (tMul a b) d = comp a d * comp b d ∧ comp (negate a) d = -comp a d ∧
    comp (tAbs a) d = |comp a d| ∧ comp (positiveOrZero a) d = max 0 (comp a d) ∧
    comp (lessThan a b) d = (if comp a d < comp b d then 1 else 0) ∧
    comp (greaterThan a b) d = (if comp b d < comp a d then 1 else 0) ∧
    extract a d = comp a d ∧ (∀ e, comp (unitTriplet d) e = if e = d then 1 else 0) := by
  have habs : ∀ i : Int, absI i = |i| := by
    intro i; unfold absI; split
    · rw [abs_of_nonneg (by omega)]
    · rw [abs_of_neg (by omega)]
  have hmax : ∀ i : Int, maxI 0 i = max 0 i := by intro i; unfold maxI; split <;> omega
  cases d <;> refine ⟨rfl, rfl, rfl, rfl, habs _, hmax _, rfl, rfl, rfl, ?_⟩ <;>
    (intro e; cases e <;> rfl)

/-- C50. The compile-time choices between numbers: absolute value, larger, smaller, comparison and Kronecker's delta. Exactly one of
`LThan`, `GThan` and `Kronecker` is one, the others are zero. -/
theorem _root_.SpatialOps.C50_choices (i j : Int) :
    absI i = |i| ∧ maxI i j = max i j ∧ minI i j = min i j ∧ (lThan i j = 1 ↔ i < j) ∧ (gThan i j = 1 ↔ j < i) ∧ (kronecker i j = 1 ↔ i = j) ∧
    (lThan i j = 0 ∨ lThan i j = 1) ∧ (gThan i j = 0 ∨ gThan i j = 1) ∧ (kronecker i j = 0 ∨ kronecker i j = 1) ∧
    lThan i j + gThan i j + kronecker i j = 1 := by
  have h : |i| = max i (-i) := rfl
  rw [h]
  unfold absI maxI minI lThan gThan kronecker
  refine ⟨?_, ?_, ?_, ?_, ?_, ?_, ?_, ?_, ?_, ?_⟩ <;> split_ifs <;> omega

/-- C50. `GetNonzeroDir` of the unit vector of a direction, or of its negative, is this direction; of
the zero triplet it is `NODIR`; it compiles for no other triplet. -/
theorem _root_.SpatialOps.C50_nonzero_dir (a : IntVec) (d : Dir) :
    (getNonzeroDir a = some (some d) ↔ a = unitTriplet d ∨ a = negate (unitTriplet d)) ∧
    (getNonzeroDir a = some none ↔ a = ⟨0, 0, 0⟩) := by
  obtain ⟨x, y, z⟩ := a
  unfold getNonzeroDir
  cases d <;> simp only [unitTriplet, negate, IntVec.mk.injEq, reduceCtorEq, if_true, if_false, neg_zero] <;> constructor <;> split_ifs <;>
    simp only [Option.some.injEq, reduceCtorEq, true_iff, false_iff] <;> omega

/-- C50. The staggering of every field type: -1 in the directions in which its values lie on the low
faces of the cells, 0 in the others; a boundary cell is added only in a direction in which the field
is staggered. -/
theorem _root_.SpatialOps.C50_stagger (f : FieldType) (d : Dir) :
    indexStagger f d = (if staggered f d then -1 else 0) ∧
    (comp f.bcExtra d = 0 ∨ comp f.bcExtra d = 1 ∧ staggered f d = true) := by
  cases f <;> cases d <;> decide

/-- C50. Faces and volumes: a face type belongs to the volume it was derived from, is named by its
direction, and differs from the volume in this direction only. -/
theorem _root_.SpatialOps.C50_faces (v f : FieldType) (d : Dir) :
    v.face d = some f ↔ f.volType = some v ∧ f.faceDir = some d := by
  cases v <;> cases d <;> cases f <;> decide

/-- C50 (second part). -/
theorem _root_.SpatialOps.C50_face_staggering (v f : FieldType) (d : Dir) (h : v.face d = some f) :
    OnlyDirection v f d := by
  intro d'
  cases v <;> cases d <;> cases h <;> cases d' <;> decide

/-- C50. Every point of every registered operator is at most one cell away in each direction. -/
theorem _root_.SpatialOps.C50_points_within_one_cell (r : Reg) (hr : r ∈ registrations) :
    ∃ t, r.type = some t ∧ ∀ p ∈ t.points.toList, ∀ d, -1 ≤ comp p d ∧ comp p d ≤ 1 := by
  have h := List.all_eq_true.1 all_near r hr
  cases ht : r.type with
  | none => rw [ht] at h; simp at h
  | some t =>
    rw [ht] at h
    refine ⟨t, rfl, fun p hp d => ?_⟩
    have := List.all_eq_true.1 h p hp
    have := of_decide_eq_true this
    obtain ⟨⟨a1, a2, a3⟩, b1, b2, b3⟩ := this
    cases d <;> exact ⟨by assumption, by assumption⟩

/-- C50. Exchanging source and destination negates the offsets (and reverses their order), for the
two-point and the four-point stencils. -/
theorem _root_.SpatialOps.C50_reversed_offsets_negated (src dest : IntVec) :
    (stencil2 dest src).toList = ((stencil2 src dest).toList.map negate).reverse ∧
    (stencil4 dest src).toList = ((stencil4 src dest).toList.map negate).reverse := by
  have hneg : ∀ a b : IntVec, negate (tAdd a b) = tAdd (negate a) (negate b) := by
    intro a b; unfold negate tAdd; ext <;> simp <;> omega
  have hnn : ∀ a : IntVec, negate (negate a) = a := by intro a; unfold negate; ext <;> simp
  have hg : ∀ a b : IntVec, greaterThan a b = lessThan b a := fun _ _ => rfl
  constructor
  · simp [stencil2, mkPts, Pts.toList, hg, hnn]
  · have hx : (dest.x ≠ src.x) = (src.x ≠ dest.x) := by rw [ne_comm]
    have hz : (dest.z ≠ src.z) = (src.z ≠ dest.z) := by rw [ne_comm]
    simp only [stencil4, mkPts, Pts.toList, List.foldl, hx, hz]
    simp [hg, hneg, hnn]

end Stencil
end SpatialOps
