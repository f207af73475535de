import Verif.NeboOps.Spec
import Verif.Nebo.Props

/-!
# C54: every Nebo operator means its scalar namesake
-/

namespace SpatialOps
namespace NeboOps

open Nebo (Ty Expr MaskObj)

/-! ## Checks of the tables -/

/-- The `eval()` body expected for a function. -/
def sxOf : Fun → Sx
  | .plus => .bin .add (.slot 1) (.slot 2)
  | .minus => .bin .sub (.slot 1) (.slot 2)
  | .times => .bin .mul (.slot 1) (.slot 2)
  | .over => .bin .div (.slot 1) (.slot 2)
  | .pow => .bin .pow (.slot 1) (.slot 2)
  | .max => .ite (.bin .gt (.slot 1) (.slot 2)) (.slot 1) (.slot 2)
  | .min => .ite (.bin .lt (.slot 1) (.slot 2)) (.slot 1) (.slot 2)
  | .eqTo => .bin .eq (.slot 1) (.slot 2)
  | .neTo => .bin .ne (.slot 1) (.slot 2)
  | .lessThan => .bin .lt (.slot 1) (.slot 2)
  | .lessEq => .bin .le (.slot 1) (.slot 2)
  | .greaterThan => .bin .gt (.slot 1) (.slot 2)
  | .greaterEq => .bin .ge (.slot 1) (.slot 2)
  | .land => .bin .and (.slot 1) (.slot 2)
  | .lor => .bin .or (.slot 1) (.slot 2)
  | .lnot => .un .not (.slot 1)
  | .negate => .un .neg (.slot 1)
  | .sin => .un .sin (.slot 1)
  | .cos => .un .cos (.slot 1)
  | .tan => .un .tan (.slot 1)
  | .exp => .un .exp (.slot 1)
  | .tanh => .un .tanh (.slot 1)
  | .abs => .un .abs (.slot 1)
  | .sqrt => .un .sqrt (.slot 1)
  | .log => .un .log (.slot 1)
  | .log10 => .un .log10 (.slot 1)
  | .erf => .un .erf (.slot 1)
  | .erfc => .un .erfc (.slot 1)

/-- The wrapper expected for an argument. -/
def wrapOf : Kind → Wrap
  | .scalar => .scalar
  | .field => .constField
  | .expr | .singleExpr | .boolExpr => .inner
  | .single => .constSingle
  | .bool => .boolScalar
  | .mask => .mask

/-- The shape expected of an overload with two parameters. -/
def shape2 (o : Overload) (a b : Kind) : Prop :=
  o.params = [a, b] ∧ o.slots = [(wrapOf a, 1), (wrapOf b, 2)] ∧ (members o.node).arity = 2 ∧
  ∀ r ∈ [Route.seq, .threads, .gpu, .reduction], (members o.node).arrive r [1, 2] = some [1, 2] ∧
    (members o.node).evalOn r = sxOf o.fn

instance (o : Overload) (a b : Kind) : Decidable (shape2 o a b) := by unfold shape2; infer_instance

/-- The shape expected of an overload with one parameter. -/
def shape1 (o : Overload) (a : Kind) : Prop :=
  o.params = [a] ∧ o.slots = [(wrapOf a, 1)] ∧ (members o.node).arity = 1 ∧
  ∀ r ∈ [Route.seq, .threads, .gpu, .reduction], (members o.node).arrive r [1] = some [1] ∧
    (members o.node).evalOn r = sxOf o.fn

instance (o : Overload) (a : Kind) : Decidable (shape1 o a) := by unfold shape1; infer_instance

/-- Everything that is checked of one overload. -/
def Shape (o : Overload) : Prop :=
  o.result = expectedResult o.fn o.params ∧
  ((o.fn ∈ Fun.twoNumbers ∧ ∃ a ∈ numericKinds, ∃ b ∈ numericKinds, shape2 o a b) ∨
  (o.fn ∈ Fun.oneNumber ∧ ∃ a ∈ numericKinds, shape1 o a) ∨
  ((o.fn = .land ∨ o.fn = .lor) ∧ ∃ a ∈ booleanKinds, ∃ b ∈ booleanKinds, shape2 o a b) ∨
  (o.fn = .lnot ∧ ∃ a ∈ booleanKinds, shape1 o a))

instance (o : Overload) : Decidable (Shape o) := by unfold Shape; infer_instance

set_option maxRecDepth 100000 in
theorem table_shape : ∀ o ∈ overloads, Shape o := by decide +kernel

/-! ## From the tables to the meaning -/

variable {V : Type} [Add V] [Mul V]

omit [Add V] [Mul V] in
/-- An argument wrapped as expected. -/
theorem wrap_num (a : Arg V) (h : a.kind ∈ numericKinds) :
    ∃ e : Expr V .num, (wrapOf a.kind).apply a = some ⟨.num, e⟩ ∧ a.asExpr = ⟨.num, e⟩ := by
  cases a with
  | bool b => simp [Arg.kind, numericKinds] at h
  | mask m => simp [Arg.kind, numericKinds] at h
  | boolExpr e => simp [Arg.kind, numericKinds] at h
  | _ => exact ⟨_, rfl, rfl⟩

omit [Add V] [Mul V] in
theorem wrap_bool (a : Arg V) (h : a.kind ∈ booleanKinds) :
    ∃ e : Expr V .bool, (wrapOf a.kind).apply a = some ⟨.bool, e⟩ ∧ a.asExpr = ⟨.bool, e⟩ := by
  cases a with
  | bool v => exact ⟨_, rfl, rfl⟩
  | mask f => exact ⟨_, rfl, rfl⟩
  | boolExpr e => exact ⟨_, rfl, rfl⟩
  | _ => simp [Arg.kind, booleanKinds] at h

theorem pick_map {α β : Type} (f : α → β) (o : List Nat) (xs : List α) :
    pick o (xs.map f) = (pick o xs).map (List.map f) := by
  unfold pick
  induction o with
  | nil => rfl
  | cons i o ih =>
    rw [List.mapM_cons, List.mapM_cons, ih]
    by_cases hi : i = 0
    · rw [if_pos hi, if_pos hi]; rfl
    · rw [if_neg hi, if_neg hi, List.getElem?_map]
      cases xs[i - 1]? with
      | none => rfl
      | some x =>
        cases (List.mapM (fun i => if i = 0 then none else xs[i - 1]?) o) <;> rfl

/-- Where the operands go does not depend on what they are. -/
theorem arrive_map {α β : Type} (f : α → β) (k : Members) (r : Route) (xs : List α) :
    k.arrive r (xs.map f) = (k.arrive r xs).map (List.map f) := by
  unfold Members.arrive
  rw [pick_map]
  cases pick k.ctorInitial xs with
  | none => rfl
  | some a =>
    cases r
    · simp only [Option.map_some, Option.bind_eq_bind, Option.bind_some, pick_map]
      cases pick k.toSeq a with
      | none => rfl
      | some b => simp [pick_map]
    · simp only [Option.map_some, Option.bind_eq_bind, Option.bind_some, pick_map]
      cases pick k.toResize a with
      | none => rfl
      | some b =>
        simp only [Option.map_some, Option.bind_some, pick_map]
        cases pick k.ctorResize b with
        | none => rfl
        | some c =>
          simp only [Option.map_some, Option.bind_some, pick_map]
          cases pick k.resizeToSeq c with
          | none => rfl
          | some d => simp [pick_map]
    · simp only [Option.map_some, Option.bind_eq_bind, Option.bind_some, pick_map]
      cases pick k.toGpu a with
      | none => rfl
      | some b => simp [pick_map]
    · simp only [Option.map_some, Option.bind_eq_bind, Option.bind_some, pick_map]
      cases pick k.toRed a with
      | none => rfl
      | some b => simp [pick_map]

theorem arrive2 {α : Type} {k : Members} {r : Route} (h : k.arrive r [1, 2] = some [1, 2]) (x y : α) :
    k.arrive r [x, y] = some [x, y] := by
  have := arrive_map (fun i : Nat => if i = 1 then x else y) k r [1, 2]
  rw [h] at this
  exact this

theorem arrive1 {α : Type} {k : Members} {r : Route} (h : k.arrive r [1] = some [1]) (x : α) :
    k.arrive r [x] = some [x] := by
  have := arrive_map (fun _ : Nat => x) k r [1]
  rw [h] at this
  exact this

theorem route_mem (r : Route) : r ∈ [Route.seq, .threads, .gpu, .reduction] := by
  cases r <;> simp

omit [Add V] [Mul V] in
theorem build2 {S : Scalars V} {o : Overload} {k1 k2 : Kind} (h : shape2 o k1 k2) (r : Route) {a b : Arg V}
    (ha : a.kind = k1) (hb : b.kind = k2) {x y : AnyExpr V} (hx : (wrapOf k1).apply a = some x)
    (hy : (wrapOf k2).apply b = some y) {e : AnyExpr V} (he : nodeExpr S (sxOf o.fn) [x, y] = some e)
    (ht : e.1 = o.result.ty) : build S members r o [a, b] = some e := by
  obtain ⟨h1, h2, h3, h4⟩ := h
  obtain ⟨h5, h6⟩ := h4 r (route_mem r)
  unfold build
  rw [if_pos (by rw [h1, ← ha, ← hb]; rfl), h2]
  have : ([(wrapOf k1, 1), (wrapOf k2, 2)].mapM
      fun w => (if w.2 = 0 then none else [a, b][w.2 - 1]?) >>= w.1.apply) = some [x, y] := by
    simp [List.mapM_cons, hx, hy]
  rw [this]
  simp only [Option.bind_eq_bind, Option.bind_some]
  rw [if_pos (by rw [h3]; rfl), arrive2 h5, h6]
  simp only [Option.bind_some, he]
  rw [if_pos ht]
  rfl

omit [Add V] [Mul V] in
theorem build1 {S : Scalars V} {o : Overload} {k1 : Kind} (h : shape1 o k1) (r : Route) {a : Arg V}
    (ha : a.kind = k1) {x : AnyExpr V} (hx : (wrapOf k1).apply a = some x) {e : AnyExpr V}
    (he : nodeExpr S (sxOf o.fn) [x] = some e)
    (ht : e.1 = o.result.ty) : build S members r o [a] = some e := by
  obtain ⟨h1, h2, h3, h4⟩ := h
  obtain ⟨h5, h6⟩ := h4 r (route_mem r)
  unfold build
  rw [if_pos (by rw [h1, ← ha]; rfl), h2]
  have : ([(wrapOf k1, 1)].mapM fun w => (if w.2 = 0 then none else [a][w.2 - 1]?) >>= w.1.apply) = some [x] := by
    simp [List.mapM_cons, hx]
  rw [this]
  simp only [Option.bind_eq_bind, Option.bind_some]
  rw [if_pos (by rw [h3]; rfl), arrive1 h5, h6]
  simp only [Option.bind_some, he]
  rw [if_pos ht]
  rfl

/-- What is claimed of one call. -/
def MeansIt (S : Scalars V) (f : Fun) (args : List (Arg V)) (e : AnyExpr V) : Prop :=
  (∀ m c, f.Means S (args.map (Arg.valAt m c)) (valAt m c e.2)) ∧
  (∀ n c, e.2.DefinedAt n c ↔ ∀ a ∈ args, a.definedAt n c) ∧
  (∀ n, e.2.Wf n ↔ ∀ a ∈ args, a.wf n) ∧
  ∀ l, e.2.Independent l 0 ↔ ∀ a ∈ args, a.independent l

theorem valAt_num {a : Arg V} {x : Expr V .num} (h : a.asExpr = ⟨.num, x⟩) (m : Mem V) (c : IntVec) :
    a.valAt m c = .num (x.value m c) := by unfold Arg.valAt; rw [h]; rfl

theorem valAt_bool {a : Arg V} {x : Expr V .bool} (h : a.asExpr = ⟨.bool, x⟩) (m : Mem V) (c : IntVec) :
    a.valAt m c = .bool (x.value m c) := by unfold Arg.valAt; rw [h]; rfl

omit [Add V] [Mul V] in
theorem definedAt_eq {a : Arg V} {t : Ty} {x : Expr V t} (h : a.asExpr = ⟨t, x⟩) (n c : IntVec) :
    a.definedAt n c ↔ x.DefinedAt n c := by unfold Arg.definedAt; rw [h]

omit [Add V] [Mul V] in
theorem wf_eq {a : Arg V} {t : Ty} {x : Expr V t} (h : a.asExpr = ⟨t, x⟩) (n : IntVec) :
    a.wf n ↔ x.Wf n := by unfold Arg.wf; rw [h]

omit [Add V] [Mul V] in
theorem independent_eq {a : Arg V} {t : Ty} {x : Expr V t} (h : a.asExpr = ⟨t, x⟩) (l : FieldObj) :
    a.independent l ↔ x.Independent l 0 := by unfold Arg.independent; rw [h]

theorem means2 (S : Scalars V) (f : Fun) (hf : f ∈ Fun.twoNumbers) (a b : Arg V) (x y : Expr V .num)
    (hx : a.asExpr = ⟨.num, x⟩) (hy : b.asExpr = ⟨.num, y⟩) (ks : List Kind) :
    ∃ e, nodeExpr S (sxOf f) [⟨.num, x⟩, ⟨.num, y⟩] = some e ∧ e.1 = (expectedResult f ks).ty ∧
      MeansIt S f [a, b] e := by
  cases f <;> first
    | (exfalso; simp [Fun.twoNumbers] at hf; done)
    | (refine ⟨_, rfl, ?_, fun m c => ?_, fun n c => ?_, fun n => ?_, fun l => ?_⟩
       · unfold expectedResult; generalize ks.any Kind.varies = q; cases q <;> rfl
       · simp only [List.map_cons, List.map_nil, valAt_num hx, valAt_num hy]; rfl
       · simp [definedAt_eq hx, definedAt_eq hy, Expr.DefinedAt]
       · simp [wf_eq hx, wf_eq hy, Expr.Wf]
       · simp [independent_eq hx, independent_eq hy, Expr.Independent])

theorem means1 (S : Scalars V) (f : Fun) (hf : f ∈ Fun.oneNumber) (a : Arg V) (x : Expr V .num)
    (hx : a.asExpr = ⟨.num, x⟩) (ks : List Kind) :
    ∃ e, nodeExpr S (sxOf f) [⟨.num, x⟩] = some e ∧ e.1 = (expectedResult f ks).ty ∧ MeansIt S f [a] e := by
  cases f <;> first
    | (exfalso; simp [Fun.oneNumber] at hf; done)
    | (refine ⟨_, rfl, ?_, fun m c => ?_, fun n c => ?_, fun n => ?_, fun l => ?_⟩
       · unfold expectedResult; generalize ks.any Kind.varies = q; cases q <;> rfl
       · simp only [List.map_cons, List.map_nil, valAt_num hx]; rfl
       · simp [definedAt_eq hx, Expr.DefinedAt]
       · simp [wf_eq hx, Expr.Wf]
       · simp [independent_eq hx, Expr.Independent])

theorem meansLogic (S : Scalars V) (f : Fun) (hf : f = .land ∨ f = .lor) (a b : Arg V) (x y : Expr V .bool)
    (hx : a.asExpr = ⟨.bool, x⟩) (hy : b.asExpr = ⟨.bool, y⟩) (ks : List Kind) :
    ∃ e, nodeExpr S (sxOf f) [⟨.bool, x⟩, ⟨.bool, y⟩] = some e ∧ e.1 = (expectedResult f ks).ty ∧
      MeansIt S f [a, b] e := by
  rcases hf with rfl | rfl
  all_goals
    refine ⟨_, rfl, ?_, fun m c => ?_, fun n c => ?_, fun n => ?_, fun l => ?_⟩
    · unfold expectedResult; generalize ks.any Kind.varies = q; cases q <;> rfl
    · simp only [List.map_cons, List.map_nil, valAt_bool hx, valAt_bool hy]; rfl
    · simp [definedAt_eq hx, definedAt_eq hy, Expr.DefinedAt]
    · simp [wf_eq hx, wf_eq hy, Expr.Wf]
    · simp [independent_eq hx, independent_eq hy, Expr.Independent]

theorem meansNot (S : Scalars V) (a : Arg V) (x : Expr V .bool) (hx : a.asExpr = ⟨.bool, x⟩) (ks : List Kind) :
    ∃ e, nodeExpr S (sxOf .lnot) [⟨.bool, x⟩] = some e ∧ e.1 = (expectedResult .lnot ks).ty ∧
      MeansIt S .lnot [a] e := by
  refine ⟨_, rfl, ?_, fun m c => ?_, fun n c => ?_, fun n => ?_, fun l => ?_⟩
  · unfold expectedResult; generalize ks.any Kind.varies = q; cases q <;> rfl
  · simp only [List.map_cons, List.map_nil, valAt_bool hx]; rfl
  · simp [definedAt_eq hx, Expr.DefinedAt]
  · simp [wf_eq hx, Expr.Wf]
  · simp [independent_eq hx, Expr.Independent]

omit [Add V] [Mul V] in
theorem args2 {args : List (Arg V)} {k1 k2 : Kind} (h : args.map Arg.kind = [k1, k2]) :
    ∃ a b, args = [a, b] ∧ a.kind = k1 ∧ b.kind = k2 := by
  obtain ⟨a, l, rfl, h1, h2⟩ := List.map_eq_cons_iff.1 h
  obtain ⟨b, l', rfl, h3, h4⟩ := List.map_eq_cons_iff.1 h2
  rw [List.map_eq_nil_iff.1 h4]
  exact ⟨a, b, rfl, h1, h3⟩

omit [Add V] [Mul V] in
theorem args1 {args : List (Arg V)} {k1 : Kind} (h : args.map Arg.kind = [k1]) :
    ∃ a, args = [a] ∧ a.kind = k1 := by
  obtain ⟨a, l, rfl, h1, h2⟩ := List.map_eq_cons_iff.1 h
  rw [List.map_eq_nil_iff.1 h2]
  exact ⟨a, rfl, h1⟩

theorem of_shape (S : Scalars V) (r : Route) (o : Overload) (ho : Shape o)
    (args : List (Arg V)) (hk : args.map Arg.kind = o.params) :
    ∃ e, build S members r o args = some e ∧ e.1 = o.result.ty ∧ MeansIt S o.fn args e := by
  obtain ⟨hr, h | h | h | h⟩ := ho
  · obtain ⟨hf, k1, hk1, k2, hk2, hs⟩ := h
    obtain ⟨a, b, rfl, rfl, rfl⟩ := args2 (hk.trans hs.1)
    obtain ⟨x, ex, vx⟩ := wrap_num a hk1
    obtain ⟨y, ey, vy⟩ := wrap_num b hk2
    obtain ⟨e, h1, h2, h3⟩ := means2 S o.fn hf a b x y vx vy o.params
    rw [← hr] at h2
    exact ⟨e, build2 hs r rfl rfl ex ey h1 h2, h2, h3⟩
  · obtain ⟨hf, k1, hk1, hs⟩ := h
    obtain ⟨a, rfl, rfl⟩ := args1 (hk.trans hs.1)
    obtain ⟨x, ex, vx⟩ := wrap_num a hk1
    obtain ⟨e, h1, h2, h3⟩ := means1 S o.fn hf a x vx o.params
    rw [← hr] at h2
    exact ⟨e, build1 hs r rfl ex h1 h2, h2, h3⟩
  · obtain ⟨hf, k1, hk1, k2, hk2, hs⟩ := h
    obtain ⟨a, b, rfl, rfl, rfl⟩ := args2 (hk.trans hs.1)
    obtain ⟨x, ex, vx⟩ := wrap_bool a hk1
    obtain ⟨y, ey, vy⟩ := wrap_bool b hk2
    obtain ⟨e, h1, h2, h3⟩ := meansLogic S o.fn hf a b x y vx vy o.params
    rw [← hr] at h2
    exact ⟨e, build2 hs r rfl rfl ex ey h1 h2, h2, h3⟩
  · obtain ⟨hf, k1, hk1, hs⟩ := h
    obtain ⟨a, rfl, rfl⟩ := args1 (hk.trans hs.1)
    obtain ⟨x, ex, vx⟩ := wrap_bool a hk1
    obtain ⟨e, h1, h2, h3⟩ := meansNot S a x vx o.params
    rw [← hf, ← hr] at h2
    rw [← hf] at h1 h3
    exact ⟨e, build1 hs r rfl ex h1 h2, h2, h3⟩

/-! ## C54 -/

/-- C54. Whatever overload of an operator or function is called, on whatever arguments it
accepts, and however the expression is then evaluated (sequentially, by threads, on a GPU
or in a reduction): it compiles to an expression whose value at every cell is the scalar
operation of that name applied to the values of the arguments at that cell, in the order
written, and which is defined exactly where all arguments are. -/
theorem _root_.SpatialOps.C54_operator_meaning (S : Scalars V) (r : Route) (o : Overload) (ho : o ∈ overloads)
    (args : List (Arg V)) (hk : args.map Arg.kind = o.params) :
    ∃ e, build S members r o args = some e ∧ e.1 = o.result.ty ∧
      (∀ m c, o.fn.Means S (args.map (Arg.valAt m c)) (valAt m c e.2)) ∧
      ∀ n c, e.2.DefinedAt n c ↔ ∀ a ∈ args, a.definedAt n c := by
  obtain ⟨e, h1, h2, h3⟩ := of_shape S r o (table_shape o ho) args hk
  exact ⟨e, h1, h2, h3.1, h3.2.1⟩

omit [Add V] [Mul V] in
/-- C54. `max` and `min` on ordered values are the maximum and the minimum. -/
theorem _root_.SpatialOps.C54_max_min [LinearOrder V] (S : Scalars V)
    (hgt : ∀ x y, S.gt x y = decide (x > y)) (hlt : ∀ x y, S.lt x y = decide (x < y)) (x y : V) (r : Val V) :
    (Fun.max.Means S [.num x, .num y] r ↔ r = .num (max x y)) ∧
    (Fun.min.Means S [.num x, .num y] r ↔ r = .num (min x y)) := by
  constructor
  · unfold Fun.Means
    simp only [hgt, decide_eq_true_eq]
    rw [show (if x > y then x else y) = max x y by
      rcases lt_or_ge y x with h | h
      · rw [if_pos h, max_eq_left h.le]
      · rw [if_neg (not_lt.2 h), max_eq_right h]]
  · unfold Fun.Means
    simp only [hlt, decide_eq_true_eq]
    rw [show (if x < y then x else y) = min x y by
      rcases lt_or_ge x y with h | h
      · rw [if_pos h, min_eq_left h.le]
      · rw [if_neg (not_lt.2 h), min_eq_right h]]

/-- C54, end to end: `lhs <<= op(args)` with a numeric operator or function whose arguments
have values at every interior cell of the destination stores, at every interior and ghost
cell where they have values, the result of the scalar operation on those values; nothing
else changes. -/
theorem _root_.SpatialOps.C54_assign_operator (S : Scalars V) (o : Overload) (ho : o ∈ overloads)
    (hnum : o.result.ty = .num) (args : List (Arg V)) (hk : args.map Arg.kind = o.params)
    (n : IntVec) (hn : IntVec.Lt 0 n) (l : FieldObj) (b : Nat) (ht : Nebo.Target n l b)
    (hw : ∀ a ∈ args, a.wf n) (hi : ∀ a ∈ args, a.independent l)
    (hd : ∀ c, Nebo.Interior n l c → ∀ a ∈ args, a.definedAt n c) (m : Mem V) :
    ∃ (e : Expr V .num) (m' : Mem V), build S members .seq o args = some ⟨.num, e⟩ ∧ Nebo.assign l e m = .ok m' ∧
      (∀ c, Nebo.Stored n l c → (∀ a ∈ args, a.definedAt n c) →
        o.fn.Means S (args.map (Arg.valAt m c)) (.num (m' b (Nebo.cellAddr l.geo c)))) ∧
      ∀ blk a, (blk ≠ b ∨ ∀ c, Nebo.Stored n l c → (∀ a ∈ args, a.definedAt n c) → Nebo.cellAddr l.geo c ≠ a) →
        m' blk a = m blk a := by
  obtain ⟨⟨t, e⟩, h1, h2, h3, h4, h5, h6⟩ := of_shape S .seq o (table_shape o ho) args hk
  rw [hnum] at h2
  dsimp only at h2 h3 h4 h5 h6
  subst h2
  obtain ⟨m', h7, h8, h9⟩ := C22_assign_pointwise n hn l b ht e ((h5 n).2 hw) (fun c hc => (h4 n c).2 (hd c hc))
    ((h6 l).2 hi) m
  refine ⟨e, m', h1, h7, fun c hc hdc => ?_, fun blk a hba => ?_⟩
  · rw [h8 c ⟨hc, (h4 n c).2 hdc⟩]
    exact h3 m c
  · refine h9 blk a (hba.imp id fun h c hc => h c hc.1 ((h4 n c).1 hc.2))

/-- Every combination of an operator and argument kinds that is offered. -/
def allOffered : List (Fun × List Kind) :=
  (Fun.twoNumbers.flatMap fun f => numericKinds.flatMap fun a => numericKinds.filterMap fun b =>
    if a = .scalar ∧ b = .scalar then none else some (f, [a, b])) ++
  (Fun.oneNumber.flatMap fun f => numericKinds.filterMap fun a => if a = .scalar then none else some (f, [a])) ++
  ([Fun.land, .lor].flatMap fun f => booleanKinds.flatMap fun a => booleanKinds.filterMap fun b =>
    if a = .bool ∧ b = .bool then none else some (f, [a, b])) ++
  (booleanKinds.filterMap fun a => if a = .bool then none else some (.lnot, [a]))

theorem mem_allOffered (f : Fun) (ks : List Kind) : (f, ks) ∈ allOffered ↔ Offered f ks := by
  unfold allOffered Offered
  simp only [List.mem_append, List.mem_flatMap, List.mem_filterMap]
  constructor
  · rintro (((⟨g, hg, a, ha, b, hb, h⟩ | ⟨g, hg, a, ha, h⟩) | ⟨g, hg, a, ha, b, hb, h⟩) | ⟨a, ha, h⟩)
    · split at h
      · cases h
      · rename_i hn; injection h with h; injection h with h1 h2; subst h1 h2
        exact Or.inl ⟨hg, a, ha, b, hb, rfl, hn⟩
    · split at h
      · cases h
      · rename_i hn; injection h with h; injection h with h1 h2; subst h1 h2
        exact Or.inr (Or.inl ⟨hg, a, ha, rfl, hn⟩)
    · split at h
      · cases h
      · rename_i hn; injection h with h; injection h with h1 h2; subst h1 h2
        exact Or.inr (Or.inr (Or.inl ⟨by simpa using hg, a, ha, b, hb, rfl, hn⟩))
    · split at h
      · cases h
      · rename_i hn; injection h with h; injection h with h1 h2; subst h1 h2
        exact Or.inr (Or.inr (Or.inr ⟨rfl, a, ha, rfl, hn⟩))
  · rintro (⟨hf, a, ha, b, hb, rfl, hn⟩ | ⟨hf, a, ha, rfl, hn⟩ | ⟨hf, a, ha, b, hb, rfl, hn⟩ | ⟨rfl, a, ha, rfl, hn⟩)
    · exact Or.inl (Or.inl (Or.inl ⟨f, hf, a, ha, b, hb, by rw [if_neg hn]⟩))
    · exact Or.inl (Or.inl (Or.inr ⟨f, hf, a, ha, by rw [if_neg hn]⟩))
    · exact Or.inl (Or.inr ⟨f, by simpa using hf, a, ha, b, hb, by rw [if_neg hn]⟩)
    · exact Or.inr ⟨a, ha, by rw [if_neg hn]⟩

set_option maxRecDepth 100000 in
theorem offered_once : ∀ q ∈ allOffered, ((overloads.filter fun o => decide ((o.fn, o.params) = q)).length = 1) := by
  decide +kernel

set_option maxRecDepth 100000 in
theorem all_offered : ∀ o ∈ overloads, (o.fn, o.params) ∈ allOffered := by decide +kernel

/-- C54. The operators and functions are offered on exactly the combinations of argument
kinds listed in `Offered`, and each such call has exactly one overload: nothing is missing
and no call is ambiguous. The result varies over the mesh iff some argument does, and is a
truth value iff the function is a comparison or logical. -/
theorem _root_.SpatialOps.C54_overloads_complete (f : Fun) (ks : List Kind) :
    ((∃ o ∈ overloads, o.fn = f ∧ o.params = ks) ↔ Offered f ks) ∧
    (Offered f ks → ((overloads.filter fun o => decide ((o.fn, o.params) = (f, ks))).length = 1)) ∧
    ∀ o ∈ overloads, o.fn = f → o.params = ks → o.result = expectedResult f ks := by
  refine ⟨⟨?_, fun h => ?_⟩, fun h => offered_once _ ((mem_allOffered f ks).2 h), ?_⟩
  · rintro ⟨o, ho, rfl, rfl⟩
    exact (mem_allOffered _ _).1 (all_offered o ho)
  · have h1 := offered_once _ ((mem_allOffered f ks).2 h)
    obtain ⟨o, ho⟩ := List.length_pos_iff_exists_mem.1 (by rw [h1]; exact Nat.one_pos :
      0 < (overloads.filter fun o => decide ((o.fn, o.params) = (f, ks))).length)
    rw [List.mem_filter, decide_eq_true_eq, Prod.mk.injEq] at ho
    exact ⟨o, ho.1, ho.2.1, ho.2.2⟩
  · rintro o ho rfl rfl
    exact (table_shape o ho).1

/-! ## Concrete cases -/

/-- Integer arithmetic as value type (transcendental functions left as the identity). -/
def exS : Scalars Int :=
  ⟨fun x => -x, id, id, id, id, id, fun x => |x|, id, id, id, id, id, (· + ·), (· - ·), (· * ·), (· / ·),
    fun x _ => x, fun x y => decide (x = y), fun x y => decide (x ≠ y), fun x y => decide (x < y),
    fun x y => decide (x ≤ y), fun x y => decide (x > y), fun x y => decide (x ≥ y)⟩

/-- The overload `field - value` is in the table, its hypotheses are met by a field and the
value 5, and what it builds computes `field - 5`. -/
example : ∃ o ∈ overloads, o.fn = .minus ∧ o.params = [.field, .scalar] ∧
    ∃ e : Expr Int .num,
      build exS members .threads o [.field (NeboEx.fld false 1), .scalar 5] = some ⟨.num, e⟩ ∧
      e.value (fun _ _ => 12) 0 = 7 :=
  ⟨{ fn := .minus, params := [.field, .scalar], node := .diffOp, slots := [(.constField, 1), (.scalar, 2)],
     result := .expr, line := 1113 }, by decide +kernel, rfl, rfl, _, rfl, rfl⟩

/-- Non-vacuity of `C54_assign_operator`: `f0 <<= f1 - 5`. -/
example : ∃ (args : List (Arg Int)) (n : IntVec) (l : FieldObj) (b : Nat), args.map Arg.kind = [.field, .scalar] ∧
    IntVec.Lt 0 n ∧ Nebo.Target n l b ∧ (∀ a ∈ args, a.wf n) ∧ (∀ a ∈ args, a.independent l) ∧
    ∀ c, Nebo.Interior n l c → ∀ a ∈ args, a.definedAt n c := by
  refine ⟨[.field (NeboEx.fld false 1), .scalar 5], ⟨4, 3, 1⟩, NeboEx.fld false 0, 0, rfl, by decide,
    NeboEx.target false 0, ?_, ?_, ?_⟩
  · simp only [List.mem_cons, List.not_mem_nil, or_false, forall_eq_or_imp, forall_eq]
    exact ⟨⟨NeboEx.onMesh false, by decide⟩, trivial⟩
  · simp only [List.mem_cons, List.not_mem_nil, or_false, forall_eq_or_imp, forall_eq]
    exact ⟨.inl (by decide), trivial⟩
  · intro c hc
    have hh := Nebo.hasCell_iff (NeboEx.onMesh false)
    have e1 : (NeboEx.geo false).validGhosts.minus = ⟨1, 1, 0⟩ := rfl
    have e2 : (NeboEx.geo false).validGhosts.plus + (NeboEx.geo false).bc.hasExtra = ⟨1, 1, 0⟩ := by decide
    have e3 : (NeboEx.fld false 0).geo.bc.hasExtra = 0 := by decide
    rw [e1, e2] at hh
    unfold Nebo.Interior at hc
    rw [e3] at hc
    unfold Nebo.InBox at hh
    simp only [List.mem_cons, List.not_mem_nil, or_false, forall_eq_or_imp, forall_eq]
    refine ⟨(hh c).2 (by iv_omega), ?_⟩
    simp only [Arg.definedAt, Arg.asExpr, Expr.DefinedAt, ghostMax]
    iv_omega

end NeboOps
end SpatialOps
