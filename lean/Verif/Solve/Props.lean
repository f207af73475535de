import Verif.Solve.Spec

/-!
# C95: the course of a program decided by reductions does not depend on threads
-/

namespace SpatialOps
open Nebo
namespace Solve

variable {V : Type} [Add V] [Mul V] {n : IntVec}

theorem Value.unique {t : Test V} {m : Mem V} {v w : V} (hv : t.Value n m v) (hw : t.Value n m w) : v = w := by
  obtain ⟨a, as, h1, rfl⟩ := hv
  obtain ⟨b, bs, h2, rfl⟩ := hw
  obtain ⟨rfl, rfl⟩ := List.cons_eq_cons.1 (h1.unique h2)
  rfl

omit [Add V] [Mul V] in
theorem foldLoop_more {R : Type} {proc : R → V → R} {m : Mem V} : ∀ {k j : Nat} {w : Walk V .num} {r : R} {x : Outcome R},
    k ≤ j → foldLoop proc m k w r = some x → foldLoop proc m j w r = some x := by
  intro k
  induction k with
  | zero =>
    intro j w r x _ h
    unfold foldLoop at h ⊢
    split
    · rename_i ha; rw [if_pos ha] at h; exact h
    · rename_i ha; rw [if_neg ha] at h; cases h
  | succ k ih =>
    intro j w r x hj h
    obtain ⟨j, rfl⟩ : ∃ i, j = i + 1 := ⟨j - 1, by omega⟩
    unfold foldLoop at h ⊢
    split
    · rename_i ha; rw [if_pos ha] at h; exact h
    · rename_i ha
      rw [if_neg ha] at h
      dsimp only at h ⊢
      cases hw : w.eval m with
      | ok v => rw [hw] at h; exact ih (by omega) h
      | _ => rw [hw] at h; exact h

theorem andThen_more {α R : Type} {x : Outcome α} {f g : α → Option (Outcome R)} {y : Outcome R}
    (h : ∀ a, f a = some y → g a = some y) (hx : andThen x f = some y) : andThen x g = some y := by
  cases x with
  | ok a => exact h a hx
  | _ => exact hx

theorem reduce_more {proc : V → V → V} {e : Expr V .num} {m : Mem V} {k j : Nat} {x : Outcome V} (hkj : k ≤ j)
    (h : neboReduce proc e m k = some x) : neboReduce proc e m j = some x :=
  andThen_more (fun _ => andThen_more fun _ => andThen_more fun _ => foldLoop_more hkj) h

theorem reduceInterior_more {proc : V → V → V} {e : Expr V .num} {m : Mem V} {k j : Nat} {x : Outcome V} (hkj : k ≤ j)
    (h : neboReduceInterior proc e m k = some x) : neboReduceInterior proc e m j = some x :=
  andThen_more (fun _ => andThen_more fun _ => andThen_more fun _ => foldLoop_more hkj) h

/-- The reduction of a ready condition returns its value, and nothing else. -/
theorem reduce_value (hn : IntVec.Lt 0 n) {t : Test V} (ht : t.Ready n) (m : Mem V) :
    ∃ v, t.Value n m v ∧ (∃ k, t.reduce m k = some (.ok v)) ∧ ∀ k w, t.reduce m k = some (.ok w) → w = v := by
  have fin : ∀ v, Returns (t.reduce m) v → (∀ k j w, k ≤ j → t.reduce m k = some (.ok w) → t.reduce m j = some (.ok w)) →
      (∃ k, t.reduce m k = some (.ok v)) ∧ ∀ k w, t.reduce m k = some (.ok w) → w = v := by
    rintro v ⟨k, hk⟩ hm
    refine ⟨⟨k, hk k le_rfl⟩, fun j w hj => ?_⟩
    have h1 := hm j (max k j) w (le_max_right _ _) hj
    rw [hk _ (le_max_left _ _)] at h1
    injection h1 with h1
    injection h1 with h1
    exact h1.symm
  cases hi : t.interior with
  | false =>
    obtain ⟨a, as, hl, hr⟩ := C27_reduce_all_cells n hn t.e ht.wf ht.stencilFree ht.operand ht.defined t.proc m
    have e : t.reduce m = neboReduce t.proc t.e m := by unfold Test.reduce; rw [hi]; rfl
    refine ⟨_, ⟨a, as, by rw [hi]; exact hl, rfl⟩, fin _ (by rw [e]; exact hr) ?_⟩
    rw [e]
    exact fun k j w hkj h => reduce_more hkj h
  | true =>
    obtain ⟨a, as, hl, hr⟩ := C28_interior_reduce n hn t.e ht.wf ht.stencilFree ht.operand ht.defined t.proc m
    have e : t.reduce m = neboReduceInterior t.proc t.e m := by unfold Test.reduce; rw [hi]; rfl
    refine ⟨_, ⟨a, as, by rw [hi]; exact hl, rfl⟩, fin _ (by rw [e]; exact hr) ?_⟩
    rw [e]
    exact fun k j w hkj h => reduceInterior_more hkj h

theorem Exec.unique {c : Code V} {m m1 : Mem V} {l1 : List V} (h1 : Exec n c m m1 l1) :
    ∀ {m2 l2}, Exec n c m m2 l2 → m1 = m2 ∧ l1 = l2 := by
  induction h1 with
  | stmt h =>
    intro m2 l2 h2
    cases h2 with
    | stmt h' =>
      rw [h] at h'
      injection h' with h'
      exact ⟨h', rfl⟩
  | seq _ _ ih1 ih2 =>
    intro m2 l2 h2
    cases h2 with
    | seq a b =>
      obtain ⟨rfl, rfl⟩ := ih1 a
      obtain ⟨rfl, rfl⟩ := ih2 b
      exact ⟨rfl, rfl⟩
  | yes hv hp _ ih =>
    intro m2 l2 h2
    cases h2 with
    | yes hv' hp' a =>
      obtain rfl := Value.unique hv hv'
      obtain ⟨rfl, rfl⟩ := ih a
      exact ⟨rfl, rfl⟩
    | no hv' hp' a =>
      obtain rfl := Value.unique hv hv'
      rw [hp] at hp'; cases hp'
  | no hv hp _ ih =>
    intro m2 l2 h2
    cases h2 with
    | no hv' hp' a =>
      obtain rfl := Value.unique hv hv'
      obtain ⟨rfl, rfl⟩ := ih a
      exact ⟨rfl, rfl⟩
    | yes hv' hp' a =>
      obtain rfl := Value.unique hv hv'
      rw [hp] at hp'; cases hp'
  | more hv hp _ _ ih1 ih2 =>
    intro m2 l2 h2
    cases h2 with
    | more hv' hp' a b =>
      obtain rfl := Value.unique hv hv'
      obtain ⟨rfl, rfl⟩ := ih1 a
      obtain ⟨rfl, rfl⟩ := ih2 b
      exact ⟨rfl, rfl⟩
    | leave hv' hp' =>
      obtain rfl := Value.unique hv hv'
      rw [hp] at hp'; cases hp'
  | leave hv hp =>
    intro m2 l2 h2
    cases h2 with
    | leave hv' hp' =>
      obtain rfl := Value.unique hv hv'
      exact ⟨rfl, rfl⟩
    | more hv' hp' a b =>
      obtain rfl := Value.unique hv hv'
      rw [hp] at hp'; cases hp'

/-- The programs still to be executed, one after the other. -/
inductive ExecL (n : IntVec) : List (Code V) → Mem V → Mem V → List V → Prop where
  | nil {m} : ExecL n [] m m []
  | cons {c cs m m1 m2 l1 l2} : Exec n c m m1 l1 → ExecL n cs m1 m2 l2 → ExecL n (c :: cs) m m2 (l1 ++ l2)

/-- Whatever the rest of the program does to `x`, the whole program does to `m`. -/
def Leads (n : IntVec) (c : Code V) (m : Mem V) (todo : List (Code V)) (x : Mem V) (log : List V) : Prop :=
  ∀ m' l, ExecL n todo x m' l → Exec n c m m' (log ++ l)

/-- The states a run can be in. -/
def Inv (n : IntVec) (c : Code V) (m : Mem V) : SolveState V → Prop
  | .idle todo x log => (∀ d ∈ todo, d.Ready n) ∧ Leads n c m todo x log
  | .busy p todo log => ∃ ghost t e x k s0 j, 1 ≤ k ∧ (∀ d ∈ Code.stmt ghost t e :: todo, d.Ready n) ∧
      Leads n c m (.stmt ghost t e :: todo) x log ∧ parallelAssign ghost t k e x = .ok s0 ∧ ParRun s0 j p

theorem inv_step (hn : IntVec.Lt 0 n) {c : Code V} {m : Mem V} {s s' : SolveState V} (h : Inv n c m s) (hs : SolveStep s s') :
    Inv n c m s' := by
  cases hs with
  | alone he =>
    refine ⟨fun d hd => h.1 d (by simp [hd]), fun m' l hl => ?_⟩
    simpa using h.2 m' _ (.cons (.stmt he) hl)
  | fork k hk he => exact ⟨_, _, _, _, k, _, 0, hk, h.1, h.2, he, .start⟩
  | work hw =>
    obtain ⟨ghost, t, e, x, k, s0, j, h1, h2, h3, h4, h5⟩ := h
    exact ⟨ghost, t, e, x, k, s0, j + 1, h1, h2, h3, h4, .step h5 hw⟩
  | join hw =>
    obtain ⟨ghost, t, e, x, k, s0, j, h1, h2, h3, h4, h5⟩ := h
    obtain ⟨⟨b, ht⟩, he, hd, hi⟩ := h2 (.stmt ghost t e) (by simp)
    obtain ⟨s1, m1, a1, a2, -, hall⟩ := C23_parallel_equals_sequential n hn t b ht e he hd hi ghost k h1 x
    rw [h4] at a1
    injection a1 with a1
    subst a1
    have := ((hall j _ h5).2.2 hw).1
    refine ⟨fun d hd => h2 d (by simp [hd]), fun m' l hl => ?_⟩
    rw [this] at hl
    simpa using h3 m' _ (.cons (.stmt a2) hl)
  | @seq a b todo x log =>
    have hr := h.1 (.seq a b) (by simp)
    refine ⟨fun d hd => ?_, fun m' l hl => ?_⟩
    · rcases List.mem_cons.1 hd with rfl | hd
      · exact hr.1
      · rcases List.mem_cons.1 hd with rfl | hd
        · exact hr.2
        · exact h.1 d (by simp [hd])
    · cases hl with
      | cons h1 h2 =>
        cases h2 with
        | cons h2 h3 => simpa using h.2 m' _ (.cons (.seq h1 h2) h3)
  | @ite t a b todo x log v k hv =>
    have hr := h.1 (.ite t a b) (by simp)
    obtain ⟨w, hw, -, hu⟩ := reduce_value hn hr.1 x
    obtain rfl := hu k v hv
    refine ⟨fun d hd => ?_, fun m' l hl => ?_⟩
    · rcases List.mem_cons.1 hd with rfl | hd
      · split
        · exact hr.2.1
        · exact hr.2.2
      · exact h.1 d (by simp [hd])
    · cases hl with
      | cons h1 h2 =>
        cases hp : t.pass v with
        | true =>
          rw [hp] at h1
          simpa using h.2 m' _ (.cons (.yes hw hp h1) h2)
        | false =>
          rw [hp] at h1
          simpa using h.2 m' _ (.cons (.no hw hp h1) h2)
  | @more t body todo x log v k hv hp =>
    have hr := h.1 (.loop t body) (by simp)
    obtain ⟨w, hw, -, hu⟩ := reduce_value hn hr.1 x
    obtain rfl := hu k v hv
    refine ⟨fun d hd => ?_, fun m' l hl => ?_⟩
    · rcases List.mem_cons.1 hd with rfl | hd
      · exact hr.2
      · exact h.1 d hd
    · cases hl with
      | cons h1 h2 =>
        cases h2 with
        | cons h2 h3 => simpa using h.2 m' _ (.cons (.more hw hp h1 h2) h3)
  | @leave t body todo x log v k hv hp =>
    have hr := h.1 (.loop t body) (by simp)
    obtain ⟨w, hw, -, hu⟩ := reduce_value hn hr.1 x
    obtain rfl := hu k v hv
    refine ⟨fun d hd => h.1 d (by simp [hd]), fun m' l hl => ?_⟩
    simpa using h.2 m' _ (.cons (.leave hw hp) hl)

theorem inv_run (hn : IntVec.Lt 0 n) {c : Code V} (hc : c.Ready n) {m : Mem V} {s : SolveState V}
    (h : SolveRun (.idle [c] m []) s) : Inv n c m s := by
  induction h with
  | start =>
    refine ⟨fun d hd => (by rw [List.mem_singleton.1 hd]; exact hc), fun m' l hl => ?_⟩
    cases hl with
    | cons h1 h2 => cases h2 with | nil => simpa using h1
  | step _ hs ih => exact inv_step hn ih hs

/-- A state from which no run goes on for ever. -/
def Ends (s : SolveState V) : Prop := Acc (fun a b => SolveStep b a) s

theorem par_ends {todo : List (Code V)} {log : List V} {s0 : ParState V} {B : Nat} (hB : ∀ k s, ParRun s0 k s → k ≤ B)
    (hj : ∀ k s, ParRun s0 k s → s.waits = 0 → Ends (.idle todo s.mem log)) :
    ∀ (d k : Nat) (s : ParState V), ParRun s0 k s → B - k ≤ d → Ends (.busy s todo log) := by
  intro d
  induction d with
  | zero =>
    intro k s hs hd
    refine ⟨_, fun s' h => ?_⟩
    cases h with
    | work hw =>
      have := hB _ _ (.step hs hw)
      omega
    | join hw => exact hj k s hs hw
  | succ d ih =>
    intro k s hs hd
    refine ⟨_, fun s' h => ?_⟩
    cases h with
    | work hw => exact ih (k + 1) _ (.step hs hw) (by omega)
    | join hw => exact hj k s hs hw

theorem ends (hn : IntVec.Lt 0 n) {c : Code V} {m m' : Mem V} {l : List V} (h : Exec n c m m' l) (hc : c.Ready n) :
    ∀ todo : List (Code V), (∀ log, Ends (.idle todo m' log)) → ∀ log, Ends (.idle (c :: todo) m log) := by
  induction h with
  | @stmt ghost t e m m' he =>
    intro todo ht log
    refine ⟨_, fun s' h => ?_⟩
    cases h with
    | alone he' =>
      rw [he] at he'
      injection he' with he'
      subst he'
      exact ht log
    | fork k hk hq =>
      obtain ⟨⟨b, htg⟩, hw, hd, hi⟩ := hc
      obtain ⟨s1, m1, a1, a2, ⟨B, hB⟩, hall⟩ := C23_parallel_equals_sequential n hn t b htg e hw hd hi ghost k hk m
      rw [hq] at a1
      injection a1 with a1
      subst a1
      rw [he] at a2
      injection a2 with a2
      subst a2
      refine par_ends hB (fun k s hs hw => ?_) B 0 _ .start (by omega)
      rw [((hall k s hs).2.2 hw).1]
      exact ht log
  | seq _ _ ih1 ih2 =>
    intro todo ht log
    refine ⟨_, fun s' h => ?_⟩
    cases h with
    | seq => exact ih1 hc.1 _ (ih2 hc.2 _ ht) log
  | yes hv hp _ ih =>
    intro todo ht log
    refine ⟨_, fun s' h => ?_⟩
    cases h with
    | @ite _ _ _ _ _ _ w k hw =>
      obtain ⟨u, hu, -, huu⟩ := reduce_value hn hc.1 _
      obtain rfl := huu k w hw
      obtain rfl := Value.unique hv hu
      rw [if_pos hp]
      exact ih hc.2.1 _ ht _
  | no hv hp _ ih =>
    intro todo ht log
    refine ⟨_, fun s' h => ?_⟩
    cases h with
    | @ite _ _ _ _ _ _ w k hw =>
      obtain ⟨u, hu, -, huu⟩ := reduce_value hn hc.1 _
      obtain rfl := huu k w hw
      obtain rfl := Value.unique hv hu
      rw [if_neg (by rw [hp]; decide)]
      exact ih hc.2.2 _ ht _
  | more hv hp _ _ ih1 ih2 =>
    intro todo ht log
    refine ⟨_, fun s' h => ?_⟩
    cases h with
    | more k hw _ => exact ih1 hc.2 _ (ih2 hc _ ht) _
    | @leave _ _ _ _ _ w k hw hp' =>
      obtain ⟨u, hu, -, huu⟩ := reduce_value hn hc.1 _
      obtain rfl := huu k w hw
      obtain rfl := Value.unique hv hu
      rw [hp] at hp'; cases hp'
  | leave hv hp =>
    intro todo ht log
    refine ⟨_, fun s' h => ?_⟩
    cases h with
    | @more _ _ _ _ _ w k hw hp' =>
      obtain ⟨u, hu, -, huu⟩ := reduce_value hn hc.1 _
      obtain rfl := huu k w hw
      obtain rfl := Value.unique hv hu
      rw [hp] at hp'; cases hp'
    | leave k hw _ => exact ht _

end Solve

/-- C95. A program of assignments, `if` and `while` statements whose conditions are computed from reductions, where each
assignment, each time it is reached, may be divided into any number of tasks: however these are scheduled, no two tasks ever
race, the program is never stuck before its end, and if it comes to its end then so does the program run by a single thread,
with the same memory and the same values of all reductions in the same order. -/
theorem C95_program {V : Type} [Add V] [Mul V] (n : IntVec) (hn : IntVec.Lt 0 n) (c : Code V) (hc : c.Ready n) (m : Mem V)
    (s : SolveState V) (h : SolveRun (.idle [c] m []) s) :
    ¬ s.Race ∧ ((∀ x l, s ≠ .idle [] x l) → ∃ s', SolveStep s s') ∧ (∀ x l, s = .idle [] x l → Exec n c m x l) := by
  have hi := Solve.inv_run hn hc h
  cases s with
  | idle todo x log =>
    refine ⟨id, fun hne => ?_, fun x' l e => ?_⟩
    · cases todo with
      | nil => exact absurd rfl (hne x log)
      | cons d todo =>
        have hr := hi.1 d (by simp)
        cases d with
        | stmt ghost t e =>
          obtain ⟨⟨b, ht⟩, hw, hd, hii⟩ := hr
          obtain ⟨s0, m1, -, a2, -⟩ := C23_parallel_equals_sequential n hn t b ht e hw hd hii ghost 1 le_rfl x
          exact ⟨_, .alone a2⟩
        | seq a b => exact ⟨_, .seq⟩
        | ite t a b =>
          obtain ⟨v, -, ⟨k, hk⟩, -⟩ := Solve.reduce_value hn hr.1 x
          exact ⟨_, .ite k hk⟩
        | loop t body =>
          obtain ⟨v, -, ⟨k, hk⟩, -⟩ := Solve.reduce_value hn hr.1 x
          cases hp : t.pass v with
          | true => exact ⟨_, .more k hk hp⟩
          | false => exact ⟨_, .leave k hk hp⟩
    · injection e with e1 e2 e3
      subst e1 e2 e3
      simpa using hi.2 x [] .nil
  | busy p todo log =>
    obtain ⟨ghost, t, e, x, k, s0, j, h1, h2, h3, h4, h5⟩ := hi
    obtain ⟨⟨b, ht⟩, hw, hd, hii⟩ := h2 (.stmt ghost t e) (by simp)
    obtain ⟨s1, m1, a1, a2, -, hall⟩ := C23_parallel_equals_sequential n hn t b ht e hw hd hii ghost k h1 x
    rw [h4] at a1
    injection a1 with a1
    subst a1
    obtain ⟨b1, b2, -⟩ := hall j p h5
    refine ⟨b1, fun _ => ?_, fun _ _ e => by cases e⟩
    by_cases hz : p.waits = 0
    · exact ⟨_, .join hz⟩
    · obtain ⟨p', hp'⟩ := b2 hz
      exact ⟨_, .work hp'⟩

/-- C95. If the program run by a single thread comes to its end, no run goes on for ever (so that every run that is
continued comes to its end), and every run that ends leaves the same memory and has computed the same values. -/
theorem C95_ends {V : Type} [Add V] [Mul V] (n : IntVec) (hn : IntVec.Lt 0 n) (c : Code V) (hc : c.Ready n) (m m' : Mem V)
    (l : List V) (h : Exec n c m m' l) :
    (¬ ∃ f : Nat → SolveState V, f 0 = .idle [c] m [] ∧ ∀ i, SolveStep (f i) (f (i + 1))) ∧
    ∀ x l', SolveRun (.idle [c] m []) (.idle [] x l') → x = m' ∧ l' = l := by
  refine ⟨?_, fun x l' hr => Solve.Exec.unique ((C95_program n hn c hc m _ hr).2.2 x l' rfl) h⟩
  rintro ⟨f, h0, hf⟩
  have he : Solve.Ends (.idle [c] m []) := Solve.ends hn h hc [] (fun log => ⟨_, fun s' hs => by cases hs⟩) []
  have key : ∀ s, Solve.Ends s → ∀ i, f i ≠ s := by
    intro s hs
    induction hs with
    | intro s _ ih =>
      intro i e
      exact ih (f (i + 1)) (by rw [← e]; exact hf i) (i + 1) rfl
  exact key _ he 0 h0

/-- C95. If the program run by a single thread does not come to its end, no run on the pool does: each can be continued
for ever. -/
theorem C95_forever {V : Type} [Add V] [Mul V] (n : IntVec) (hn : IntVec.Lt 0 n) (c : Code V) (hc : c.Ready n) (m : Mem V)
    (h : ¬ ∃ m' l, Exec n c m m' l) :
    ∀ s, SolveRun (.idle [c] m []) s → (∀ x l, s ≠ .idle [] x l) ∧ ∃ s', SolveStep s s' := by
  intro s hs
  obtain ⟨-, h1, h2⟩ := C95_program n hn c hc m s hs
  have : ∀ x l, s ≠ .idle [] x l := fun x l e => h ⟨x, l, h2 x l e⟩
  exact ⟨this, h1 this⟩

/-- C95. Two runs that end, divided and scheduled in any two ways, leave the same memory, and their reductions had the same
values in the same order: the loops made the same number of passes. -/
theorem C95_same_result {V : Type} [Add V] [Mul V] (n : IntVec) (hn : IntVec.Lt 0 n) (c : Code V) (hc : c.Ready n)
    (m x y : Mem V) (l l' : List V) (hx : SolveRun (.idle [c] m []) (.idle [] x l))
    (hy : SolveRun (.idle [c] m []) (.idle [] y l')) : x = y ∧ l = l' :=
  Solve.Exec.unique ((C95_program n hn c hc m _ hx).2.2 x l rfl) ((C95_program n hn c hc m _ hy).2.2 y l' rfl)

namespace Solve

/-- The field of the example, 4 × 3 cells with ghost cells. -/
def fld : FieldObj := NeboEx.fld false 4

/-- `nebo_max_interior(f) > 0`. -/
def positive : Test Int := ⟨true, stdMax, .field fld, fun v => decide (0 < v)⟩

/-- `while (nebo_max_interior(f) > 0) interior_assign(f, f - 1);`. -/
def countdown : Code Int := .loop positive (.stmt false fld (.un (s := .num) (t := .num) (· - 1) (.field fld)))

theorem fld_extra : fld.geo.bc.hasExtra = 0 := by decide

theorem fld_defined (c : IntVec) (hc : InBlock ⟨4, 3, 1⟩ c) : HasCell fld.geo c := by
  have hh := hasCell_iff (NeboEx.onMesh false) c
  have e1 : (NeboEx.geo false).validGhosts.minus = ⟨1, 1, 0⟩ := rfl
  have e2 : (NeboEx.geo false).validGhosts.plus + (NeboEx.geo false).bc.hasExtra = ⟨1, 1, 0⟩ := by decide
  rw [e1, e2] at hh
  unfold InBox at hh
  exact hh.2 (by iv_omega)

theorem fld_interior (c : IntVec) : Interior ⟨4, 3, 1⟩ fld c ↔ InBlock ⟨4, 3, 1⟩ c := by
  unfold Interior
  rw [fld_extra]
  constructor <;> intro h <;> iv_omega

theorem positive_ready : positive.Ready ⟨4, 3, 1⟩ :=
  ⟨⟨NeboEx.onMesh false, by decide⟩, trivial, trivial, fld_defined⟩

theorem countdown_ready : countdown.Ready ⟨4, 3, 1⟩ :=
  ⟨positive_ready, ⟨4, NeboEx.target false 4⟩, ⟨NeboEx.onMesh false, by decide⟩,
    fun c hc => fld_defined c ((fld_interior c).1 hc), .inr ⟨rfl, rfl, rfl⟩⟩

/-- The reduction of the example is the largest value of the field. -/
theorem positive_value (m : Mem Int) : ∃ v, positive.Value ⟨4, 3, 1⟩ m v ∧
    (∃ c, InBlock ⟨4, 3, 1⟩ c ∧ m 4 (cellAddr fld.geo c) = v) ∧ ∀ c, InBlock ⟨4, 3, 1⟩ c → m 4 (cellAddr fld.geo c) ≤ v := by
  obtain ⟨-, -, -, ⟨r, ⟨k, hr⟩, ⟨c, hc, h1⟩, h2⟩, -⟩ :=
    C28_interior_of_field_partial ⟨4, 3, 1⟩ (by decide) fld (NeboEx.onMesh false) (by decide) fld_extra m
  obtain ⟨v, hv, -, hu⟩ := reduce_value (by decide) positive_ready m
  obtain rfl : r = v := hu k r (hr k le_rfl)
  exact ⟨r, hv, ⟨c, (fld_interior c).1 hc, h1⟩, fun c hc => h2 c ((fld_interior c).2 hc)⟩

/-- Whatever the field contains, the program run by a single thread comes to its end, after at most as many passes as the
largest value, with no positive value left. -/
theorem countdown_exec : ∀ (k : Nat) (m : Mem Int), (∀ c, InBlock ⟨4, 3, 1⟩ c → m 4 (cellAddr fld.geo c) ≤ k) →
    ∃ m' l, Exec ⟨4, 3, 1⟩ countdown m m' l ∧ l.length ≤ k + 1 ∧ ∀ c, InBlock ⟨4, 3, 1⟩ c → m' 4 (cellAddr fld.geo c) ≤ 0 := by
  intro k
  induction k with
  | zero =>
    intro m hm
    obtain ⟨v, hv, ⟨c, hc, h1⟩, h2⟩ := positive_value m
    have := hm c hc
    refine ⟨m, [v], .leave hv ?_, by simp, hm⟩
    show decide (0 < v) = false
    simp
    omega
  | succ k ih =>
    intro m hm
    obtain ⟨v, hv, ⟨c, hc, h1⟩, h2⟩ := positive_value m
    by_cases hp : 0 < v
    · obtain ⟨-, ⟨b, ht⟩, hw, hd, hi⟩ := countdown_ready
      obtain ⟨m1, e1, e2, -⟩ := C22_interior_assign_pointwise ⟨4, 3, 1⟩ (by decide) fld 4 (NeboEx.target false 4) _ hw hd hi m
      obtain ⟨m', l, e3, e4, e5⟩ := ih m1 fun c hc => by
        rw [e2 c ((fld_interior c).2 hc)]
        have := hm c hc
        show m 4 (cellAddr fld.geo c) - 1 ≤ k
        push_cast at this
        omega
      exact ⟨m', v :: [] ++ l, .more hv (by show decide (0 < v) = true; simpa using hp) (.stmt e1) e3, by simp; omega, e5⟩
    · refine ⟨m, [v], .leave hv ?_, by simp, fun c hc => (h2 c hc).trans (by omega)⟩
      show decide (0 < v) = false
      simpa using hp

/-- Non-vacuity: the countdown comes to its end for every content of the field, however its assignments are divided, and
leaves no positive value. -/
example (m : Mem Int) :
    (¬ ∃ f : Nat → SolveState Int, f 0 = .idle [countdown] m [] ∧ ∀ i, SolveStep (f i) (f (i + 1))) ∧
    ∀ x l, SolveRun (.idle [countdown] m []) (.idle [] x l) → ∀ c, InBlock ⟨4, 3, 1⟩ c → x 4 (cellAddr fld.geo c) ≤ 0 := by
  obtain ⟨v, -, -, h2⟩ := positive_value m
  obtain ⟨m', l, h, -, h0⟩ := countdown_exec v.toNat m fun c hc => (h2 c hc).trans (by omega)
  obtain ⟨a1, a2⟩ := C95_ends ⟨4, 3, 1⟩ (by decide) countdown countdown_ready m m' l h
  exact ⟨a1, fun x l' hx => by rw [(a2 x l' hx).1]; exact h0⟩

/-- Non-vacuity of `C95_forever`: a loop that leaves its field alone, on a field with a positive value. -/
def stuck : Code Int := .loop positive (.stmt false fld (.field fld))

theorem stuck_ready : stuck.Ready ⟨4, 3, 1⟩ :=
  ⟨positive_ready, ⟨4, NeboEx.target false 4⟩, ⟨NeboEx.onMesh false, by decide⟩,
    fun c hc => fld_defined c ((fld_interior c).1 hc), .inr ⟨rfl, rfl, rfl⟩⟩

example (m : Mem Int) (hm : 0 < m 4 (cellAddr fld.geo 0)) : ¬ ∃ m' l, Exec ⟨4, 3, 1⟩ stuck m m' l := by
  rintro ⟨m', l, h⟩
  obtain ⟨c, hc⟩ : ∃ c, c = stuck := ⟨_, rfl⟩
  rw [← hc] at h
  induction h with
  | stmt _ | seq _ _ _ _ | yes _ _ _ _ | no _ _ _ _ => cases hc
  | more hv hp h1 h2 _ ih =>
    unfold stuck at hc
    injection hc with e1 e2
    subst e1 e2
    cases h1 with
    | stmt h1 =>
      obtain ⟨-, ⟨b, ht⟩, hw, hd, hi⟩ := stuck_ready
      obtain ⟨m1, a1, a2, -⟩ := C22_interior_assign_pointwise ⟨4, 3, 1⟩ (by decide) fld 4 (NeboEx.target false 4) _ hw hd hi _
      obtain rfl : m1 = _ := by
        have := a1.symm.trans h1
        injection this
      refine ih ?_ rfl
      rw [a2 0 ((fld_interior 0).2 (by decide))]
      exact hm
  | leave hv hp =>
    unfold stuck at hc
    injection hc with e1 e2
    subst e1 e2
    obtain ⟨v, hv', -, h2⟩ := positive_value _
    obtain rfl := Value.unique hv' hv
    have h0 := h2 0 (by decide)
    have hp' : decide (0 < v) = false := hp
    simp at hp'
    omega

end Solve
end SpatialOps
