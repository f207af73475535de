import Verif.Streams.Serial

/-!
# Lemmas: host, streams and waiting
-/

namespace SpatialOps
namespace Str
open Nebo

variable {V : Type}

theorem get_set {α : Type} {l : List α} {i j : Nat} {x y : α} (h : (l.set j x)[i]? = some y) :
    (i = j ∧ y = x ∧ j < l.length) ∨ (i ≠ j ∧ l[i]? = some y) := by
  rw [List.getElem?_set] at h
  split at h
  · rename_i e
    split at h
    · injection h with h
      exact .inl ⟨e.symm, h.symm, by assumption⟩
    · cases h
  · rename_i e
    exact .inr ⟨fun h => e h.symm, h⟩

theorem set_other {α : Type} {l : List α} {i j : Nat} {x : α} (h : i ≠ j) : (l.set j x)[i]? = l[i]? :=
  List.getElem?_set_ne fun e => h e.symm

theorem set_self {α : Type} {l : List α} {j : Nat} {x y : α} (h : l[j]? = some y) : (l.set j x)[j]? = some x :=
  List.getElem?_set_self (List.getElem?_eq_some_iff.1 h).1

/-- Step `i` is over before step `j` begins. -/
inductive HB (blocking : Nat → Bool) (K : List Kind) : Nat → Nat → Prop where
  | host {i j : Nat} {κ : Kind} : i < j → K[i]? = some κ → (∀ t, κ ≠ .dev t) → HB blocking K i j
  | streams {i j s t : Nat} : i < j → K[i]? = some (.dev s) → K[j]? = some (.dev t) → ordered blocking s t = true →
      HB blocking K i j
  | wait {i j s : Nat} : i < j → K[i]? = some (.dev s) → K[j]? = some (.wait s) → HB blocking K i j
  | trans {i k j : Nat} : HB blocking K i k → HB blocking K k j → HB blocking K i j

theorem HB.lt {blocking : Nat → Bool} {K : List Kind} {i j : Nat} (h : HB blocking K i j) : i < j := by
  induction h with
  | host h => exact h
  | streams h => exact h
  | wait h => exact h
  | trans _ _ h1 h2 => omega

theorem HB.range {blocking : Nat → Bool} {K : List Kind} {i j : Nat} (h : HB blocking K i j) : ∃ κ, K[i]? = some κ := by
  induction h with
  | host _ h => exact ⟨_, h⟩
  | streams _ h => exact ⟨_, h⟩
  | wait _ h => exact ⟨_, h⟩
  | trans _ _ h1 _ => exact h1

/-- The invariant of host and device. -/
structure Inv (blocking : Nat → Bool) (K : List Kind) (s : St V) : Prop where
  kind : s.items.map Item.kind = K
  pc : s.pc ≤ s.items.length
  passed : ∀ j it, s.items[j]? = some it → (∀ t, it.kind ≠ .dev t) → (it.over = true ↔ j < s.pc)
  issued : ∀ (j : Nat) it, s.items[j]? = some it → it.over = true → j < s.pc
  ended : ∀ (j : Nat) it, s.items[j]? = some it → it.over = true → Ended it.tasks
  hb : ∀ i j, HB blocking K i j → ∀ x y, s.items[i]? = some x → s.items[j]? = some y → y.over = true → x.over = true

theorem Inv.kindAt {blocking : Nat → Bool} {K : List Kind} {s : St V} (h : Inv blocking K s) {j : Nat} {it : Item V}
    (hj : s.items[j]? = some it) : K[j]? = some it.kind := by
  rw [← h.kind, List.getElem?_map, hj]; rfl

theorem Inv.get {blocking : Nat → Bool} {K : List Kind} {s : St V} (h : Inv blocking K s) {j : Nat} {κ : Kind}
    (hj : K[j]? = some κ) : ∃ it, s.items[j]? = some it ∧ it.kind = κ := by
  rw [← h.kind, List.getElem?_map] at hj
  cases e : s.items[j]? with
  | none => rw [e] at hj; cases hj
  | some it => rw [e] at hj; injection hj with hj; exact ⟨it, rfl, hj⟩

theorem Active.le {blocking : Nat → Bool} {s : St V} {j : Nat} (h : Active blocking s j) : j ≤ s.pc := by
  obtain ⟨it, -, -, h⟩ := h
  split at h
  · exact h.le
  · exact h.1.le
  · exact h.1.le

/-- A step that is running has all it waits for behind it. -/
theorem active_over {blocking : Nat → Bool} {K : List Kind} {s : St V} (h : Inv blocking K s) {i j : Nat}
    (hb : HB blocking K i j) : Active blocking s j → ∀ x, s.items[i]? = some x → x.over = true := by
  induction hb with
  | @host i j κ hij hi hκ =>
    intro ha x hx
    have hk := h.kindAt hx
    rw [hi] at hk; injection hk with hk; subst hk
    exact (h.passed i x hx hκ).2 (by have := ha.le; omega)
  | streams hij hi hj ho =>
    intro ha x hx
    obtain ⟨it, h1, -, h3⟩ := ha
    have hk := h.kindAt hx
    rw [hi] at hk; injection hk with hk
    have hk' := h.kindAt h1
    rw [hj] at hk'; injection hk' with hk'
    rw [← hk'] at h3
    exact h3.2 _ x _ hij hx hk.symm ho
  | wait hij hi hj =>
    intro ha x hx
    obtain ⟨it, h1, -, h3⟩ := ha
    have hk := h.kindAt hx
    rw [hi] at hk; injection hk with hk
    have hk' := h.kindAt h1
    rw [hj] at hk'; injection hk' with hk'
    rw [← hk'] at h3
    exact h3.2 _ x hij hx hk.symm
  | trans h1 h2 _ ih2 =>
    intro ha x hx
    obtain ⟨κ, hκ⟩ := h2.range
    obtain ⟨y, hy, -⟩ := h.get hκ
    exact h.hb _ _ h1 x y hx hy (ih2 ha y hy)

theorem countP_set_over {l : List (Item V)} {j : Nat} {it : Item V} (h : l[j]? = some it) (ho : it.over = false) :
    (l.set j { it with over := true }).countP Item.over = l.countP Item.over + 1 := by
  induction l generalizing j with
  | nil => simp at h
  | cons x l ih =>
    cases j with
    | zero =>
      simp only [List.getElem?_cons_zero, Option.some.injEq] at h
      subst h
      simp [ho]
    | succ j =>
      rw [List.getElem?_cons_succ] at h
      rw [List.set_cons_succ, List.countP_cons, List.countP_cons, ih h]
      omega

theorem countP_set_tasks {l : List (Item V)} {j : Nat} {it : Item V} (ts : Tasks V) (h : l[j]? = some it) :
    (l.set j { it with tasks := ts }).countP Item.over = l.countP Item.over := by
  induction l generalizing j with
  | nil => simp at h
  | cons x l ih =>
    cases j with
    | zero =>
      simp only [List.getElem?_cons_zero, Option.some.injEq] at h
      subst h
      simp [List.countP_cons]
    | succ j =>
      rw [List.getElem?_cons_succ] at h
      rw [List.set_cons_succ, List.countP_cons, List.countP_cons, ih h]

theorem map_set_same {α β : Type} (f : α → β) {l : List α} {j : Nat} {x y : α} (h : l[j]? = some y) (hf : f x = f y) :
    (l.set j x).map f = l.map f := by
  apply List.ext_getElem?
  intro i
  rw [List.getElem?_map, List.getElem?_map]
  by_cases hij : i = j
  · subst hij; rw [set_self h, h]; exact congrArg some hf
  · rw [set_other hij]

theorem map_set_tasks {l : List (Item V)} {j : Nat} {it : Item V} (ts : Tasks V) :
    (l.set j { it with tasks := ts }).map Item.tasks = (l.map Item.tasks).set j ts := by
  rw [List.map_set]

theorem Inv.step {blocking : Nat → Bool} {K : List Kind} {s s' : St V} (h : Inv blocking K s) (hs : Step blocking s s') :
    Inv blocking K s' := by
  cases hs with
  | @task j it ts m ha hj ht =>
    have ho : it.over = false := by
      obtain ⟨it', h1, h2, -⟩ := ha
      rw [hj] at h1; injection h1 with h1; subst h1; exact h2
    have back : ∀ i x, (s.items.set j { it with tasks := ts })[i]? = some x →
        ∃ x', s.items[i]? = some x' ∧ x'.kind = x.kind ∧ x'.over = x.over ∧ (i ≠ j → x' = x) := by
      intro i x hx
      rcases get_set hx with ⟨rfl, rfl, -⟩ | ⟨h1, h2⟩
      · exact ⟨it, hj, rfl, rfl, fun h => absurd rfl h⟩
      · exact ⟨x, h2, rfl, rfl, fun _ => rfl⟩
    refine ⟨?_, ?_, ?_, ?_, ?_, ?_⟩
    · rw [← h.kind]; exact map_set_same _ hj rfl
    · rw [List.length_set]; exact h.pc
    · intro i x hx hk
      obtain ⟨x', h1, h2, h3, -⟩ := back i x hx
      rw [← h3]; exact h.passed i x' h1 (by rw [h2]; exact hk)
    · intro i x hx hov
      obtain ⟨x', h1, h2, h3, -⟩ := back i x hx
      exact h.issued i x' h1 (by rw [h3]; exact hov)
    · intro i x hx hov
      obtain ⟨x', h1, h2, h3, h4⟩ := back i x hx
      have hne : i ≠ j := by
        rintro rfl
        rw [hj] at h1; injection h1 with h1; subst h1
        rw [← h3, ho] at hov; cases hov
      have := h4 hne; subst this
      exact h.ended i x' h1 hov
    · intro i k hb x y hx hy hov
      obtain ⟨x', h1, h2, h3, -⟩ := back i x hx
      obtain ⟨y', q1, q2, q3, -⟩ := back k y hy
      rw [← h3]; exact h.hb i k hb x' y' h1 q1 (by rw [q3]; exact hov)
  | @finish j it ha hj he =>
    have hjl : j < s.items.length := (List.getElem?_eq_some_iff.1 hj).1
    have ho : it.over = false := by
      obtain ⟨it', h1, h2, -⟩ := ha
      rw [hj] at h1; injection h1 with h1; subst h1; exact h2
    obtain ⟨pc', hpc⟩ : ∃ pc', pc' = it.kind.pass s.pc := ⟨_, rfl⟩
    have hpc1 : s.pc ≤ pc' ∧ ((∀ t, it.kind ≠ .dev t) → j = s.pc ∧ pc' = s.pc + 1) ∧ (∀ t, it.kind = .dev t → j < s.pc ∧ pc' = s.pc) := by
      obtain ⟨it', h1, h2, h3⟩ := ha
      rw [hj] at h1; injection h1 with h1; subst h1
      cases hk : it.kind with
      | host =>
        rw [hk] at h3 hpc
        exact ⟨by simp only [Kind.pass] at hpc; omega, fun _ => ⟨h3, hpc⟩, fun t ht => by cases ht⟩
      | wait t =>
        rw [hk] at h3 hpc
        exact ⟨by simp only [Kind.pass] at hpc; omega, fun _ => ⟨h3.1, hpc⟩, fun t ht => by cases ht⟩
      | dev t =>
        rw [hk] at h3 hpc
        exact ⟨by simp only [Kind.pass] at hpc; omega, fun hh => absurd rfl (hh t), fun t ht => ⟨h3.1, hpc⟩⟩
    rw [← hpc]
    have hdev : ∀ κ : Kind, (∃ t, κ = .dev t) ∨ ∀ t, κ ≠ .dev t := by
      intro κ
      cases κ with
      | dev t => exact .inl ⟨t, rfl⟩
      | host => exact .inr fun t ht => by cases ht
      | wait s => exact .inr fun t ht => by cases ht
    refine ⟨?_, ?_, ?_, ?_, ?_, ?_⟩
    · rw [← h.kind]; exact map_set_same _ hj rfl
    · dsimp only
      rw [List.length_set]
      have := h.pc
      rcases hdev it.kind with ⟨t, ht⟩ | hnd
      · have := hpc1.2.2 t ht; omega
      · have := hpc1.2.1 hnd; omega
    · intro i x hx hk
      rcases get_set hx with ⟨rfl, rfl, -⟩ | ⟨h1, h2⟩
      · have := hpc1.2.1 hk
        exact ⟨fun _ => by dsimp only; omega, fun _ => rfl⟩
      · rw [h.passed i x h2 hk]
        rcases hdev it.kind with ⟨t, ht⟩ | hnd
        · have := hpc1.2.2 t ht
          dsimp only
          omega
        · have := hpc1.2.1 hnd
          dsimp only
          omega
    · intro i x hx hov
      rcases get_set hx with ⟨rfl, rfl, -⟩ | ⟨h1, h2⟩
      · rcases hdev it.kind with ⟨t, ht⟩ | hnd
        · have := hpc1.2.2 t ht; dsimp only; omega
        · have := hpc1.2.1 hnd; dsimp only; omega
      · have := h.issued i x h2 hov
        dsimp only
        omega
    · intro i x hx hov
      rcases get_set hx with ⟨rfl, rfl, -⟩ | ⟨h1, h2⟩
      · exact he
      · exact h.ended i x h2 hov
    · intro i k hb x y hx hy hov
      rcases get_set hx with ⟨rfl, rfl, -⟩ | ⟨h1, h2⟩
      · rfl
      · rcases get_set hy with ⟨rfl, rfl, -⟩ | ⟨q1, q2⟩
        · exact active_over h hb ha x h2
        · exact h.hb i k hb x y h2 q2 hov
  | @issue it t hi hk =>
    have hlt : s.pc < s.items.length := (List.getElem?_eq_some_iff.1 hi).1
    refine ⟨h.kind, by dsimp only; omega, ?_, ?_, h.ended, h.hb⟩
    · intro j x hx hnd
      have hx' : s.items[j]? = some x := hx
      rw [h.passed j x hx' hnd]
      have hne : j ≠ s.pc := by
        rintro rfl
        rw [hi] at hx'; injection hx' with hx'; subst hx'
        exact hnd t hk
      dsimp only
      omega
    · intro j x hx hov
      have := h.issued j x hx hov
      dsimp only
      omega

/-- The run as interleaved steps of jobs. -/
theorem run_sim {blocking : Nat → Bool} {K : List Kind} {s0 : St V} (h0 : Inv blocking K s0) {k : Nat} {s : St V}
    (hr : Run blocking s0 k s) : Inv blocking K s ∧ ∃ kt,
      ARun (HB blocking K) (fun _ => True) (s0.items.map Item.tasks) s0.mem kt (s.items.map Item.tasks) s.mem ∧
      k ≤ kt + s.items.countP Item.over + s.pc := by
  induction hr with
  | start => exact ⟨h0, 0, .nil, by omega⟩
  | step _ hs ih =>
    obtain ⟨hi, kt, hA, hk⟩ := ih
    refine ⟨hi.step hs, ?_⟩
    cases hs with
    | @task j it ts m ha hj ht =>
      refine ⟨kt + 1, ?_, ?_⟩
      · have := hA.snoc (j := j) (ts := it.tasks) trivial (by rw [List.getElem?_map, hj]; rfl) ?_ ht
        · dsimp only
          rw [map_set_tasks]
          exact this
        · intro i us _ hb hus
          rw [List.getElem?_map] at hus
          cases hx : (St.items _)[i]? with
          | none => rw [hx] at hus; cases hus
          | some x =>
            rw [hx] at hus
            injection hus with hus; subst hus
            exact hi.ended i x hx (active_over hi hb ha x hx)
      · dsimp only
        rw [countP_set_tasks _ hj]
        omega
    | @finish j it ha hj he =>
      have ho : it.over = false := by
        obtain ⟨it', h1, h2, -⟩ := ha
        rw [hj] at h1; injection h1 with h1; subst h1; exact h2
      refine ⟨kt, ?_, ?_⟩
      · dsimp only
        rw [map_set_same (x := { it with over := true }) Item.tasks hj rfl]
        exact hA
      · dsimp only
        rw [countP_set_over hj ho]
        cases it.kind <;> simp only [Kind.pass] <;> omega
    | @issue it t hi' hk' => exact ⟨kt, hA, by dsimp only; omega⟩

theorem ARun.within {C : Nat → Nat → Prop} {Ok : Nat → Prop} {U W : Nat → Nat → Prop} {L L2 : List (Tasks V)}
    {m m2 : Mem V} {k : Nat} (h : ARun C Ok L m k L2 m2) (hw : AllWithin U W L) : AllWithin U W L2 := by
  induction h with
  | nil => exact hw
  | cons _ h2 _ h4 _ ih => exact ih (hw.set (h4.within (hw _ _ h2)))

theorem first_not {α : Type} (P : α → Prop) [DecidablePred P] {l : List α} (h : ¬ ∀ x ∈ l, P x) :
    ∃ (j : Nat) (x : α), l[j]? = some x ∧ ¬ P x ∧ ∀ (i : Nat) y, i < j → l[i]? = some y → P y := by
  induction l with
  | nil => exact absurd (fun x hx => by simp at hx) h
  | cons a l ih =>
    by_cases ha : P a
    · have : ¬ ∀ x ∈ l, P x := fun hl => h fun x hx => by
        rcases List.mem_cons.1 hx with rfl | hx
        · exact ha
        · exact hl x hx
      obtain ⟨j, x, h1, h2, h3⟩ := ih this
      refine ⟨j + 1, x, by rw [List.getElem?_cons_succ]; exact h1, h2, fun i y hi hy => ?_⟩
      cases i with
      | zero => simp only [List.getElem?_cons_zero, Option.some.injEq] at hy; rw [← hy]; exact ha
      | succ i => rw [List.getElem?_cons_succ] at hy; exact h3 i y (by omega) hy
    · exact ⟨0, a, rfl, ha, fun i y hi => by omega⟩

/-- Programs whose conflicting steps are ordered run as if one step followed the other. -/
theorem runs_of_chain {blocking : Nat → Bool} {s0 : St V} {m' : Mem V} (hpc : s0.pc = 0)
    (hover : ∀ it ∈ s0.items, it.over = false) (hchain : Chain (s0.items.map Item.tasks) s0.mem m') {U W : Nat → Nat → Prop}
    (hap : ∀ i j, i < j → ¬ HB blocking (s0.items.map Item.kind) i j → Apart U W i j)
    (hw : AllWithin U W (s0.items.map Item.tasks)) : Runs blocking s0 m' := by
  obtain ⟨K, hK⟩ : ∃ K, s0.items.map Item.kind = K := ⟨_, rfl⟩
  rw [hK] at hap
  have hno : ∀ (j : Nat) it, s0.items[j]? = some it → it.over = true → False := fun j it hj ho => by
    rw [hover it (List.mem_of_getElem? hj)] at ho; cases ho
  have h0 : Inv blocking K s0 := by
    refine ⟨hK, by omega, ?_, ?_, ?_, ?_⟩
    · intro j it hj _
      exact ⟨fun ho => (hno j it hj ho).elim, fun h => by omega⟩
    · intro j it hj ho; exact (hno j it hj ho).elim
    · intro j it hj ho; exact (hno j it hj ho).elim
    · intro i j _ x y _ hy ho; exact (hno j y hy ho).elim
  obtain ⟨B, hB⟩ := chain_bound hchain hap hw
  refine ⟨⟨B + s0.items.length + s0.items.length, ?_⟩, ?_⟩
  · intro k s hr
    obtain ⟨hi, kt, hA, hk⟩ := run_sim h0 hr
    have h1 := hB _ _ _ _ hA
    have h2 : s.items.countP Item.over ≤ s.items.length := List.countP_le_length
    have h3 := hi.pc
    have h4 : s.items.length = s0.items.length := by have := hA.length; simpa using this
    omega
  · intro k s hr
    obtain ⟨hi, kt, hA, hk⟩ := run_sim h0 hr
    refine ⟨?_, ?_, ?_⟩
    · rintro ⟨i, j, x, y, b, a, v, r, A, hij, ai, aj, hx, hy, hwr, hA', hacc⟩
      have hwin := hA.within hw
      have wx := hwin i x.tasks (by rw [List.getElem?_map, hx]; rfl) _ hwr
      have wy := hwin j y.tasks (by rw [List.getElem?_map, hy]; rfl) _ hA'
      have hu : U j b := by
        rcases hacc with ⟨r, rfl⟩ | ⟨w, r, rfl⟩
        · exact wy.1
        · exact wy.1
      have hov : ∀ {i : Nat} {x : Item V}, Active blocking s i → s.items[i]? = some x → x.over = false := by
        intro i x ha hx
        obtain ⟨it', h1, h2, -⟩ := ha
        rw [hx] at h1; injection h1 with h1; subst h1; exact h2
      rcases Nat.lt_or_gt_of_ne hij with hlt | hlt
      · have : ¬ HB blocking K i j := fun hb => by
          have := active_over hi hb aj x hx
          rw [hov ai hx] at this; cases this
        exact (hap i j hlt this).1 b wx.2.1 hu
      · have : ¬ HB blocking K j i := fun hb => by
          have := active_over hi hb ai y hy
          rw [hov aj hy] at this; cases this
        exact (hap j i hlt this).2 b wx.2.1 hu
    · intro hnf
      by_cases hall : ∀ it ∈ s.items, it.over = true
      · exfalso
        apply hnf
        refine ⟨?_, hall⟩
        have hle := hi.pc
        by_contra hne
        have hlt : s.pc < s.items.length := by omega
        have := hi.issued s.pc _ (List.getElem?_eq_getElem hlt) (hall _ (List.getElem_mem hlt))
        omega
      · obtain ⟨j, x, hx, hxo, hbef⟩ := first_not (fun it : Item V => it.over = true) hall
        have hxo : x.over = false := by cases h : x.over with
          | true => exact absurd h hxo
          | false => rfl
        have hjl : j < s.items.length := (List.getElem?_eq_some_iff.1 hx).1
        have hle : j ≤ s.pc := by
          by_contra hlt
          have h1 : s.pc < s.items.length := by omega
          have := hi.issued s.pc _ (List.getElem?_eq_getElem h1)
            (hbef s.pc _ (by omega) (List.getElem?_eq_getElem h1))
          omega
        have go : Active blocking s j → ∃ s', Step blocking s s' := by
          intro ha
          by_cases he : Ended x.tasks
          · exact ⟨_, .finish ha hx he⟩
          · obtain ⟨ts, m3, hs⟩ := chain_progress hchain hap hw hA (j := j) (ts := x.tasks)
              (by rw [List.getElem?_map, hx]; rfl)
              (fun i us hij hus => by
                rw [List.getElem?_map] at hus
                cases hy : s.items[i]? with
                | none => rw [hy] at hus; cases hus
                | some y =>
                  rw [hy] at hus
                  injection hus with hus; subst hus
                  exact hi.ended i y hy (hbef i y hij hy)) he
            exact ⟨_, .task ha hx hs⟩
        have hpass : (∀ t, x.kind ≠ .dev t) → j = s.pc := by
          intro hk
          have := hi.passed j x hx hk
          by_contra hne
          have := this.2 (by omega)
          rw [hxo] at this; cases this
        cases hk : x.kind with
        | host => exact go ⟨x, hx, hxo, by rw [hk]; exact hpass fun t ht => by rw [hk] at ht; cases ht⟩
        | wait t =>
          refine go ⟨x, hx, hxo, ?_⟩
          rw [hk]
          exact ⟨hpass (fun t ht => by rw [hk] at ht; cases ht), fun i y hij hy _ => hbef i y hij hy⟩
        | dev t =>
          rcases Nat.lt_or_ge j s.pc with hlt | hge
          · refine go ⟨x, hx, hxo, ?_⟩
            rw [hk]
            exact ⟨hlt, fun i y t' hij hy _ _ => hbef i y hij hy⟩
          · have : j = s.pc := by omega
            subst this
            exact ⟨_, .issue hx hk⟩
    · intro hf
      refine chain_final hchain hap hw hA fun ts hts => ?_
      obtain ⟨it, h1, rfl⟩ := List.mem_map.1 hts
      obtain ⟨j, hj⟩ := List.mem_iff_getElem?.1 h1
      exact hi.ended j it hj (hf.2 it h1)

end Str
end SpatialOps
