import Verif.Concur.Link

/-!
# The plan of all callers
-/

namespace SpatialOps.Concur
open Nebo
variable {V : Type} [Add V] [Mul V]

theorem inTurn_append (p q : List (Stmt V)) (m : Mem V) : inTurn (p ++ q) m = (inTurn p m >>= inTurn q) := by
  induction p generalizing m with
  | nil => rfl
  | cons σ p ih =>
    show (sequentialAssign σ.useGhost σ.lhs σ.rhs m >>= inTurn (p ++ q)) =
      ((sequentialAssign σ.useGhost σ.lhs σ.rhs m >>= inTurn p) >>= inTurn q)
    cases sequentialAssign σ.useGhost σ.lhs σ.rhs m with
    | ok r => exact ih r
    | _ => rfl

theorem inTurn_ok {p : List (Stmt V)} (hp : ∀ σ ∈ p, σ.Ok) (m : Mem V) : ∃ r, inTurn p m = .ok r := by
  induction p generalizing m with
  | nil => exact ⟨m, rfl⟩
  | cons σ p ih =>
    obtain ⟨_, _, _, _, _, r, hr, _⟩ := stmt_part (hp σ (by simp)) m
    obtain ⟨r', hr'⟩ := ih (fun τ hτ => hp τ (by simp [hτ])) r
    refine ⟨r', ?_⟩
    show (sequentialAssign σ.useGhost σ.lhs σ.rhs m >>= inTurn p) = _
    rw [hr]
    exact hr'

/-- Assignments in turn depend only on what they use, and change only what they write. -/
theorem inTurn_congr {p : List (Stmt V)} (hp : ∀ σ ∈ p, σ.Ok) {G : Nat → Prop}
    (hG : ∀ σ ∈ p, ∀ blk, σ.Uses blk → G blk) {m mm r : Mem V} (hm : ∀ blk a, G blk → mm blk a = m blk a)
    (hr : inTurn p m = .ok r) :
    ∃ rr, inTurn p mm = .ok rr ∧ (∀ blk a, G blk → rr blk a = r blk a) ∧
      ∀ blk a, (∀ σ ∈ p, ¬ σ.Writes blk) → rr blk a = mm blk a := by
  induction p generalizing m mm with
  | nil =>
    cases hr
    exact ⟨mm, rfl, hm, fun _ _ _ => rfl⟩
  | cons σ p ih =>
    obtain ⟨r1, h1, h2⟩ := Outcome.bind_eq_ok.1 (show (sequentialAssign σ.useGhost σ.lhs σ.rhs m >>= inTurn p) = .ok r from hr)
    obtain ⟨rr1, h3, h4⟩ := seq_congr (hp σ (by simp)) h1 (mm := mm)
      (fun blk a hb => hm blk a (hG σ (by simp) blk (Or.inr hb)))
    obtain ⟨rr, h5, h6, h7⟩ := ih (fun τ hτ => hp τ (by simp [hτ])) (fun τ hτ => hG τ (by simp [hτ]))
      (fun blk a hb => (h4 blk a).1 (hm blk a hb)) h2
    refine ⟨rr, ?_, h6, fun blk a hb => ?_⟩
    · show (sequentialAssign σ.useGhost σ.lhs σ.rhs mm >>= inTurn p) = _
      rw [h3]
      exact h5
    · rw [h7 blk a fun τ hτ => hb τ (by simp [hτ])]
      exact (h4 blk a).2 (hb σ (by simp))

/-- Memory before assignment `b`. -/
def before (p : List (Stmt V)) (m0 : Mem V) (b : Nat) : Mem V :=
  match inTurn (p.take b) m0 with
  | .ok m => m
  | _ => m0

theorem before_ok {p : List (Stmt V)} (hp : ∀ σ ∈ p, σ.Ok) (m0 : Mem V) (b : Nat) :
    inTurn (p.take b) m0 = .ok (before p m0 b) := by
  obtain ⟨r, hr⟩ := inTurn_ok (p := p.take b) (fun σ hσ => hp σ (List.mem_of_mem_take hσ)) m0
  unfold before
  rw [hr]

theorem before_next {p : List (Stmt V)} (hp : ∀ σ ∈ p, σ.Ok) (m0 : Mem V) {b : Nat} {σ : Stmt V} (h : p[b]? = some σ) :
    sequentialAssign σ.useGhost σ.lhs σ.rhs (before p m0 b) = .ok (before p m0 (b + 1)) := by
  have h1 := before_ok hp m0 (b + 1)
  rw [List.take_add_one, h, Option.toList_some, inTurn_append, before_ok hp m0 b] at h1
  have h2 : (sequentialAssign σ.useGhost σ.lhs σ.rhs (before p m0 b) >>= inTurn []) = .ok (before p m0 (b + 1)) := h1
  obtain ⟨r, h3, h4⟩ := Outcome.bind_eq_ok.1 h2
  cases h4
  exact h3

omit [Add V] [Mul V] in
theorem uses_free {progs : List (List (Stmt V))} (hap : Apart progs) {c : Nat} {p : List (Stmt V)} {σ : Stmt V}
    (hc : progs[c]? = some p) (hσ : σ ∈ p) {blk : Nat} (hu : σ.Uses blk) : ¬ Foreign progs c blk := by
  rintro ⟨c', p', hne, hc', σ', hσ', hw⟩
  exact hap c c' p p' hc hc' (fun e => hne e.symm) σ hσ σ' hσ' blk hw hu

/-- Data of one assignment. -/
structure Piece (V : Type) where
  N : Nat
  act : Nat → Nebo.Act V
  W : Nat → Nat → Int → Prop
  fin : Nat → Mem V
  len : Nat → Nat

theorem plan_exists (progs : List (List (Stmt V))) (hok : ∀ p ∈ progs, ∀ σ ∈ p, σ.Ok) (hap : Apart progs) (m0 : Mem V) :
    ∃ P : Plan V, P.Good progs m0 ∧ (∀ c, P.stmts c = (progs[c]?.getD []).length) ∧ P.F = Foreign progs ∧
      ∀ c b, P.M c b = before (progs[c]?.getD []) m0 b := by
  have hok' : ∀ (c : Nat) (σ : Stmt V), σ ∈ progs[c]?.getD [] → σ.Ok := by
    intro c σ hσ
    cases e : progs[c]? with
    | none => rw [e] at hσ; cases hσ
    | some p => rw [e] at hσ; exact hok p (List.mem_of_getElem? e) σ hσ
  have hget : ∀ (c b : Nat) (σ : Stmt V), progs[c]?.bind (·[b]?) = some σ ↔ (progs[c]?.getD [])[b]? = some σ := by
    intro c b σ
    cases progs[c]? <;> simp
  have key : ∀ c b : Nat, ∃ D : Piece V, ∀ σ, (progs[c]?.getD [])[b]? = some σ →
      (∀ mm : Mem V, (∀ blk a, Mentions blk σ.rhs → mm blk a = before (progs[c]?.getD []) m0 b blk a) →
        σ.spawn mm = .ok ((List.range D.N).map D.act)) ∧
      (∀ (Off : Nat → Int → Prop) k, k < D.N →
        (∀ blk a, Mentions blk σ.rhs → Off blk a → ∃ k', k' < D.N ∧ D.W k' blk a) →
        Act.Runs (D.W k) Off (before (progs[c]?.getD []) m0 b) (D.act k) (D.len k) (D.fin k)) ∧
      (∀ k k' blk a, k < D.N → k' < D.N → D.W k blk a → D.W k' blk a → k = k') ∧
      (∀ k blk a, k < D.N → D.W k blk a → σ.Writes blk ∧ before (progs[c]?.getD []) m0 (b + 1) blk a = D.fin k blk a) ∧
      (∀ blk a, (¬ ∃ k, k < D.N ∧ D.W k blk a) →
        before (progs[c]?.getD []) m0 (b + 1) blk a = before (progs[c]?.getD []) m0 b blk a) := by
    intro c b
    cases e : (progs[c]?.getD [])[b]? with
    | none => exact ⟨⟨0, fun _ => .fail, fun _ _ _ => False, fun _ => m0, fun _ => 0⟩, fun σ h => by cases h⟩
    | some σ =>
      obtain ⟨N, act, W, fin, len, m', h1, h2, h3, h4, h5, h6⟩ :=
        stmt_part (hok' c σ (List.mem_of_getElem? e)) (before (progs[c]?.getD []) m0 b)
      rw [before_next (hok' c) m0 e] at h1
      injection h1 with h1
      subst h1
      refine ⟨⟨N, act, W, fin, len⟩, fun τ hτ => ?_⟩
      injection hτ with hτ
      subst hτ
      exact ⟨h2, h3, h4, h5, h6⟩
  choose D hD using key
  have hin : ∀ (c b : Nat), b < (progs[c]?.getD []).length → ∃ p σ, progs[c]? = some p ∧ σ ∈ p ∧ (progs[c]?.getD [])[b]? = some σ := by
    intro c b hb
    cases e : progs[c]? with
    | none => rw [e] at hb; exact absurd hb (Nat.not_lt_zero _)
    | some p =>
      rw [e] at hb
      have hb : b < p.length := hb
      exact ⟨p, p[b], rfl, List.getElem_mem hb, List.getElem?_eq_getElem hb⟩
  refine ⟨⟨fun c => (progs[c]?.getD []).length, fun c b => (D c b).N, fun c b => (D c b).act,
    fun c b => before (progs[c]?.getD []) m0 b, fun c b => (D c b).W, fun c b => (D c b).fin, fun c b => (D c b).len,
    Foreign progs⟩, ⟨?_, ?_, ?_, ?_, ?_, ?_, ?_, ?_, ?_⟩, fun _ => rfl, rfl, fun _ _ => rfl⟩
  · intro c b
    dsimp only
    cases progs[c]? <;> simp
  · intro c b σ m hσ hm
    obtain ⟨p, τ, h1, h2, h3⟩ := hin c b (by
      rw [hget] at hσ
      exact (List.getElem?_eq_some_iff.1 hσ).1)
    rw [hget, h3] at hσ
    injection hσ with hσ
    subst hσ
    exact (hD c b τ h3).1 m fun blk a hb => hm blk a (uses_free hap h1 h2 (Or.inr hb))
  · intro c b k hb hk
    obtain ⟨p, τ, h1, h2, h3⟩ := hin c b hb
    refine (hD c b τ h3).2.1 _ k hk ?_
    intro blk a hb' ho
    rcases ho with ho | ho
    · exact ho
    · exact absurd ho (uses_free hap h1 h2 (Or.inr hb'))
  · intro c b k k' blk a hb hk hk' hw hw'
    obtain ⟨p, τ, h1, h2, h3⟩ := hin c b hb
    exact (hD c b τ h3).2.2.1 k k' blk a hk hk' hw hw'
  · intro c b k blk a hb hk hw
    obtain ⟨p, τ, h1, h2, h3⟩ := hin c b hb
    exact uses_free hap h1 h2 (Or.inl ((hD c b τ h3).2.2.2.1 k blk a hk hw).1)
  · intro c b k blk a c' hb hk hw hne
    obtain ⟨p, τ, h1, h2, h3⟩ := hin c b hb
    exact ⟨c, p, fun e => hne e.symm, h1, τ, h2, ((hD c b τ h3).2.2.2.1 k blk a hk hw).1⟩
  · intro c; rfl
  · intro c b k blk a hb hk hw
    obtain ⟨p, τ, h1, h2, h3⟩ := hin c b hb
    exact ((hD c b τ h3).2.2.2.1 k blk a hk hw).2
  · intro c b blk a hb hno
    obtain ⟨p, τ, h1, h2, h3⟩ := hin c b hb
    exact (hD c b τ h3).2.2.2.2 blk a hno

/-- The callers one after another. -/
theorem flatten_take {progs : List (List (Stmt V))} (hok : ∀ p ∈ progs, ∀ σ ∈ p, σ.Ok) (hap : Apart progs) (m0 : Mem V)
    (k : Nat) (hk : k ≤ progs.length) :
    ∃ r, inTurn (progs.take k).flatten m0 = .ok r ∧ ∀ c blk a, ¬ Foreign progs c blk →
      (c < k → r blk a = before (progs[c]?.getD []) m0 (progs[c]?.getD []).length blk a) ∧ (k ≤ c → r blk a = m0 blk a) := by
  induction k with
  | zero => exact ⟨m0, rfl, fun c blk a _ => ⟨fun h => absurd h (Nat.not_lt_zero _), fun _ => rfl⟩⟩
  | succ k ih =>
    obtain ⟨r, h1, h2⟩ := ih (by omega)
    have hlt : k < progs.length := by omega
    have hget : progs[k]? = some progs[k] := List.getElem?_eq_getElem hlt
    have hokk : ∀ σ ∈ progs[k], σ.Ok := hok _ (List.getElem_mem hlt)
    have hfull : inTurn progs[k] m0 = .ok (before progs[k] m0 progs[k].length) := by
      have := before_ok hokk m0 progs[k].length
      rw [List.take_length] at this
      exact this
    obtain ⟨rr, h3, h4, h5⟩ := inTurn_congr hokk (G := fun blk => ¬ Foreign progs k blk)
      (fun σ hσ blk hu => uses_free hap hget hσ hu) (fun blk a hb => (h2 k blk a hb).2 (Nat.le_refl _)) hfull
    refine ⟨rr, ?_, ?_⟩
    · rw [List.take_add_one, hget, Option.toList_some, List.flatten_append, inTurn_append, h1]
      show inTurn [progs[k]].flatten r = _
      rw [List.flatten_cons, List.flatten_nil, List.append_nil]
      exact h3
    · intro c blk a hF
      have hother : c ≠ k → rr blk a = r blk a := by
        intro hne
        refine h5 blk a fun σ hσ hw => hF ⟨k, progs[k], fun e => hne e.symm, hget, σ, hσ, hw⟩
      constructor
      · intro hc
        by_cases e : c = k
        · subst e
          rw [h4 blk a hF, hget]
          rfl
        · rw [hother e]
          exact (h2 c blk a hF).1 (by omega)
      · intro hc
        rw [hother (by omega)]
        exact (h2 c blk a hF).2 (by omega)

end SpatialOps.Concur
