import Verif.Prog.Spec

/-!
# C81: the results of a program do not depend on threads
-/

namespace SpatialOps
open Nebo
namespace Prog

variable {V : Type} [Add V] [Mul V]

theorem seqRun_append (p q : List (PStmt V)) (m : Mem V) : seqRun (p ++ q) m = seqRun p m >>= seqRun q := by
  induction p generalizing m with
  | nil => rfl
  | cons s r ih =>
    simp only [List.cons_append, seqRun]
    cases sequentialAssign s.ghost s.t s.e m with
    | ok a => simp only [Outcome.ok_bind, ih]
    | _ => rfl

theorem seqRun_forget (p : List (PStmt V)) (m : Mem V) : seqRun (p.map PStmt.forget) m = seqRun p m := by
  induction p generalizing m with
  | nil => rfl
  | cons s r ih =>
    simp only [List.map_cons, seqRun]
    cases h : sequentialAssign s.ghost s.t s.e m with
    | ok a =>
      have : sequentialAssign s.forget.ghost s.forget.t s.forget.e m = .ok a := h
      rw [this, Outcome.ok_bind, Outcome.ok_bind, ih]
    | _ =>
      have : sequentialAssign s.forget.ghost s.forget.t s.forget.e m = _ := h
      rw [this]
      rfl

/-- A ready program runs to its end sequentially, and in bounded time however it is run. -/
theorem total {n : IntVec} (hn : IntVec.Lt 0 n) (prog : List (PStmt V)) (hp : ∀ st ∈ prog, st.Ready n) (m : Mem V) :
    ∃ m', seqRun prog m = .ok m' ∧ ∃ T, ∀ k s, ProgRun (.idle prog m) k s → k ≤ T := by
  induction prog generalizing m with
  | nil =>
    refine ⟨m, rfl, 0, fun k s h => ?_⟩
    have key : ∀ k s, ProgRun (.idle [] m) k s → k = 0 ∧ s = .idle [] m := by
      intro k s h
      induction h with
      | start => exact ⟨rfl, rfl⟩
      | step _ hs ih => rw [ih.2] at hs; cases hs
    exact (key k s h).1.le
  | cons st rest ih =>
    have hr := hp st (by simp)
    obtain ⟨b, ht⟩ := hr.target
    have hrest := fun m => ih (fun s hs => hp s (by simp [hs])) m
    cases hparts : st.parts with
    | none =>
      obtain ⟨s0, m1, -, h2, -⟩ := C23_parallel_equals_sequential n hn st.t b ht st.e hr.wf hr.defined hr.independent
        st.ghost 1 le_rfl m
      obtain ⟨m', h3, T, hT⟩ := hrest m1
      refine ⟨m', by simp only [seqRun, h2, Outcome.ok_bind, h3], T + 1, fun k s h => ?_⟩
      have key : ∀ k s, ProgRun (.idle (st :: rest) m) k s → (k = 0 ∧ s = .idle (st :: rest) m) ∨
          ∃ j, k = j + 1 ∧ ProgRun (.idle rest m1) j s := by
        intro k s h
        induction h with
        | start => exact .inl ⟨rfl, rfl⟩
        | step _ hs ih =>
          rcases ih with ⟨rfl, e⟩ | ⟨j, rfl, hj⟩
          · rw [e] at hs
            cases hs with
            | seq _ h =>
              rw [h2] at h
              injection h with h
              subst h
              exact .inr ⟨0, rfl, .start⟩
            | fork hk _ => rw [hparts] at hk; cases hk
          · exact .inr ⟨j + 1, rfl, .step hj hs⟩
      rcases key k s h with ⟨rfl, -⟩ | ⟨j, rfl, hj⟩
      · omega
      · have := hT j s hj
        omega
    | some cnt =>
      obtain ⟨s0, m1, h1, h2, ⟨B, hB⟩, hall⟩ := C23_parallel_equals_sequential n hn st.t b ht st.e hr.wf hr.defined
        hr.independent st.ghost cnt (hr.parts cnt hparts) m
      obtain ⟨m', h3, T, hT⟩ := hrest m1
      refine ⟨m', by simp only [seqRun, h2, Outcome.ok_bind, h3], 1 + B + 1 + T, fun k s h => ?_⟩
      have key : ∀ k s, ProgRun (.idle (st :: rest) m) k s → (k = 0 ∧ s = .idle (st :: rest) m) ∨
          (∃ j p, k = 1 + j ∧ s = .busy p rest ∧ ParRun s0 j p) ∨
          ∃ j i, k = 1 + j + 1 + i ∧ j ≤ B ∧ ProgRun (.idle rest m1) i s := by
        intro k s h
        induction h with
        | start => exact .inl ⟨rfl, rfl⟩
        | step _ hs ih =>
          rcases ih with ⟨rfl, e⟩ | ⟨j, p, rfl, e, hj⟩ | ⟨j, i, rfl, hj, hi⟩
          · rw [e] at hs
            cases hs with
            | seq hk _ => rw [hparts] at hk; cases hk
            | fork hk h =>
              rw [hparts] at hk
              injection hk with hk
              subst hk
              rw [h1] at h
              injection h with h
              subst h
              exact .inr (.inl ⟨0, _, rfl, rfl, .start⟩)
          · rw [e] at hs
            cases hs with
            | work hw => exact .inr (.inl ⟨j + 1, _, by omega, rfl, .step hj hw⟩)
            | join hw =>
              have := ((hall j p hj).2.2 hw).1
              rw [this]
              exact .inr (.inr ⟨j, 0, by omega, hB j p hj, .start⟩)
          · exact .inr (.inr ⟨j, i + 1, by omega, hj, .step hi hs⟩)
      rcases key k s h with ⟨rfl, -⟩ | ⟨j, p, rfl, -, hj⟩ | ⟨j, i, rfl, hj, hi⟩
      · omega
      · have := hB j p hj
        omega
      · have := hT i s hi
        omega

/-- Where a run can be. -/
theorem where_is {n : IntVec} (hn : IntVec.Lt 0 n) {prog : List (PStmt V)} (hp : ∀ st ∈ prog, st.Ready n) {m0 : Mem V}
    {k : Nat} {s : ProgState V} (h : ProgRun (.idle prog m0) k s) :
    (∃ done rest m, prog = done ++ rest ∧ seqRun done m0 = .ok m ∧ s = .idle rest m) ∨
    ∃ done st rest m cnt s0 j p, prog = done ++ st :: rest ∧ seqRun done m0 = .ok m ∧ st.parts = some cnt ∧
      parallelAssign st.ghost st.t cnt st.e m = .ok s0 ∧ ParRun s0 j p ∧ s = .busy p rest := by
  induction h with
  | start => exact .inl ⟨[], prog, m0, rfl, rfl, rfl⟩
  | step _ hs ih =>
    rcases ih with ⟨done, rest, m, e1, e2, rfl⟩ | ⟨done, st, rest, m, cnt, s0, j, p, e1, e2, e3, e4, e5, rfl⟩
    · cases hs with
      | @seq st rest' _ m' hk hq =>
        refine .inl ⟨done ++ [st], rest', m', by rw [e1]; simp, ?_, rfl⟩
        rw [seqRun_append, e2, Outcome.ok_bind]
        simp only [seqRun, hq, Outcome.ok_bind]
      | @fork st rest' _ cnt s' hk hq => exact .inr ⟨done, st, rest', m, cnt, s', 0, s', e1, e2, hk, hq, .start, rfl⟩
    · cases hs with
      | work hw => exact .inr ⟨done, st, rest, m, cnt, s0, j + 1, _, e1, e2, e3, e4, .step e5 hw, rfl⟩
      | join hw =>
        have hr := hp st (by rw [e1]; simp)
        obtain ⟨b, ht⟩ := hr.target
        obtain ⟨s0', m1, h1, h2, -, hall⟩ := C23_parallel_equals_sequential n hn st.t b ht st.e hr.wf hr.defined
          hr.independent st.ghost cnt (hr.parts cnt e3) m
        rw [e4] at h1
        injection h1 with h1
        subst h1
        have := ((hall j p e5).2.2 hw).1
        refine .inl ⟨done ++ [st], rest, p.mem, by rw [e1]; simp, ?_, rfl⟩
        rw [seqRun_append, e2, Outcome.ok_bind, this]
        simp only [seqRun, h2, Outcome.ok_bind]

end Prog

/-- C81. A program of assignments, any of which may be divided into any number of tasks on the pool: however the tasks are
scheduled, no two ever race, the program never gets stuck before its end and comes to its end after a bounded number of
steps; between statements memory is what a single thread running the statements so far leaves, and so at the end. -/
theorem C81_program {V : Type} [Add V] [Mul V] (n : IntVec) (hn : IntVec.Lt 0 n) (prog : List (PStmt V))
    (hp : ∀ st ∈ prog, st.Ready n) (m : Mem V) :
    ∃ m', seqRun prog m = .ok m' ∧ (∃ bound, ∀ k s, ProgRun (.idle prog m) k s → k ≤ bound) ∧
      ∀ k s, ProgRun (.idle prog m) k s → ¬ s.Race ∧ ((∀ x, s ≠ .idle [] x) → ∃ s', ProgStep s s') ∧
        (∀ rest x, s = .idle rest x → ∃ done, prog = done ++ rest ∧ seqRun done m = .ok x) ∧
        (∀ x, s = .idle [] x → x = m') := by
  obtain ⟨m', h1, T, hT⟩ := Prog.total hn prog hp m
  refine ⟨m', h1, ⟨T, hT⟩, fun k s h => ?_⟩
  rcases Prog.where_is hn hp h with ⟨done, rest, x, e1, e2, rfl⟩ | ⟨done, st, rest, x, cnt, s0, j, p, e1, e2, e3, e4, e5, rfl⟩
  · refine ⟨fun hr => hr, ?_, ?_, ?_⟩
    · intro hne
      cases rest with
      | nil => exact absurd rfl (hne x)
      | cons st rest =>
        have hr := hp st (by rw [e1]; simp)
        obtain ⟨b, ht⟩ := hr.target
        cases hparts : st.parts with
        | none =>
          obtain ⟨s0, m1, -, h2, -⟩ := C23_parallel_equals_sequential n hn st.t b ht st.e hr.wf hr.defined hr.independent
            st.ghost 1 le_rfl x
          exact ⟨_, .seq hparts h2⟩
        | some cnt =>
          obtain ⟨s0, m1, h1, -⟩ := C23_parallel_equals_sequential n hn st.t b ht st.e hr.wf hr.defined hr.independent
            st.ghost cnt (hr.parts cnt hparts) x
          exact ⟨_, .fork hparts h1⟩
    · intro rest' x' e
      injection e with a1 a2
      subst a1 a2
      exact ⟨done, e1, e2⟩
    · intro x' e
      injection e with a1 a2
      subst a1 a2
      rw [List.append_nil] at e1
      rw [← e1, h1] at e2
      injection e2 with e2
      exact e2.symm
  · have hr := hp st (by rw [e1]; simp)
    obtain ⟨b, ht⟩ := hr.target
    obtain ⟨s0', m1, h1, h2, -, hall⟩ := C23_parallel_equals_sequential n hn st.t b ht st.e hr.wf hr.defined
      hr.independent st.ghost cnt (hr.parts cnt e3) x
    rw [e4] at h1
    injection h1 with h1
    subst h1
    obtain ⟨a1, a2, a3⟩ := hall j p e5
    refine ⟨a1, fun _ => ?_, fun _ _ e => (by cases e), fun _ e => (by cases e)⟩
    by_cases hw : p.waits = 0
    · exact ⟨_, .join hw⟩
    · obtain ⟨p', hp'⟩ := a2 hw
      exact ⟨_, .work hp'⟩

/-- C81. Results do not depend on threads: two runs of a program that differ in which statements are divided, into how many
tasks, and in how these are scheduled, leave the same memory. -/
theorem C81_same_result {V : Type} [Add V] [Mul V] (n : IntVec) (hn : IntVec.Lt 0 n) (p q : List (PStmt V))
    (hp : ∀ st ∈ p, st.Ready n) (hq : ∀ st ∈ q, st.Ready n) (hpq : p.map PStmt.forget = q.map PStmt.forget)
    (m x y : Mem V) (i j : Nat) (hx : ProgRun (.idle p m) i (.idle [] x)) (hy : ProgRun (.idle q m) j (.idle [] y)) : x = y := by
  obtain ⟨m1, a1, -, a2⟩ := C81_program n hn p hp m
  obtain ⟨m2, b1, -, b2⟩ := C81_program n hn q hq m
  have e : m1 = m2 := by
    have h1 := Prog.seqRun_forget p m
    have h2 := Prog.seqRun_forget q m
    rw [hpq, h2, a1, b1] at h1
    injection h1 with h1
    exact h1.symm
  rw [(a2 i _ hx).2.2.2 x rfl, (b2 j _ hy).2.2.2 y rfl, e]

namespace Prog

/-- `f4 <<= 2 * a` in three tasks, then `interior_assign(f5, left(f4))` by the calling thread, then `f6 <<= f5 * f5` in two
tasks. -/
def prog : List (PStmt Int) :=
  [⟨true, NeboEx.fld false 4, .bin (s := .num) (t := .num) (· * ·) (.scalar (t := .num) 2) (.field (NeboEx.fld false 1)), some 3⟩,
   ⟨false, NeboEx.fld false 5, .sumStencil (.one ⟨-1, 0, 0⟩) (.field (NeboEx.fld false 4)), none⟩,
   ⟨true, NeboEx.fld false 6, .bin (s := .num) (t := .num) (· * ·) (.field (NeboEx.fld false 5)) (.field (NeboEx.fld false 5)), some 2⟩]

theorem prog_ready : ∀ st ∈ prog, st.Ready ⟨4, 3, 1⟩ := by
  have hh := hasCell_iff (NeboEx.onMesh false)
  have e1 : (NeboEx.geo false).validGhosts.minus = ⟨1, 1, 0⟩ := rfl
  have e2 : (NeboEx.geo false).validGhosts.plus + (NeboEx.geo false).bc.hasExtra = ⟨1, 1, 0⟩ := by decide
  have e3 : (NeboEx.geo false).bc.hasExtra = ⟨0, 0, 0⟩ := by decide
  rw [e1, e2] at hh
  unfold InBox at hh
  have hi : ∀ (b : Nat) (c : IntVec), Interior ⟨4, 3, 1⟩ (NeboEx.fld false b) c → IntVec.Le 0 c ∧ IntVec.Lt c ⟨4, 3, 1⟩ := by
    intro b c hc
    have hc' : IntVec.Le 0 c ∧ IntVec.Lt c (⟨4, 3, 1⟩ + (NeboEx.geo false).bc.hasExtra) := hc
    rw [e3] at hc'
    iv_omega
  intro st hst
  simp only [prog, List.mem_cons, List.not_mem_nil, or_false] at hst
  rcases hst with rfl | rfl | rfl
  · refine ⟨⟨4, NeboEx.target false 4⟩, ⟨trivial, NeboEx.onMesh false, by decide⟩, ?_, ⟨trivial, .inl (by decide)⟩, ?_⟩
    · intro c hc
      have := hi 4 c hc
      refine ⟨?_, (hh c).2 (by iv_omega)⟩
      unfold Expr.DefinedAt
      simp only [ghostMax]
      iv_omega
    · intro k hk; simp at hk; omega
  · refine ⟨⟨5, NeboEx.target false 5⟩, ?_, ?_, fun _ _ => .inl (by decide), by simp⟩
    · unfold Expr.Wf Expr.Wf
      exact ⟨NeboEx.onMesh false, by decide⟩
    · intro c hc q hq
      have := hi 5 c hc
      simp only [Pts.toList, List.mem_singleton] at hq
      subst hq
      exact ⟨(hh c).2 (by iv_omega), (hh _).2 (by iv_omega)⟩
  · refine ⟨⟨6, NeboEx.target false 6⟩, ⟨⟨NeboEx.onMesh false, by decide⟩, NeboEx.onMesh false, by decide⟩, ?_,
      ⟨.inl (by decide), .inl (by decide)⟩, ?_⟩
    · intro c hc
      have := hi 6 c hc
      exact ⟨(hh c).2 (by iv_omega), (hh c).2 (by iv_omega)⟩
    · intro k hk; simp at hk; omega

/-- Non-vacuity: the example program runs. -/
example (m : Mem Int) : ∃ m', seqRun prog m = .ok m' ∧ ∃ bound, ∀ k s, ProgRun (.idle prog m) k s → k ≤ bound := by
  obtain ⟨m', h1, h2, -⟩ := C81_program ⟨4, 3, 1⟩ (by decide) prog prog_ready m
  exact ⟨m', h1, h2⟩

end Prog
end SpatialOps
