import Verif.Concur.Progress
import Verif.Concur.Plan

/-!
# Properties of concurrent thread-parallel assignments (C75)
-/

namespace SpatialOps
open Nebo
open Threads (Push Keeps Reach fifoPush)
open Concur
variable {V : Type} [Add V] [Mul V]

/-- C75. Whatever the other threads and the workers do, when a thread has returned from
its first `b` assignments, all memory except what other threads write into is as if that
thread had performed those assignments alone, each by a single thread. -/
theorem C75_each_caller_as_if_alone {push : Push Task} (hp : Keeps push) (n made : Nat)
    (progs : List (List (Stmt V))) (hok : ∀ p ∈ progs, ∀ σ ∈ p, σ.Ok) (hap : Apart progs) (m0 : Mem V)
    (ms : List Move) (s : Sys V) (hs : (Sys.init (Threads.Pool.create n made) m0).run push progs ms = some s)
    (c b : Nat) (p : List (Stmt V)) (hc : progs[c]? = some p) (hpc : s.pc c = .start b) :
    b ≤ p.length ∧ ∃ M, inTurn (p.take b) m0 = .ok M ∧ ∀ blk a, ¬ Foreign progs c blk → s.mem blk a = M blk a := by
  obtain ⟨P, hP, h1, h2, h3⟩ := plan_exists progs hok hap m0
  obtain ⟨left, hI, _⟩ := inv_run hp hP (inv_init (n := n) (made := made) hP) hs
  have hC := hI.each c
  rw [hpc] at hC
  have hpb : (progs[c]?.getD []) = p := by rw [hc]; rfl
  refine ⟨?_, before p m0 b, before_ok (hok p (List.mem_of_getElem? hc)) m0 b, fun blk a hF => ?_⟩
  · have : b ≤ P.stmts c := hC.ble
    rw [h1, hpb] at this
    exact this
  · have := hC.rest blk a (by rw [h2]; exact hF) (fun hh => by cases hh.1)
    rw [this, h3, hpb]
    rfl

/-- C75. When all threads are through, memory is what results if a single thread performs
all the assignments, one caller's after the other's. -/
theorem C75_all_done {push : Push Task} (hp : Keeps push) (n made : Nat)
    (progs : List (List (Stmt V))) (hok : ∀ p ∈ progs, ∀ σ ∈ p, σ.Ok) (hap : Apart progs) (m0 : Mem V)
    (ms : List Move) (s : Sys V) (hs : (Sys.init (Threads.Pool.create n made) m0).run push progs ms = some s)
    (hf : Finished progs s) : inTurn progs.flatten m0 = .ok s.mem := by
  obtain ⟨P, hP, h1, h2, h3⟩ := plan_exists progs hok hap m0
  obtain ⟨left, hI, _⟩ := inv_run hp hP (inv_init (n := n) (made := made) hP) hs
  obtain ⟨r, hr, hv⟩ := flatten_take hok hap m0 progs.length (Nat.le_refl _)
  rw [List.take_length] at hr
  rw [hr]
  congr 1
  funext blk a
  have hex : ∃ c, ¬ Foreign progs c blk := by
    by_cases hw : Foreign progs progs.length blk
    · obtain ⟨c, p, _, hc, σ, hσ, hw⟩ := hw
      exact ⟨c, uses_free hap hc hσ (Or.inl hw)⟩
    · exact ⟨_, hw⟩
  obtain ⟨c, hF⟩ := hex
  have hC := hI.each c
  by_cases hlt : c < progs.length
  · have hget : progs[c]? = some progs[c] := List.getElem?_eq_getElem hlt
    rw [hf c _ hget] at hC
    have := hC.rest blk a (by rw [h2]; exact hF) (fun hh => by cases hh.1)
    rw [(hv c blk a hF).1 hlt, this, h3, hget]
    rfl
  · have hst : P.stmts c = 0 := by rw [h1, List.getElem?_eq_none (by omega)]; rfl
    have hin : (s.pc c).inside = false := by
      cases e : (s.pc c).inside with
      | false => rfl
      | true => have := (hC.inn e).blt; omega
    have hb : (s.pc c).b = 0 := by have := hC.ble; omega
    have := hC.rest blk a (by rw [h2]; exact hF) (fun hh => by rw [hin] at hh; cases hh.1)
    rw [(hv c blk a hF).2 (by omega), this, hb, hP.first]

/-- C75. The semaphore is a local variable of the assigning thread, and tasks hold a plain
pointer to it: no task and no caller ever touches it after the assignment has returned,
and it is never destroyed while its mutex is held. -/
theorem C75_semaphore_outlives_its_users {push : Push Task} (hp : Keeps push) (n made : Nat)
    (progs : List (List (Stmt V))) (hok : ∀ p ∈ progs, ∀ σ ∈ p, σ.Ok) (hap : Apart progs) (m0 : Mem V)
    (ms : List Move) (s : Sys V) (hs : (Sys.init (Threads.Pool.create n made) m0).run push progs ms = some s) :
    s.bad = false := by
  obtain ⟨P, hP, _⟩ := plan_exists progs hok hap m0
  obtain ⟨left, hI, _⟩ := inv_run hp hP (inv_init (n := n) (made := made) hP) hs
  exact hI.ok

omit [Add V] [Mul V] in
/-- What the next access of a task tells. -/
private theorem about_plan {push : Push Task} {P : Plan V} {n made : Nat} {left : Task → Nat} {s : Sys V}
    (hp : Keeps push) (hI : Concur.Inv push P (Threads.Pool.create n made) left s) {i blk : Nat} {a : Int} {w : Bool}
    (h : About s i blk a w) : ∃ c b k, Fork.Runs s.pool i (c, b, k) ∧ (s.pc c).b = b ∧ b < P.stmts c ∧ k < P.num c b ∧
      (P.W c b k blk a ∨ (w = false ∧ ¬ P.Off c b blk a)) := by
  obtain ⟨⟨c, b, k⟩, hr, hph⟩ := h
  have F := Fork.facts hp hI.reach hI.nodup
  have hno : s.phase (c, b, k) ≠ .over := by
    intro e
    rcases hph with ⟨_, _, e'⟩ | ⟨_, _, _, e'⟩ <;> rw [e] at e' <;> cases e'
  obtain ⟨hb, hin, hk, _⟩ := locate hI ((F.sched _).2 (Or.inl ((F.start _).2 (Or.inr ⟨i, hr⟩)))) hno
  have hC : Cinv P left s c b (s.pc c) := hb ▸ hI.each c
  have I := hC.inn hin
  have hT := I.task k hk
  refine ⟨c, b, k, hr, hb, I.blt, hk, ?_⟩
  rcases hph with ⟨hw, K, e⟩ | ⟨hw, v, K, e⟩
  · rw [e] at hT
    obtain ⟨v, hA, _⟩ := hT
    generalize left (c, b, k) = l at hA
    cases hA with
    | read h _ => exact h.imp id fun h => ⟨hw, h⟩
  · rw [e] at hT
    obtain ⟨v, hA, _⟩ := hT
    generalize left (c, b, k) = l at hA
    cases hA with
    | write h _ => exact Or.inl h

/-- C75. No two workers are ever about to access the same element unless both read. -/
theorem C75_no_race {push : Push Task} (hp : Keeps push) (n made : Nat)
    (progs : List (List (Stmt V))) (hok : ∀ p ∈ progs, ∀ σ ∈ p, σ.Ok) (hap : Apart progs) (m0 : Mem V)
    (ms : List Move) (s : Sys V) (hs : (Sys.init (Threads.Pool.create n made) m0).run push progs ms = some s)
    (i i' blk : Nat) (a : Int) (w w' : Bool) (hi : i ≠ i') (h : About s i blk a w) (h' : About s i' blk a w') :
    w = false ∧ w' = false := by
  obtain ⟨P, hP, _⟩ := plan_exists progs hok hap m0
  obtain ⟨left, hI, _⟩ := inv_run hp hP (inv_init (n := n) (made := made) hP) hs
  obtain ⟨c, b, k, r1, b1, s1, k1, o1⟩ := about_plan hp hI h
  obtain ⟨c', b', k', r2, b2, s2, k2, o2⟩ := about_plan hp hI h'
  have F := Fork.facts hp hI.reach hI.nodup
  have hne : ¬ (c = c' ∧ k = k') := by
    rintro ⟨rfl, rfl⟩
    have : b = b' := b1.symm.trans b2
    subst this
    exact hi (F.one _ i i' r1 r2)
  have main : ∀ {c b k c' b' k' : Nat} {w' : Bool}, (s.pc c).b = b → (s.pc c').b = b' → b < P.stmts c → k < P.num c b →
      b' < P.stmts c' → k' < P.num c' b' → ¬ (c = c' ∧ k = k') → P.W c b k blk a →
      (P.W c' b' k' blk a ∨ (w' = false ∧ ¬ P.Off c' b' blk a)) → False := by
    intro c b k c' b' k' w' b1 b2 s1 k1 s2 k2 hne hw ho
    by_cases ec : c' = c
    · subst ec
      have : b = b' := b1.symm.trans b2
      subst this
      rcases ho with ho | ⟨_, ho⟩
      · exact hne ⟨rfl, hP.disj _ _ _ _ _ _ s1 k1 k2 hw ho⟩
      · exact ho (Or.inl ⟨k, k1, hw⟩)
    · have hF := hP.other c b k blk a c' s1 k1 hw ec
      rcases ho with ho | ⟨_, ho⟩
      · exact hP.own c' b' k' blk a s2 k2 ho hF
      · exact ho (Or.inr hF)
  rcases o1 with o1 | o1
  · exact absurd (main b1 b2 s1 k1 s2 k2 hne o1 o2) id
  · rcases o2 with o2 | o2
    · exact absurd (main b2 b1 s2 k2 s1 k1 (fun h => hne ⟨h.1.symm, h.2.symm⟩) o2 (Or.inr o1)) id
    · exact ⟨o1.1, o2.1⟩

/-- C75. All of it comes to an end: the number of steps is bounded (a spurious wake-up may
add two), and where nothing but spurious wake-ups can happen, every thread has returned
from its last assignment. In particular no wake-up is lost, on the pool or on a semaphore,
and no task fails. -/
theorem C75_comes_to_an_end {push : Push Task} (hp : Keeps push) (n made : Nat) (hn : 1 ≤ n) (hm : 1 ≤ made)
    (progs : List (List (Stmt V))) (hok : ∀ p ∈ progs, ∀ σ ∈ p, σ.Ok) (hap : Apart progs) (m0 : Mem V) :
    ∃ bound, ∀ (ms : List Move) (s : Sys V),
      (Sys.init (Threads.Pool.create n made) m0).run push progs ms = some s →
      ms.countP proper ≤ bound + 2 * ms.countP (fun mv => !proper mv) ∧
      ((∀ mv, proper mv = true → s.step push progs mv = none) → Finished progs s) := by
  obtain ⟨P, hP, h1, _⟩ := plan_exists progs hok hap m0
  refine ⟨todo P progs.length (fun t => P.len t.1 t.2.1 t.2.2) (Sys.init (Threads.Pool.create n made) m0), fun ms s hs => ?_⟩
  obtain ⟨left, hI, hle⟩ := inv_run hp hP (inv_init (n := n) (made := made) hP) hs
  refine ⟨by omega, fun hst c p hc => ?_⟩
  rw [not_stuck hp hn hm hP hI hst c, h1, hc]
  rfl

/-- C75. From every state that can be reached, all threads can be brought to the end. -/
theorem C75_can_always_finish {push : Push Task} (hp : Keeps push) (n made : Nat) (hn : 1 ≤ n) (hm : 1 ≤ made)
    (progs : List (List (Stmt V))) (hok : ∀ p ∈ progs, ∀ σ ∈ p, σ.Ok) (hap : Apart progs) (m0 : Mem V)
    (ms : List Move) (s : Sys V) (hs : (Sys.init (Threads.Pool.create n made) m0).run push progs ms = some s) :
    ∃ ms' s', s.run push progs ms' = some s' ∧ Finished progs s' := by
  obtain ⟨P, hP, h1, _⟩ := plan_exists progs hok hap m0
  obtain ⟨left, hI, hle⟩ := inv_run hp hP (inv_init (n := n) (made := made) hP) hs
  clear hs hle
  generalize hd : todo P progs.length left s = d
  induction d using Nat.strongRecOn generalizing s left with
  | ind d ih =>
    by_cases hst : ∀ mv, proper mv = true → s.step push progs mv = none
    · refine ⟨[], s, rfl, fun c p hc => ?_⟩
      rw [not_stuck hp hn hm hP hI hst c, h1, hc]
      rfl
    · push Not at hst
      obtain ⟨mv, hmv, hne⟩ := hst
      obtain ⟨s1, hs1⟩ := Option.ne_none_iff_exists'.1 hne
      obtain ⟨left1, hI1, ht, _⟩ := inv_step hp hP hI hs1
      obtain ⟨ms', s', hr, hf⟩ := ih (todo P progs.length left1 s1) (by have := ht hmv; omega) s1 left1 hI1 rfl
      exact ⟨mv :: ms', s', by simp only [Sys.run, hs1]; exact hr, hf⟩

/-! ## Examples -/

namespace ConcurEx

/-- Two threads: one assigns a conditional stencil expression to field 0 in three parts and
then copies field 0 to field 3, the other copies field 2, which the first also reads, to
field 4. -/
def progs : List (List (Stmt Int)) :=
  [[⟨true, NeboEx.fld true 0, 3, NeboEx.expr⟩, ⟨false, NeboEx.fld true 3, 2, .field (NeboEx.fld true 0)⟩],
   [⟨true, NeboEx.fld true 4, 2, .field (NeboEx.fld true 2)⟩]]

theorem copyOk {g : Bool} {d r : Nat} (h : d ≠ r) {k : Int} (hk : 1 ≤ k) :
    (⟨g, NeboEx.fld true d, k, .field (NeboEx.fld true r)⟩ : Stmt Int).Ok := by
  refine ⟨⟨4, 3, 1⟩, d, by decide, NeboEx.target true d, ⟨NeboEx.onMesh true, by simp [NeboEx.fld]⟩, ?_, Or.inl ?_, hk⟩
  · intro c hc
    have ht := hasCell_iff (NeboEx.onMesh true)
    have e3 : (NeboEx.geo true).validGhosts.minus = ⟨1, 1, 0⟩ := rfl
    have e4 : (NeboEx.geo true).validGhosts.plus + (NeboEx.geo true).bc.hasExtra = ⟨2, 1, 0⟩ := by decide
    have e5 : (NeboEx.fld true d).geo.bc.hasExtra = ⟨1, 0, 0⟩ := by show (NeboEx.geo true).bc.hasExtra = _; decide
    unfold Interior at hc
    dsimp only at hc
    rw [e5] at hc
    rw [e3, e4] at ht
    unfold InBox at ht
    exact (ht c).2 (by iv_omega)
  · intro e
    injection e with e
    exact h e.symm

theorem ok : ∀ p ∈ progs, ∀ σ ∈ p, σ.Ok := by
  intro p hp σ hσ
  simp only [progs, List.mem_cons, List.not_mem_nil, or_false] at hp
  rcases hp with rfl | rfl
  · simp only [List.mem_cons, List.not_mem_nil, or_false] at hσ
    rcases hσ with rfl | rfl
    · exact ⟨⟨4, 3, 1⟩, 0, by decide, NeboEx.target true 0, NeboEx.wf, NeboEx.definedOn rfl, NeboEx.independent, by decide⟩
    · exact copyOk (by decide) (by decide)
  · simp only [List.mem_cons, List.not_mem_nil, or_false] at hσ
    subst hσ
    exact copyOk (by decide) (by decide)

theorem uses0 (blk : Nat) (σ : Stmt Int) (h : σ ∈ progs[0]) (hu : σ.Uses blk) : blk = 0 ∨ blk = 1 ∨ blk = 2 ∨ blk = 3 := by
  simp only [progs, List.getElem_cons_zero, List.mem_cons, List.not_mem_nil, or_false] at h
  rcases h with rfl | rfl
  · rcases hu with hu | hu | (hu | hu) | hu
    · exact Or.inl (by injection hu with hu; exact hu.symm)
    · exact hu.elim
    · exact hu.elim
    · exact Or.inr (Or.inl (by injection hu with hu; exact hu.symm))
    · exact Or.inr (Or.inr (Or.inl (by injection hu with hu; exact hu.symm)))
  · simp only [Stmt.Uses, Stmt.Writes, Mentions, NeboEx.fld, Option.some.injEq] at hu
    omega

theorem apart : Apart progs := by
  intro c c' p p' hc hc' hne σ hσ σ' hσ' blk hw hu
  have hlt : c < 2 := (List.getElem?_eq_some_iff.1 hc).1
  have hlt' : c' < 2 := (List.getElem?_eq_some_iff.1 hc').1
  rcases (show (c = 0 ∧ c' = 1) ∨ (c = 1 ∧ c' = 0) by omega) with ⟨rfl, rfl⟩ | ⟨rfl, rfl⟩
  · cases hc; cases hc'
    simp only [List.mem_cons, List.not_mem_nil, or_false] at hσ'
    subst hσ'
    have h0 := uses0 blk σ hσ hu
    simp only [Stmt.Writes, NeboEx.fld, Option.some.injEq] at hw
    omega
  · cases hc; cases hc'
    simp only [List.mem_cons, List.not_mem_nil, or_false] at hσ hσ'
    subst hσ
    simp only [Stmt.Uses, Stmt.Writes, Mentions, NeboEx.fld, Option.some.injEq] at hu
    rcases hσ' with rfl | rfl <;> simp only [Stmt.Writes, NeboEx.fld, Option.some.injEq] at hw <;> omega

end ConcurEx

/-- The hypotheses are met by a pool of two workers and two threads whose assignments
share an operand; and the two threads get to the end. -/
example (m0 : Mem Int) : (∀ p ∈ ConcurEx.progs, ∀ σ ∈ p, σ.Ok) ∧ Apart ConcurEx.progs ∧
    ∃ ms s, (Sys.init (Threads.Pool.create 2 2) m0).run fifoPush ConcurEx.progs ms = some s ∧
      Finished ConcurEx.progs s ∧ s.pc 0 = .start 2 ∧ s.pc 1 = .start 1 ∧ s.bad = false := by
  refine ⟨ConcurEx.ok, ConcurEx.apart, ?_⟩
  have hk : Keeps (fifoPush : Push Task) := (C34_policies fun _ => 0).1
  obtain ⟨ms, s, h1, h2⟩ := C75_can_always_finish hk 2 2 (by decide) (by decide) ConcurEx.progs ConcurEx.ok
    ConcurEx.apart m0 [] _ rfl
  exact ⟨ms, s, h1, h2, h2 0 _ rfl, h2 1 _ rfl,
    C75_semaphore_outlives_its_users hk 2 2 ConcurEx.progs ConcurEx.ok ConcurEx.apart m0 ms s h1⟩

/-! ## Assignments performed by tasks of the pool itself -/

/-- Every task `o` performs a thread-parallel assignment of which `inner o` is a part, so
it cannot finish before `inner o` has. -/
def Nested {T : Type} (inner : T → T) (s : Threads.Pool T) : Threads.Act T → Prop
  | .finish i => ∀ o, s.workers[i]? = some (.running o) → inner o ∈ s.finished
  | .fail _ _ | .resize _ _ => False
  | _ => True

/-- C75. An assignment must not be performed by a task of the pool that serves the
assignments: once every worker executes a task that performs an assignment, no part of
any of these assignments ever starts and none of the tasks ever finishes, whatever the
clients do (short of resizing the pool). -/
theorem C75_nested_assignments_never_return {T : Type} {push : Push T} (inner : T → T) (s0 s : Threads.Pool T)
    (hall : ∀ w ∈ s0.workers, ∃ o, w = .running o ∧ inner o ∉ s0.finished)
    (h : Reach push (Nested inner) s0 s) :
    s.workers = s0.workers ∧ s.started = s0.started ∧ s.finished = s0.finished := by
  induction h with
  | init => exact ⟨rfl, rfl, rfl⟩
  | @step s s' a _ hP hs ih =>
    obtain ⟨e1, e2, e3⟩ := ih
    have hrun : ∀ (i : Nat) w, s.workers[i]? = some w → ∃ o, w = .running o ∧ inner o ∉ s.finished := by
      intro i w hw
      rw [e1] at hw
      rw [e3]
      exact hall w (List.mem_of_getElem? hw)
    have hbad : ∀ (i : Nat) w, (∀ o, w ≠ .running o) → s.workers[i]? ≠ some w := by
      intro i w hw e
      obtain ⟨o, ho, _⟩ := hrun i w e
      exact hw o ho
    rw [← e1, ← e2, ← e3]
    cases a with
    | schedule t who =>
      simp only [Threads.Pool.step] at hs
      split at hs
      · split at hs
        · rename_i e; exact absurd e (hbad _ _ (by simp))
        · cases hs
      · split at hs
        · injection hs with hs; subst hs; exact ⟨rfl, rfl, rfl⟩
        · cases hs
    | clear => simp only [Threads.Pool.step] at hs; injection hs with hs; subst hs; exact ⟨rfl, rfl, rfl⟩
    | resize _ _ => exact absurd hP id
    | resizeActive k =>
      simp only [Threads.Pool.step] at hs
      injection hs with hs; subst hs
      have hw : s.workers.map Threads.wakeW = s.workers := by
        conv_rhs => rw [← List.map_id s.workers]
        refine List.map_congr_left fun w hw => ?_
        obtain ⟨i, hi⟩ := List.getElem?_of_mem hw
        obtain ⟨o, rfl, _⟩ := hrun i w hi
        rfl
      unfold Threads.Pool.resizeActive
      refine ⟨?_, rfl, rfl⟩
      first
        | exact hw
        | rfl
    | terminateAll =>
      simp only [Threads.Pool.step] at hs
      injection hs with hs; subst hs
      refine ⟨?_, rfl, rfl⟩
      show s.workers.map Threads.wakeW = s.workers
      conv_rhs => rw [← List.map_id s.workers]
      refine List.map_congr_left fun w hw => ?_
      obtain ⟨i, hi⟩ := List.getElem?_of_mem hw
      obtain ⟨o, rfl, _⟩ := hrun i w hi
      rfl
    | wait k => simp only [Threads.Pool.step] at hs; injection hs with hs; subst hs; exact ⟨rfl, rfl, rfl⟩
    | clientSpurious j =>
      simp only [Threads.Pool.step] at hs
      split at hs
      · injection hs with hs; subst hs; exact ⟨rfl, rfl, rfl⟩
      · cases hs
    | clientResume j =>
      simp only [Threads.Pool.step] at hs
      split at hs
      · injection hs with hs; subst hs; exact ⟨rfl, rfl, rfl⟩
      · cases hs
    | fetch i =>
      simp only [Threads.Pool.step] at hs
      split at hs
      · rename_i e; exact absurd e (hbad _ _ (by simp))
      · cases hs
    | spurious i =>
      simp only [Threads.Pool.step] at hs
      split at hs
      · rename_i e; exact absurd e (hbad _ _ (by simp))
      · cases hs
    | resume i =>
      simp only [Threads.Pool.step] at hs
      split at hs
      · rename_i e; exact absurd e (hbad _ _ (by simp))
      · cases hs
    | finish i =>
      simp only [Threads.Pool.step] at hs
      split at hs
      · rename_i o e
        obtain ⟨o', ho, hno⟩ := hrun i _ e
        injection ho with ho
        subst ho
        exact absurd (hP o e) hno
      · cases hs
    | fail i k => exact absurd hP id
    | exit i =>
      simp only [Threads.Pool.step] at hs
      split at hs
      · rename_i e; exact absurd e (hbad _ _ (by simp))
      · cases hs

/-- Two workers, tasks 0 and 1 each waiting for a part (10 and 11) of an assignment of
theirs: a state that is reached. -/
example : ∃ s : Threads.Pool Nat,
    (Threads.Pool.create 2 2).run fifoPush [.schedule 0 none, .schedule 1 none, .fetch 0, .fetch 1,
      .schedule 10 none, .schedule 11 none] = some s ∧ s.queue = [10, 11] ∧
    ∀ w ∈ s.workers, ∃ o, w = .running o ∧ o + 10 ∉ s.finished := by
  refine ⟨_, rfl, rfl, ?_⟩
  intro w hw
  have : w = .running 0 ∨ w = .running 1 := by
    have hw : w ∈ ([.running 0, .running 1] : List (Threads.WState Nat)) := hw
    simpa using hw
  rcases this with rfl | rfl
  · exact ⟨0, rfl, by decide⟩
  · exact ⟨1, rfl, by decide⟩

end SpatialOps
