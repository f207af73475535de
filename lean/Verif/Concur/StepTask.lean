import Verif.Concur.Step

/-!
# Steps of the tasks keep the invariant
-/

namespace SpatialOps.Concur
open Nebo
open Threads (Push Reach Keeps)
open Fork (Runs Same Starts Calm Facts facts)
variable {V : Type} [Add V] [Mul V]

variable {push : Push Task} {P : Plan V} {progs : List (List (Stmt V))} {m0 : Mem V} {n made : Nat}
  {left : Task → Nat} {s s' : Sys V}

theorem given_le {N : Nat} {p : Pc} (h : p.Bounded N) : p.given N ≤ N := by
  cases p <;> simp only [Pc.given, Pc.Bounded] at h ⊢ <;> omega

theorem Plan.Good.caller_lt (hP : P.Good progs m0) {c b : Nat} (h : b < P.stmts c) : c < progs.length := by
  by_contra hc
  have := (hP.stmt c b).2 h
  rw [List.getElem?_eq_none (by omega)] at this
  cases this

omit [Add V] [Mul V] in
/-- A scheduled task that is not over belongs to the present call of its caller. -/
theorem locate {p0 : Threads.Pool Task} (h : Inv push P p0 left s) {c b k : Nat}
    (ht : (c, b, k) ∈ s.pool.scheduled) (hno : s.phase (c, b, k) ≠ .over) :
    (s.pc c).b = b ∧ (s.pc c).inside = true ∧ k < P.num c b ∧ k < (s.pc c).given (P.num c b) := by
  have hC := h.each c
  rcases hC.sched b k ht with hb | ⟨hb, hk⟩
  · exact absurd (hC.past b k ht hb) hno
  · have hin : (s.pc c).inside = true := by
      cases e : s.pc c with
      | start b' => rw [e] at hk; exact absurd hk (Nat.not_lt_zero _)
      | _ => rfl
    subst hb
    exact ⟨rfl, hin, Nat.lt_of_lt_of_le hk (given_le (hC.inn hin).bnd), hk⟩

/-- A step of a task. -/
theorem inv_work (hp : Keeps push) (hP : P.Good progs m0) (h : Inv push P (Threads.Pool.create n made) left s) {i c b k l : Nat}
    {q : Phase V} (hrun : Runs s.pool i (c, b, k)) (hno : s.phase (c, b, k) ≠ .over)
    (hph : ∀ u, s'.phase u = if u = (c, b, k) then q else s.phase u) (hnum : s'.num = s.num)
    (hpool : s'.pool = s.pool) (hbad : s'.bad = s.bad)
    (hmem : ∀ blk a, ¬ P.W c b k blk a → s'.mem blk a = s.mem blk a)
    (hsemO : ∀ c' b', c' ≠ c → s'.sem c' b' = s.sem c' b')
    (hpcO : ∀ c', c' ≠ c → s'.pc c' = s.pc c')
    (hpc : s'.pc c = s.pc c ∨ ∃ w, s.pc c = .asleep b w ∧ s'.pc c = .woken b w)
    (htask : TaskOk P s'.mem c b k l q) (hsem : ∃ S', SemOk P s' c b (s'.pc c) S')
    (hcost : q.cost l + 1 ≤ (s.phase (c, b, k)).cost (left (c, b, k)))
    (hcost' : s'.pc c ≠ s.pc c → q.cost l + 3 ≤ (s.phase (c, b, k)).cost (left (c, b, k))) :
    ∃ left', Inv push P (Threads.Pool.create n made) left' s' ∧
      todo P progs.length left' s' + 1 ≤ todo P progs.length left s := by
  have F := facts hp h.reach h.nodup
  have hsch : (c, b, k) ∈ s.pool.scheduled := (F.sched _).2 (Or.inl ((F.start _).2 (Or.inr ⟨i, hrun⟩)))
  obtain ⟨hb, hin, hk, _⟩ := locate h hsch hno
  have hC : Cinv P left s c b (s.pc c) := hb ▸ h.each c
  have hblt := (hC.inn hin).blt
  have hclt := hP.caller_lt hblt
  have hb' : (s'.pc c).b = b := by
    rcases hpc with e | ⟨w, e1, e2⟩
    · rw [e, hb]
    · rw [e2]; rfl
  refine ⟨fun u => if u = (c, b, k) then l else left u, ⟨by rw [hpool]; exact h.reach, by rw [hpool]; exact h.nodup, ?_,
    hbad.trans h.ok, ?_⟩, ?_⟩
  · intro t ht
    rw [hpool] at ht
    rw [hph]
    split
    · rename_i e
      rw [e] at ht
      exact absurd ht (F.over _ i hrun)
    · exact h.ended t ht
  · intro c'
    by_cases e : c' = c
    · subst e
      rw [hb']
      exact hC.work hin hk (fun k' blk a hk' h1 h2 => hP.disj c' b k' k blk a hblt hk' hk h1 h2) hph
        (by rw [hnum]) hpool hmem (fun u => rfl) htask hno hpc hsem
    · have hne : ∀ b' k', ((c', b', k') : Task) ≠ (c, b, k) := by
        intro b' k' e'
        injection e' with e' _
        exact e e'
      rw [hpcO c' e]
      refine (h.each c').frame (by rw [hnum]) ?_ ?_ (fun b' => hsemO c' b' e) ?_ ?_ (by rw [hpool]; simp)
        (by rw [hpool]; intro _ _ _ h _; exact h)
      · intro b' k'; rw [hph, if_neg (hne b' k')]
      · intro b' k'; exact if_neg (hne b' k')
      · intro blk a hF
        exact hmem blk a fun hw => hF (hP.other c b k blk a c' hblt hk hw e)
      · intro k' blk a h1 h2 hw
        exact hP.own c' _ k' blk a h1 h2 hw
  · unfold todo
    rw [hpool]
    have hx := P.mem_tasks hclt hblt hk
    have h1 := sum_change (f := fun t => (s.phase t).cost (left t))
      (g := fun t => (s'.phase t).cost (if t = (c, b, k) then l else left t)) hx (by
        intro y _ hy
        rw [hph, if_neg hy, if_neg hy])
    have h2 := sum_change (S := Finset.range progs.length) (f := fun c => (s.pc c).cost P c)
      (g := fun c => (s'.pc c).cost P c) (Finset.mem_range.2 hclt) (by
        intro y _ hy
        rw [hpcO y hy])
    beta_reduce at h1 h2 ⊢
    rw [hph, if_pos rfl, if_pos rfl] at h1
    rcases hpc with e | ⟨w, e1, e2⟩
    · rw [e] at h2
      omega
    · have h3 := hcost' (by rw [e1, e2]; intro e; cases e)
      have hbnd := (hC.inn hin).bnd
      rw [e1] at h2 hbnd
      rw [e2] at h2
      have a1 : (Pc.asleep b w).cost P c = 6 * (P.num c b - w) - 1 + P.tail c (b + 1) := rfl
      have a2 : (Pc.woken b w).cost P c = 6 * (P.num c b - w) + 1 + P.tail c (b + 1) := rfl
      rw [a1, a2] at h2
      have hbnd : w < P.num c b := hbnd
      omega

omit [Add V] [Mul V] in
theorem write_eq (m : Mem V) (blk : Nat) (a : Int) (v : V) : m.write blk a v blk a = v := by
  simp [Mem.write]

omit [Add V] [Mul V] in
theorem write_ne (m : Mem V) {blk blk' : Nat} {a a' : Int} (v : V) (h : ¬ (blk' = blk ∧ a' = a)) :
    m.write blk a v blk' a' = m blk' a' := by
  simp only [Mem.write]
  split
  · rename_i e; exact absurd e h
  · rfl

theorem inv_task (hp : Keeps push) (hP : P.Good progs m0) (h : Inv push P (Threads.Pool.create n made) left s) {i : Nat} {t : Task}
    (hrun : Runs s.pool i t) (hs : s.taskStep i t = some s') :
    ∃ left', Inv push P (Threads.Pool.create n made) left' s' ∧
      todo P progs.length left' s' + 1 ≤ todo P progs.length left s := by
  obtain ⟨c, b, k⟩ := t
  have F := facts hp h.reach h.nodup
  have hsch : (c, b, k) ∈ s.pool.scheduled := (F.sched _).2 (Or.inl ((F.start _).2 (Or.inr ⟨i, hrun⟩)))
  have hno : s.phase (c, b, k) ≠ .over := by
    intro e
    simp only [Sys.taskStep, e] at hs
    cases hs
  obtain ⟨hb, hin, hk, _⟩ := locate h hsch hno
  have hC : Cinv P left s c b (s.pc c) := hb ▸ h.each c
  have I := hC.inn hin
  obtain ⟨S, hS⟩ := I.sem
  have hT := I.task k hk
  have kne : ∀ {k'}, k' ≠ k → ((c, b, k') : Task) ≠ (c, b, k) := by
    intro k' hne e
    injection e with _ e
    injection e with _ e
    exact hne e
  cases e : s.phase (c, b, k) with
  | over => exact absurd e hno
  | code A =>
    rw [e] at hT
    obtain ⟨v, hr, h1, h2⟩ := hT
    generalize hl : left (c, b, k) = l0 at hr
    cases hr with
    | done =>
      simp only [Sys.taskStep, e] at hs
      injection hs with hs; subst hs
      refine inv_work hp hP h (q := .toLock) (l := 0) hrun hno (fun _ => rfl) rfl rfl rfl (fun _ _ _ => rfl)
        (fun _ _ _ => rfl) (fun _ _ => rfl) (Or.inl rfl) h1 ⟨S, hS.same rfl ?_ (fun _ _ h => h)⟩ ?_ (fun h => absurd rfl h)
      · intro k'
        dsimp only [Sys.advance]
        split
        · rename_i e'; rw [e', e]; exact ⟨rfl, rfl⟩
        · exact ⟨rfl, rfl⟩
      · rw [e, hl]; simp only [Phase.cost]; omega
    | @read _ _ blk a K l hw hr =>
      simp only [Sys.taskStep, e] at hs
      injection hs with hs; subst hs
      have hv : s.mem blk a = v blk a := by
        by_cases hW : P.W c b k blk a
        · exact h1 blk a hW
        · have hoff : ¬ P.Off c b blk a := hw.resolve_left hW
          rw [h2 blk a hW]
          exact hC.rest blk a (fun hF => hoff (Or.inr hF)) (fun hA => hoff (Or.inl hA.2))
      refine inv_work hp hP h (q := .code (K (s.mem blk a))) (l := l) hrun hno (fun _ => rfl) rfl rfl rfl (fun _ _ _ => rfl)
        (fun _ _ _ => rfl) (fun _ _ => rfl) (Or.inl rfl) ⟨v, by rw [hv]; exact hr, h1, h2⟩
        ⟨S, hS.same rfl ?_ (fun _ _ h => h)⟩ ?_ (fun h => absurd rfl h)
      · intro k'
        dsimp only [Sys.advance]
        split
        · rename_i e'; rw [e', e]; exact ⟨rfl, rfl⟩
        · exact ⟨rfl, rfl⟩
      · rw [e, hl]; simp only [Phase.cost]; omega
    | @write _ _ blk a x K l hW hr =>
      simp only [Sys.taskStep, e] at hs
      injection hs with hs; subst hs
      refine inv_work hp hP h (q := .code K) (l := l) hrun hno (fun _ => rfl) rfl rfl rfl ?_
        (fun _ _ _ => rfl) (fun _ _ => rfl) (Or.inl rfl) ⟨v.write blk a x, hr, ?_, ?_⟩
        ⟨S, hS.same rfl ?_ (fun _ _ h => h)⟩ ?_ (fun h => absurd rfl h)
      · intro blk' a' hw
        refine write_ne _ _ ?_
        rintro ⟨rfl, rfl⟩
        exact hw hW
      · intro blk' a' hw
        by_cases hc : blk' = blk ∧ a' = a
        · obtain ⟨rfl, rfl⟩ := hc
          exact (write_eq _ _ _ _).trans (write_eq _ _ _ _).symm
        · exact (write_ne _ _ hc).trans ((h1 blk' a' hw).trans (write_ne _ _ hc).symm)
      · intro blk' a' hw
        rw [write_ne _ _ (by rintro ⟨rfl, rfl⟩; exact hw hW)]
        exact h2 blk' a' hw
      · intro k'
        dsimp only [Sys.advance]
        split
        · rename_i e'; rw [e', e]; exact ⟨rfl, rfl⟩
        · exact ⟨rfl, rfl⟩
      · rw [e, hl]; simp only [Phase.cost]; omega
  | toLock =>
    rw [e] at hT
    simp only [Sys.taskStep, Sys.use, e, hS.exist] at hs
    split at hs
    · rename_i hnone
      injection hs with hs; subst hs
      refine inv_work hp hP h (q := .held) (l := 0) hrun hno (fun _ => rfl) rfl rfl rfl (fun _ _ _ => rfl)
        (fun c' b' hc => ?_) (fun _ _ => rfl) (Or.inl rfl) hT
        ⟨{ S with lock := some (.worker i) }, ?_, hS.pos, ?_, ?_, ?_, ?_, hS.sleep⟩ ?_ (fun h => absurd rfl h)
      · dsimp only [Sys.advance, Sys.setSem]
        rw [if_neg (fun h => hc h.1)]
      · dsimp only [Sys.advance, Sys.setSem]
        rw [if_pos ⟨rfl, rfl⟩]
      · rw [show ((s.setSem c b (some { S with lock := some (.worker i) })).advance (c, b, k) .held).pc c = s.pc c from rfl]
        dsimp only
        rw [hS.val]
        unfold posted
        congr 1
        refine List.countP_congr fun k' _ => ?_
        dsimp only [Sys.advance, Sys.setSem]
        split
        · rename_i e'; rw [e', e]; simp [Phase.posted]
        · rfl
      · have hh := hS.lockC
        rw [hnone] at hh
        constructor
        · intro hc; cases hc
        · intro hc; cases hh.2 hc
      · intro k' hk' hh
        by_cases ek : k' = k
        · subst ek
          exact ⟨i, hrun, rfl⟩
        · dsimp only [Sys.advance, Sys.setSem] at hh
          rw [if_neg (kne ek)] at hh
          obtain ⟨_, _, hl⟩ := hS.lockT k' hk' hh
          rw [hnone] at hl
          cases hl
      · intro i' hi
        injection hi with hi
        injection hi with hi
        subst hi
        refine ⟨k, hk, hrun, ?_⟩
        dsimp only [Sys.advance, Sys.setSem]
        rw [if_pos rfl]
        rfl
      · rw [e]; simp only [Phase.cost]; omega
    · cases hs
  | held =>
    rw [e] at hT
    simp only [Sys.taskStep, Sys.use, e, hS.exist] at hs
    injection hs with hs; subst hs
    have hpc : Sys.notified b (s.pc c) = s.pc c ∨ ∃ w, s.pc c = .asleep b w ∧ Sys.notified b (s.pc c) = .woken b w := by
      cases ep : s.pc c with
      | asleep b' w =>
        rw [ep] at hb
        have hb : b' = b := hb
        subst hb
        exact Or.inr ⟨w, rfl, by simp [Sys.notified]⟩
      | _ => exact Or.inl rfl
    have htk : (Sys.notified b (s.pc c)).taken = (s.pc c).taken ∧ (Sys.notified b (s.pc c)).holds = (s.pc c).holds := by
      rcases hpc with e' | ⟨w, e1, e2⟩
      · rw [e']; exact ⟨rfl, rfl⟩
      · rw [e2, e1]; exact ⟨rfl, rfl⟩
    have epc : (((s.setSem c b (some { S with val := S.val + 1 })).goto c (Sys.notified b (s.pc c))).advance (c, b, k) .noted).pc c
        = Sys.notified b (s.pc c) := by
      dsimp only [Sys.advance, Sys.goto]
      rw [if_pos rfl]
    have ephase : ∀ k', (((s.setSem c b (some { S with val := S.val + 1 })).goto c (Sys.notified b (s.pc c))).advance (c, b, k) .noted).phase (c, b, k')
        = if k' = k then .noted else s.phase (c, b, k') := by
      intro k'
      dsimp only [Sys.advance, Sys.goto, Sys.setSem]
      by_cases ek : k' = k
      · subst ek; rw [if_pos rfl, if_pos rfl]
      · rw [if_neg (kne ek), if_neg ek]
    refine inv_work hp hP h (q := .noted) (l := 0) hrun hno (fun _ => rfl) rfl rfl rfl (fun _ _ _ => rfl)
      (fun c' b' hc => ?_) (fun c' hc => ?_) (by rw [epc]; exact hpc) hT
      ⟨{ S with val := S.val + 1 }, ?_, by have := hS.pos; dsimp only; omega, ?_, ?_, ?_, ?_, ?_⟩ ?_ ?_
    · dsimp only [Sys.advance, Sys.goto, Sys.setSem]
      rw [if_neg (fun h => hc h.1)]
    · dsimp only [Sys.advance, Sys.goto, Sys.setSem]
      rw [if_neg hc]
    · dsimp only [Sys.advance, Sys.goto, Sys.setSem]
      rw [if_pos ⟨rfl, rfl⟩]
    · rw [epc, htk.1]
      dsimp only
      have hcnt := countP_range (p := fun k' => (s.phase (c, b, k')).posted)
        (q := fun k' => (if k' = k then Phase.noted else s.phase (c, b, k')).posted) (k := k)
        (by intro j hj; rw [if_neg hj]) hk
      have hval := hS.val
      unfold posted at hval ⊢
      simp only [ephase]
      beta_reduce at hcnt
      rw [e, if_pos rfl] at hcnt
      rw [show (Phase.noted : Phase V).posted.toNat = 1 from rfl, show (Phase.held : Phase V).posted.toNat = 0 from rfl] at hcnt
      omega
    · rw [epc, htk.2]; exact hS.lockC
    · intro k' hk' hh
      rw [ephase] at hh
      by_cases ek : k' = k
      · subst ek
        exact hS.lockT k' hk' (by rw [e]; rfl)
      · rw [if_neg ek] at hh
        exact hS.lockT k' hk' hh
    · intro i' hi
      obtain ⟨k', h1, h2, h3⟩ := hS.lockW i' hi
      refine ⟨k', h1, h2, ?_⟩
      rw [ephase]
      split
      · rfl
      · exact h3
    · intro w hw
      rw [epc] at hw
      rcases hpc with e' | ⟨w', e1, e2⟩
      · cases ep : s.pc c with
        | asleep b' w' =>
          rw [ep] at hw hb
          have hb : b' = b := hb
          subst hb
          simp [Sys.notified] at hw
        | _ => rw [ep] at hw; cases hw
      · rw [e2] at hw; cases hw
    · rw [e]; simp only [Phase.cost]; omega
    · intro _; rw [e]; simp only [Phase.cost]; omega
  | noted =>
    rw [e] at hT
    simp only [Sys.taskStep, Sys.use, e, hS.exist] at hs
    injection hs with hs; subst hs
    obtain ⟨i', hri, hlock⟩ := hS.lockT k hk (by rw [e]; rfl)
    have ephase : ∀ k', ((s.setSem c b (some { S with lock := none })).advance (c, b, k) .over).phase (c, b, k')
        = if k' = k then .over else s.phase (c, b, k') := by
      intro k'
      dsimp only [Sys.advance, Sys.goto, Sys.setSem]
      by_cases ek : k' = k
      · subst ek; rw [if_pos rfl, if_pos rfl]
      · rw [if_neg (kne ek), if_neg ek]
    refine inv_work hp hP h (q := .over) (l := 0) hrun hno (fun _ => rfl) rfl rfl rfl (fun _ _ _ => rfl)
      (fun c' b' hc => ?_) (fun _ _ => rfl) (Or.inl rfl) hT
      ⟨{ S with lock := none }, ?_, hS.pos, ?_, ?_, ?_, ?_, hS.sleep⟩ ?_ (fun h => absurd rfl h)
    · dsimp only [Sys.advance, Sys.setSem]
      rw [if_neg (fun h => hc h.1)]
    · dsimp only [Sys.advance, Sys.setSem]
      rw [if_pos ⟨rfl, rfl⟩]
    · rw [show ((s.setSem c b (some { S with lock := none })).advance (c, b, k) .over).pc c = s.pc c from rfl]
      dsimp only
      rw [hS.val]
      unfold posted
      congr 1
      refine List.countP_congr fun k' _ => ?_
      rw [ephase]
      split
      · rename_i e'; rw [e', e]; rfl
      · rfl
    · have hh := hS.lockC
      rw [hlock] at hh
      constructor
      · intro hc; cases hc
      · intro hc; cases hh.2 hc
    · intro k' hk' hh
      rw [ephase] at hh
      by_cases ek : k' = k
      · rw [if_pos ek] at hh; cases hh
      · rw [if_neg ek] at hh
        obtain ⟨i'', hr'', hl''⟩ := hS.lockT k' hk' hh
        rw [hlock] at hl''
        injection hl'' with hl''
        injection hl'' with hl''
        subst hl''
        exact absurd (runs_inj hr'' hri) (kne ek)
    · intro i'' hi; cases hi
    · rw [e]; simp only [Phase.cost]; omega

end SpatialOps.Concur
