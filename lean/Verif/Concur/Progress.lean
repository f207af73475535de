import Verif.Concur.StepCaller

/-!
# All steps keep the invariant, and the system gets to the end
-/

namespace SpatialOps.Concur
open Nebo
open Threads (Push Reach Keeps Quiet)
open Fork (Runs Same Starts Calm Facts facts)
variable {V : Type} [Add V] [Mul V]

variable {push : Push Task} {P : Plan V} {progs : List (List (Stmt V))} {m0 : Mem V} {n made : Nat}
  {left : Task → Nat} {s s' : Sys V}

/-- A step of the pool by itself. -/
theorem inv_pool (hP : P.Good progs m0) (h : Inv push P (Threads.Pool.create n made) left s) {p : Threads.Pool Task}
    (hre : Reach push Calm (Threads.Pool.create n made) p) (hsch : p.scheduled = s.pool.scheduled)
    (hfin : ∀ t ∈ p.finished, s.phase t = .over)
    (hrun : ∀ i t, Runs s.pool i t → (s.phase t).holds = true → Runs p i t) :
    Inv push P (Threads.Pool.create n made) left { s with pool := p } := by
  refine ⟨hre, by rw [hsch]; exact h.nodup, hfin, h.ok, fun c => ?_⟩
  exact (h.each c).frame rfl (fun _ _ => rfl) (fun _ _ => rfl) (fun _ => rfl) (fun _ _ _ => rfl)
    (fun k blk a h1 h2 hw => hP.own c _ k blk a h1 h2 hw) (fun b k => by rw [hsch]) (fun i b k => hrun i _)

theorem inv_same (hP : P.Good progs m0) (h : Inv push P (Threads.Pool.create n made) left s) {p : Threads.Pool Task}
    (hre : Reach push Calm (Threads.Pool.create n made) p) (hsame : Same s.pool p) :
    Inv push P (Threads.Pool.create n made) left { s with pool := p } :=
  inv_pool hP h hre hsame.scheduled (by rw [hsame.finished]; exact h.ended) (fun i t hr _ => (hsame.runs i t).2 hr)

theorem inv_starts (hp : Keeps push) (hP : P.Good progs m0) (h : Inv push P (Threads.Pool.create n made) left s)
    {p : Threads.Pool Task} {i : Nat} {t : Task}
    (hre : Reach push Calm (Threads.Pool.create n made) p) (hst : Starts s.pool p i t) :
    Inv push P (Threads.Pool.create n made) left { s with pool := p } := by
  have F := facts hp h.reach h.nodup
  have F' := facts hp hre (by rw [hst.scheduled]; exact h.nodup)
  refine inv_pool hP h hre hst.scheduled (by rw [hst.finished]; exact h.ended) ?_
  intro i' t' hr _
  by_cases e : i' = i
  · subst e
    exfalso
    have h1 : t' ∈ s.pool.started := (F.start t').2 (Or.inr ⟨i', hr⟩)
    have h2 : t' ∈ p.started := by rw [hst.started]; exact List.mem_append_left _ h1
    rcases (F'.start t').1 h2 with h3 | ⟨i'', h3⟩
    · rw [hst.finished] at h3
      exact F.over t' i' hr h3
    · by_cases e : i'' = i'
      · subst e
        have := runs_inj h3 hst.runs
        subst this
        exact F.fresh t' (by rw [hst.queue]; simp) h1
      · exact e (F.one t' i'' i' ((hst.other i'' t' e).1 h3) hr)
  · exact (hst.other i' t' e).2 hr

omit [Add V] [Mul V] in
theorem todo_pool {nc : Nat} (p : Threads.Pool Task) :
    todo P nc left { s with pool := p } + Threads.fuel s.pool = todo P nc left s + Threads.fuel p := by
  unfold todo
  dsimp only
  omega

theorem inv_schedule (hp : Keeps push) (hP : P.Good progs m0) (h : Inv push P (Threads.Pool.create n made) left s)
    {c b k : Nat} {who : Option Nat} {p : Threads.Pool Task} (e : s.pc c = .call b k) (hk : k < s.num c)
    (hs : s.pool.step push (.schedule (c, b, k) who) = some p) :
    Inv push P (Threads.Pool.create n made) left (Sys.goto { s with pool := p } c (.call b (k + 1))) ∧
      todo P progs.length left (Sys.goto { s with pool := p } c (.call b (k + 1))) + 1 ≤
        todo P progs.length left s := by
  generalize hs' : Sys.goto { s with pool := p } c (.call b (k + 1)) = s'
  have hC : Cinv P left s c b (.call b k) := by
    have := h.each c
    rw [e] at this
    exact this
  have I := hC.inn rfl
  have hnum : s.num c = P.num c b := I.num
  obtain ⟨S, hS⟩ := I.sem
  obtain ⟨e1, e2, e3, e4, e5, e6⟩ := Fork.schedule_effect hs
  have hpool : s'.pool = p := by rw [← hs']; rfl
  have hmem : s'.mem = s.mem := by rw [← hs']; rfl
  have hph : s'.phase = s.phase := by rw [← hs']; rfl
  have hpcc : s'.pc c = .call b (k + 1) := by rw [← hs']; exact goto_pc _ _ _
  have hpcO : ∀ c', c' ≠ c → s'.pc c' = s.pc c' := by
    intro c' e; rw [← hs']; exact goto_ne _ _ e
  have hsem : s'.sem = s.sem := by rw [← hs']; rfl
  have hfresh : (c, b, k) ∉ s.pool.scheduled := by
    intro hm
    rcases hC.sched b k hm with hh | ⟨_, hh⟩
    · omega
    · have hh : k < k := hh
      omega
  constructor
  · refine ⟨by rw [hpool]; exact h.reach.step (a := .schedule (c, b, k) who) trivial hs, ?_, by rw [hpool, hph, e3]; exact h.ended,
      by rw [← hs']; exact h.ok, fun c' => ?_⟩
    · rw [hpool, e1, List.nodup_append]
      refine ⟨h.nodup, List.nodup_singleton _, ?_⟩
      intro a ha b' hb'
      rw [List.mem_singleton] at hb'
      subst hb'
      rintro rfl
      exact hfresh ha
    · by_cases ec : c' = c
      · subst ec
        rw [hpcc]
        refine ⟨hC.ble, ?_, ?_, ?_, ?_, ?_, fun _ => ⟨I.blt, by rw [← hs']; exact hnum, ?_, ?_, ⟨S, ?_⟩, ?_⟩⟩
        · intro b' k' hm
          rw [hpool, e1, List.mem_append, List.mem_singleton] at hm
          rcases hm with hm | hm
          · rcases hC.sched b' k' hm with hh | ⟨hh, hk'⟩
            · exact Or.inl hh
            · have hk' : k' < k := hk'
              exact Or.inr ⟨hh, by show k' < k + 1; omega⟩
          · injection hm with _ hm
            injection hm with h1 h2
            exact Or.inr ⟨h1, by show k' < k + 1; omega⟩
        · intro k' hk'
          have hk' : k' < k + 1 := hk'
          rw [hpool, e1, List.mem_append, List.mem_singleton]
          by_cases ek : k' = k
          · subst ek; exact Or.inr rfl
          · exact Or.inl (hC.sched' k' (by show k' < k; omega))
        · intro b' k' hm hb
          rw [hpool, e1, List.mem_append, List.mem_singleton] at hm
          rw [hph]
          rcases hm with hm | hm
          · exact hC.past b' k' hm hb
          · injection hm with _ hm
            injection hm with h1 h2
            subst h1
            exact absurd hb (Nat.lt_irrefl _)
        · intro b' k' hb
          rw [hph]
          exact hC.future b' k' hb
        · rw [hmem]; exact hC.rest
        · show k + 1 ≤ P.num c' b
          omega
        · rw [hmem, hph]; exact I.task
        · refine ⟨by rw [hsem]; exact hS.exist, hS.pos, ?_, hS.lockC, ?_, ?_, fun w hw => by cases hw⟩
          · unfold posted
            rw [hph]
            exact hS.val
          · rw [hph, hpool]
            intro k' hk' hh
            obtain ⟨i, h1, h2⟩ := hS.lockT k' hk' hh
            exact ⟨i, (e6 _ _).2 h1, h2⟩
          · rw [hph, hpool]
            intro i hi
            obtain ⟨k', h1, h2, h3⟩ := hS.lockW i hi
            exact ⟨k', h1, (e6 _ _).2 h2, h3⟩
        · intro w hw; cases hw
      · rw [hpcO c' ec]
        refine (h.each c').frame (by rw [← hs']; rfl) (fun _ _ => by rw [hph]) (fun _ _ => rfl) (fun _ => by rw [hsem])
          (fun _ _ _ => by rw [hmem]) (fun k blk a h1 h2 hw => hP.own c' _ k blk a h1 h2 hw) ?_ ?_
        · intro b' k'
          rw [hpool, e1, List.mem_append, List.mem_singleton]
          constructor
          · rintro (hm | hm)
            · exact hm
            · injection hm with hm _
              exact absurd hm ec
          · exact Or.inl
        · intro i b' k' hr _
          rw [hpool]
          exact (e6 _ _).2 hr
  · have := todo_own (P := P) (left := left) (s := s) (s' := s') (hP.caller_lt I.blt) (by
      intro t; rw [hph]) hpcO
    have hf := Fork.schedule_fuel hp hs
    rw [hpcc, e, hpool,
      show (Pc.call b k).cost P c = 7 * (P.num c b - k) + 6 * P.num c b + 2 + P.tail c (b + 1) from rfl,
      show (Pc.call b (k + 1)).cost P c = 7 * (P.num c b - (k + 1)) + 6 * P.num c b + 2 + P.tail c (b + 1) from rfl] at this
    omega

theorem inv_callerSpurious (hP : P.Good progs m0) (h : Inv push P (Threads.Pool.create n made) left s)
    {c b w : Nat} (e : s.pc c = .asleep b w) :
    Inv push P (Threads.Pool.create n made) left (s.goto c (.woken b w)) ∧
      todo P progs.length left (s.goto c (.woken b w)) ≤ todo P progs.length left s + 2 := by
  have hC : Cinv P left s c b (.asleep b w) := by
    have := h.each c
    rw [e] at this
    exact this
  have I := hC.inn rfl
  obtain ⟨S, hS⟩ := I.sem
  have hcur : s.setSem c b (some S) = s := by
    unfold Sys.setSem
    have : (fun c' b' => if c' = c ∧ b' = b then some S else s.sem c' b') = s.sem := by
      funext c' b'
      split
      · rename_i hh; rw [hh.1, hh.2]; exact hS.exist.symm
      · rfl
    rw [this]
  have := inv_within (c := c) (b := b) hP h (p := .woken b w) (S := S) (S' := S) (by rw [e]; rfl) (by rw [e]; rfl)
    (by rw [e]; exact hS) rfl rfl (by rw [e]; rfl) I.bnd hS.pos (by rw [e]; rfl)
    hS.lockC (fun _ => Iff.rfl) (fun w hw => by cases hw) (by intro w hw; cases hw)
  rw [hcur] at this
  refine ⟨this.1, ?_⟩
  have h2 := this.2
  have hw : w < P.num c b := I.bnd
  rw [e, show (Pc.asleep b w).cost P c = 6 * (P.num c b - w) - 1 + P.tail c (b + 1) from rfl,
    show (Pc.woken b w).cost P c = 6 * (P.num c b - w) + 1 + P.tail c (b + 1) from rfl] at h2
  omega

theorem inv_step (hp : Keeps push) (hP : P.Good progs m0) (h : Inv push P (Threads.Pool.create n made) left s)
    {mv : Move} (hs : s.step push progs mv = some s') :
    ∃ left', Inv push P (Threads.Pool.create n made) left' s' ∧
      (proper mv = true → todo P progs.length left' s' + 1 ≤ todo P progs.length left s) ∧
      (todo P progs.length left' s' ≤ todo P progs.length left s + 2) := by
  have fin : ∀ {X : Prop} {a b : Nat}, a + 1 ≤ b → (X → a + 1 ≤ b) ∧ a ≤ b + 2 := by
    intro X a b h; exact ⟨fun _ => h, by omega⟩
  cases mv with
  | caller c =>
    obtain ⟨h1, h2⟩ := inv_caller hp hP h hs
    exact ⟨left, h1, fin h2⟩
  | schedule c who =>
    simp only [Sys.step] at hs
    split at hs
    · rename_i b k e
      split at hs
      · rename_i hk
        obtain ⟨p, hp', rfl⟩ := Option.map_eq_some_iff.1 hs
        obtain ⟨h1, h2⟩ := inv_schedule hp hP h e hk hp'
        exact ⟨left, h1, fin h2⟩
      · cases hs
    · cases hs
  | callerSpurious c =>
    simp only [Sys.step] at hs
    split at hs
    · rename_i b w e
      injection hs with hs; subst hs
      obtain ⟨h1, h2⟩ := inv_callerSpurious hP h e
      exact ⟨left, h1, fun h => (by cases h), h2⟩
    · cases hs
  | fetch i =>
    simp only [Sys.step] at hs
    obtain ⟨p, hp', rfl⟩ := Option.map_eq_some_iff.1 hs
    have hre := h.reach.step (a := .fetch i) trivial hp'
    have hf := Threads.fuel_step (a := .fetch i) trivial hp'
    have ht := todo_pool (P := P) (nc := progs.length) (left := left) (s := s) p
    refine ⟨left, ?_, fin (by omega)⟩
    rcases (Fork.fetch_effect hp').2 with ⟨hsame, _⟩ | ⟨t, hst⟩
    · exact inv_same hP h hre hsame
    · exact inv_starts hp hP h hre hst
  | resume i =>
    simp only [Sys.step] at hs
    obtain ⟨p, hp', rfl⟩ := Option.map_eq_some_iff.1 hs
    have hre := h.reach.step (a := .resume i) trivial hp'
    have hf := Threads.fuel_step (a := .resume i) trivial hp'
    have ht := todo_pool (P := P) (nc := progs.length) (left := left) (s := s) p
    refine ⟨left, ?_, fin (by omega)⟩
    rcases (Fork.resume_effect hp').2 with ⟨hsame, _⟩ | ⟨t, hst⟩
    · exact inv_same hP h hre hsame
    · exact inv_starts hp hP h hre hst
  | spurious i =>
    simp only [Sys.step] at hs
    obtain ⟨p, hp', rfl⟩ := Option.map_eq_some_iff.1 hs
    have hre := h.reach.step (a := .spurious i) trivial hp'
    obtain ⟨hsame, _, _, hf⟩ := Fork.spurious_effect hp'
    have ht := todo_pool (P := P) (nc := progs.length) (left := left) (s := s) p
    exact ⟨left, inv_same hP h hre hsame, fun h => (by cases h), by omega⟩
  | work i =>
    simp only [Sys.step] at hs
    split at hs
    · rename_i t e
      obtain ⟨left', h1, h2⟩ := inv_task hp hP h (i := i) (t := t) e hs
      exact ⟨left', h1, fin h2⟩
    · cases hs
  | finish i =>
    simp only [Sys.step] at hs
    split at hs
    · rename_i t e
      split at hs
      · rename_i hover
        obtain ⟨p, hp', rfl⟩ := Option.map_eq_some_iff.1 hs
        have hre := h.reach.step (a := .finish i) trivial hp'
        have hf := Threads.fuel_step (a := .finish i) trivial hp'
        have ht := todo_pool (P := P) (nc := progs.length) (left := left) (s := s) p
        obtain ⟨e1, _, e3, _, _, e6⟩ := Fork.finish_effect (t := t) e hp'
        refine ⟨left, inv_pool hP h hre e1 ?_ ?_, fin (by omega)⟩
        · intro u hu
          rw [e3, List.mem_append, List.mem_singleton] at hu
          rcases hu with hu | hu
          · exact h.ended u hu
          · rw [hu]; exact hover
        · intro i' t' hr hh
          refine (e6 i' t').2 ⟨?_, hr⟩
          rintro rfl
          have : t' = t := runs_inj hr e
          rw [this, hover] at hh
          cases hh
      · cases hs
    · cases hs
  | exit i =>
    simp only [Sys.step] at hs
    obtain ⟨p, hp', rfl⟩ := Option.map_eq_some_iff.1 hs
    have hre := h.reach.step (a := .exit i) trivial hp'
    have hf := Threads.fuel_step (a := .exit i) trivial hp'
    have ht := todo_pool (P := P) (nc := progs.length) (left := left) (s := s) p
    exact ⟨left, inv_same hP h hre (Fork.exit_effect hp').1, fin (by omega)⟩

theorem inv_init (hP : P.Good progs m0) :
    Inv push P (Threads.Pool.create n made) (fun t => P.len t.1 t.2.1 t.2.2) (Sys.init (Threads.Pool.create n made) m0) := by
  obtain ⟨_, e2, _, e4, _⟩ := Fork.create_empty (T := Task) n made
  refine ⟨Reach.init, ?_, ?_, rfl, fun c => ⟨Nat.zero_le _, ?_, fun k hk => absurd hk (Nat.not_lt_zero _), ?_, fun b k _ => ⟨rfl, rfl⟩, ?_, fun hi => by cases hi⟩⟩
  · show (Threads.Pool.create n made).scheduled.Nodup
    rw [e2]; exact List.nodup_nil
  · show ∀ t ∈ (Threads.Pool.create n made).finished, _
    rw [e4]; intro t ht; cases ht
  · show ∀ b' k, (c, b', k) ∈ (Threads.Pool.create n made).scheduled → _
    rw [e2]; intro b k hk; cases hk
  · show ∀ b' k, (c, b', k) ∈ (Threads.Pool.create n made).scheduled → _
    rw [e2]; intro b k hk; cases hk
  · intro blk a _ _
    show m0 blk a = P.M c 0 blk a
    rw [hP.first]

theorem inv_run (hp : Keeps push) (hP : P.Good progs m0) (h : Inv push P (Threads.Pool.create n made) left s)
    {ms : List Move} (hs : s.run push progs ms = some s') :
    ∃ left', Inv push P (Threads.Pool.create n made) left' s' ∧
      ms.countP proper + todo P progs.length left' s' ≤
        todo P progs.length left s + 2 * ms.countP (fun mv => !proper mv) := by
  induction ms generalizing s left with
  | nil =>
    simp only [Sys.run, Option.some.injEq] at hs
    subst hs
    exact ⟨left, h, by simp⟩
  | cons mv ms ih =>
    simp only [Sys.run] at hs
    obtain ⟨s1, h1, h2⟩ := Option.bind_eq_some_iff.1 hs
    obtain ⟨left1, i1, t1, t2⟩ := inv_step hp hP h h1
    obtain ⟨left2, i2, t3⟩ := ih i1 h2
    refine ⟨left2, i2, ?_⟩
    rw [List.countP_cons, List.countP_cons]
    cases hpr : proper mv
    · simp
      omega
    · have := t1 hpr
      simp
      omega

/-- Where no step is possible every caller is through. -/
theorem not_stuck (hp : Keeps push) (hn : 1 ≤ n) (hm : 1 ≤ made) (hP : P.Good progs m0)
    (h : Inv push P (Threads.Pool.create n made) left s)
    (hst : ∀ mv, proper mv = true → s.step push progs mv = none) : ∀ c, s.pc c = .start (P.stmts c) := by
  have F := facts hp h.reach h.nodup
  -- a task holding a mutex can go on
  have hheld : ∀ i c b k, Runs s.pool i (c, b, k) → (s.phase (c, b, k)).holds = true → False := by
    intro i c b k hr hh
    have hno : s.phase (c, b, k) ≠ .over := by intro e; rw [e] at hh; cases hh
    obtain ⟨hb, hin, hk, _⟩ := locate h ((F.sched _).2 (Or.inl ((F.start _).2 (Or.inr ⟨i, hr⟩)))) hno
    have hC : Cinv P left s c b (s.pc c) := hb ▸ h.each c
    obtain ⟨S, hS⟩ := (hC.inn hin).sem
    have h1 := hst (.work i) rfl
    unfold Runs at hr
    simp only [Sys.step, hr, Sys.taskStep] at h1
    cases e : s.phase (c, b, k) with
    | held => simp [e, Sys.use, hS.exist] at h1
    | noted => simp [e, Sys.use, hS.exist] at h1
    | _ => rw [e] at hh; cases hh
  have hno : ∀ i t, ¬ Runs s.pool i t := by
    rintro i ⟨c, b, k⟩ hr
    by_cases hov : s.phase (c, b, k) = .over
    · have h1 := hst (.finish i) rfl
      unfold Runs at hr
      simp [Sys.step, hr, hov, Threads.Pool.step] at h1
    · obtain ⟨hb, hin, hk, _⟩ := locate h ((F.sched _).2 (Or.inl ((F.start _).2 (Or.inr ⟨i, hr⟩)))) hov
      have hC : Cinv P left s c b (s.pc c) := hb ▸ h.each c
      have I := hC.inn hin
      obtain ⟨S, hS⟩ := I.sem
      have hT := I.task k hk
      have h1 := hst (.work i) rfl
      have hr' := hr
      unfold Runs at hr'
      simp only [Sys.step, hr', Sys.taskStep] at h1
      cases e : s.phase (c, b, k) with
      | over => exact hov e
      | held => exact hheld i c b k hr (by rw [e]; rfl)
      | noted => exact hheld i c b k hr (by rw [e]; rfl)
      | code A =>
        rw [e] at hT h1
        obtain ⟨v, hA, _⟩ := hT
        generalize left (c, b, k) = l at hA
        cases hA <;> simp at h1
      | toLock =>
        simp only [e, Sys.use, hS.exist] at h1
        split at h1
        · cases h1
        · rename_i hl
          cases el : S.lock with
          | none => exact hl el
          | some x =>
            cases x with
            | worker i' =>
              obtain ⟨k', _, h3, h4⟩ := hS.lockW i' el
              exact hheld i' c b k' h3 h4
            | caller =>
              have hh := hS.lockC.1 el
              have h2 := hst (.caller c) rfl
              simp only [Sys.step, Sys.callerStep] at h2
              cases ep : s.pc c with
              | test b' w =>
                rw [ep] at hb
                have hb : b' = b := hb
                subst hb
                simp only [ep, Sys.use, hS.exist] at h2
                split at h2 <;> cases h2
              | leave b' w =>
                rw [ep] at hb
                have hb : b' = b := hb
                subst hb
                simp [ep, Sys.use, hS.exist] at h2
              | _ => rw [ep] at hh; cases hh
  have hquiet : Quiet push s.pool := by
    intro a ha
    cases a with
    | fetch i =>
      have := hst (.fetch i) rfl
      simp only [Sys.step, Option.map_eq_none_iff] at this
      exact this
    | resume i =>
      have := hst (.resume i) rfl
      simp only [Sys.step, Option.map_eq_none_iff] at this
      exact this
    | exit i =>
      have := hst (.exit i) rfl
      simp only [Sys.step, Option.map_eq_none_iff] at this
      exact this
    | finish i =>
      simp only [Threads.Pool.step]
      split
      · rename_i t e
        exact absurd e (hno i t)
      · rfl
    | _ => exact absurd ha id
  have hq : s.pool.queue = [] := by
    by_contra hne
    exact C35_no_lost_wakeup hn hm (h.reach.mono Fork.calm_noShrink) hne hquiet
  have hover : ∀ t ∈ s.pool.scheduled, s.phase t = .over := by
    intro t ht
    rcases (F.sched t).1 ht with h1 | h1
    · rcases (F.start t).1 h1 with h2 | ⟨i, h2⟩
      · exact h.ended t h2
      · exact absurd h2 (hno i t)
    · rw [hq] at h1; cases h1
  intro c
  have hC := h.each c
  have h1 := hst (.caller c) rfl
  simp only [Sys.step, Sys.callerStep] at h1
  -- nobody but the caller can hold the mutex
  have hfree : ∀ b S, SemOk P s c b (s.pc c) S → (s.pc c).holds = false → S.lock = none := by
    intro b S hS hh
    cases el : S.lock with
    | none => rfl
    | some x =>
      cases x with
      | caller => rw [hS.lockC.1 el] at hh; cases hh
      | worker i =>
        obtain ⟨k, _, h3, _⟩ := hS.lockW i el
        exact absurd h3 (hno i _)
  cases ep : s.pc c with
  | start b =>
    rw [ep] at hC
    have hle : b ≤ P.stmts c := hC.ble
    by_cases hb : b < P.stmts c
    · exfalso
      obtain ⟨σ, hσ⟩ := Option.isSome_iff_exists.1 ((hP.stmt c b).2 hb)
      have hg := hP.gen c b σ s.mem hσ (fun blk a hF => hC.rest blk a hF (fun hh => by cases hh.1))
      simp [ep, hσ, hg] at h1
    · rw [show b = P.stmts c by omega]
  | call b k =>
    exfalso
    rw [ep] at hC h1
    dsimp only at h1
    split at h1
    · rename_i hk
      by_cases hw : ∃ i : Nat, s.pool.workers[i]? = some Threads.WState.waiting
      · obtain ⟨i, hi⟩ := hw
        have h2 := hst (.schedule c (some i)) rfl
        simp [Sys.step, ep, hk, Threads.Pool.step, hi] at h2
      · have h2 := hst (.schedule c none) rfl
        simp only [Sys.step, ep, hk, if_true, Threads.Pool.step, Option.map_eq_none_iff] at h2
        split at h2
        · cases h2
        · rename_i hall
          apply hall
          rw [List.all_eq_true]
          intro x hx
          obtain ⟨i, hi⟩ := List.getElem?_of_mem hx
          split
          · exact absurd ⟨i, hi⟩ hw
          · rfl
    · cases h1
  | enter b w =>
    exfalso
    rw [ep] at hC hfree
    obtain ⟨S, hS⟩ := (hC.inn rfl).sem
    have hex : s.sem c b = some S := hS.exist
    have hl := hfree b S hS rfl
    simp only [ep, Sys.use, hex, hl] at h1
    split at h1 <;> simp at h1
  | test b w =>
    exfalso
    rw [ep] at hC
    obtain ⟨S, hS⟩ := (hC.inn rfl).sem
    have hex : s.sem c b = some S := hS.exist
    simp only [ep, Sys.use, hex] at h1
    split at h1 <;> cases h1
  | woken b w =>
    exfalso
    rw [ep] at hC hfree
    obtain ⟨S, hS⟩ := (hC.inn rfl).sem
    have hex : s.sem c b = some S := hS.exist
    have hl := hfree b S hS rfl
    simp [ep, Sys.use, hex, hl] at h1
  | leave b w =>
    exfalso
    rw [ep] at hC
    obtain ⟨S, hS⟩ := (hC.inn rfl).sem
    have hex : s.sem c b = some S := hS.exist
    simp [ep, Sys.use, hex] at h1
  | asleep b w =>
    exfalso
    rw [ep] at hC
    have I := hC.inn rfl
    obtain ⟨S, hS⟩ := I.sem
    have hv : S.val + ((w : Nat) : Int) = ((posted s c b (P.num c b) : Nat) : Int) := hS.val
    have hz : S.val ≤ 0 := hS.sleep w rfl
    have hw : w < P.num c b := I.bnd
    have hp0 := hS.pos
    have hall : posted s c b (P.num c b) = P.num c b := by
      unfold posted
      have : (List.range (P.num c b)).countP (fun k => (s.phase (c, b, k)).posted) = (List.range (P.num c b)).length := by
        rw [List.countP_eq_length]
        intro k hk
        rw [show s.phase (c, b, k) = .over from hover _ (hC.sched' k (List.mem_range.1 hk))]
        rfl
      rw [this, List.length_range]
    rw [hall] at hv
    omega

end SpatialOps.Concur
