import Verif.Fork.PoolFacts

/-!
# The invariant: each job has come as far as it would have come alone
-/

namespace SpatialOps.Fork
open Threads Threads.Pool
variable {V L : Type}

/-- The batch the client works on. -/
def batch : Pc → Nat
  | .call b _ => b
  | .inWait b => b

/-- Number of jobs in a batch. -/
def size (prog : Prog V L) (b : Nat) : Nat := (prog[b]?.getD []).length

/-- How many jobs of the present batch have been scheduled. -/
def given (prog : Prog V L) : Pc → Nat
  | .call _ k => k
  | .inWait b => size prog b

theorem job_iff {prog : Prog V L} {b k : Nat} : (job prog (b, k)).isSome ↔ k < size prog b := by
  unfold job size
  cases h : prog[b]? with
  | none => simp
  | some js => simp

/-- State of affairs, `M` being the memory at the beginning of the present batch and
`cnt` the number of accesses each task has made. -/
structure Inv (push : Push Task) (prog : Prog V L) (acc wr : Task → Nat → Prop) (p0 : Pool Task)
    (m0 : Nat → V) (cnt : Task → Nat) (M : Nat → V) (s : Sys V L) : Prop where
  reach : Reach push Calm p0 s.pool
  seq : Seq (prog.take (batch s.pc)).flatten m0 M
  ble : batch s.pc ≤ prog.length
  blt : ∀ b, s.pc = .inWait b → b < prog.length
  kle : given prog s.pc ≤ size prog (batch s.pc)
  sched : ∀ b k, (b, k) ∈ s.pool.scheduled ↔
    (k < size prog b ∧ b < batch s.pc) ∨ (b = batch s.pc ∧ k < given prog s.pc)
  nodup : s.pool.scheduled.Nodup
  past : ∀ t ∈ s.pool.scheduled, t.1 < batch s.pc → t ∈ s.pool.finished
  kind : s.pool.clients.map kindOf =
    List.replicate (match s.pc with | .call b _ => b | .inWait b => b + 1) (.tasks 0)
  idle : ∀ b k, s.pc = .inWait b → s.pool.clients[b]? = some (.returned k) →
    s.pool.queue = [] ∧ ∀ i t, ¬ Runs s.pool i t
  fresh : ∀ k j, job prog (batch s.pc, k) = some j → (batch s.pc, k) ∉ s.pool.started →
    ∀ c, acc (batch s.pc, k) c → s.mem c = M c
  runs : ∀ i k j, Runs s.pool i (batch s.pc, k) → job prog (batch s.pc, k) = some j →
    ∃ l m1, s.loc i = some l ∧ Steps j (cnt (batch s.pc, k)) j.init M l m1 ∧
      ∀ c, acc (batch s.pc, k) c → m1 c = s.mem c
  ended : ∀ k j, job prog (batch s.pc, k) = some j → (batch s.pc, k) ∈ s.pool.finished →
    ∃ m1, Solo j M (cnt (batch s.pc, k)) m1 ∧ ∀ c, acc (batch s.pc, k) c → m1 c = s.mem c
  rest : ∀ c, (∀ k, (job prog (batch s.pc, k)).isSome → ¬ wr (batch s.pc, k) c) → s.mem c = M c
  cnt0 : ∀ t, t ∉ s.pool.started → cnt t = 0

section
variable {push : Push Task} {prog : Prog V L} {acc wr : Task → Nat → Prop} {n made : Nat}
  {m0 M : Nat → V} {cnt : Task → Nat} {s : Sys V L}

/-- A task that is pending or running belongs to the present batch. -/
theorem Inv.present (h : Inv push prog acc wr (create n made) m0 cnt M s) {t : Task}
    (ht : t ∈ s.pool.scheduled) (hf : t ∉ s.pool.finished) :
    t.1 = batch s.pc ∧ (job prog t).isSome := by
  obtain ⟨b, k⟩ := t
  rcases (h.sched b k).1 ht with h1 | h1
  · exact absurd (h.past _ ht h1.2) hf
  · refine ⟨h1.1, ?_⟩
    have := h.kle
    rw [h1.1, job_iff]
    omega

/-- Moves that do not touch tasks or memory. -/
theorem Inv.same (h : Inv push prog acc wr (create n made) m0 cnt M s) {p' : Pool Task}
    (hr : Reach push Calm (create n made) p') (hs : Same s.pool p')
    (hk : p'.clients.map kindOf = s.pool.clients.map kindOf)
    (hi : ∀ b k, s.pc = .inWait b → p'.clients[b]? = some (.returned k) →
      p'.queue = [] ∧ ∀ i t, ¬ Runs p' i t) :
    Inv push prog acc wr (create n made) m0 cnt M { s with pool := p' } := by
  refine ⟨hr, h.seq, h.ble, h.blt, h.kle, ?_, ?_, ?_, ?_, hi, ?_, ?_, ?_, h.rest, ?_⟩
  · intro b k; rw [show ({ s with pool := p' } : Sys V L).pool = p' from rfl, hs.scheduled]; exact h.sched b k
  · show p'.scheduled.Nodup; rw [hs.scheduled]; exact h.nodup
  · intro t ht hb
    show t ∈ p'.finished
    rw [hs.finished]
    exact h.past t (by rw [← hs.scheduled]; exact ht) hb
  · show p'.clients.map kindOf = _; rw [hk]; exact h.kind
  · intro k j hj hns
    exact h.fresh k j hj (by rw [← hs.started]; exact hns)
  · intro i k j hrun hj
    exact h.runs i k j ((hs.runs _ _).1 hrun) hj
  · intro k j hj hf
    exact h.ended k j hj (by rw [← hs.finished]; exact hf)
  · intro t ht
    exact h.cnt0 t (by rw [← hs.started]; exact ht)

/-- The new entry of a client that has returned from `wait()` finds the pool idle. -/
theorem Inv.idle_step {p p' : Pool Task} {a : Act Task} {b : Nat}
    (hr : Reach push Calm (create n made) p') (hs : p.step push a = some p')
    (hold : ∀ k, p.clients[b]? = some (.returned k) → p'.queue = [] ∧ ∀ i t, ¬ Runs p' i t)
    (hkind : ∀ c, p'.clients[b]? = some c → kindOf c = .tasks 0) :
    ∀ k, p'.clients[b]? = some (.returned k) → p'.queue = [] ∧ ∀ i t, ¬ Runs p' i t := by
  intro k hk
  have hk0 : k = .tasks 0 := hkind _ hk
  subst hk0
  rcases returned_step hs hk with h1 | h1
  · exact hold _ h1
  · simp only [Pool.cond, Bool.and_eq_true, decide_eq_true_eq, List.isEmpty_iff] at h1
    have hn := counts_reach (counts_create n made) hr
    have hrun : runningTasks p'.workers = [] := running_nil_of_active (by have := hn.act; omega)
    refine ⟨h1.2, fun i t ht => ?_⟩
    have := mem_running.2 ⟨i, ht⟩
    rw [hrun] at this
    cases this

theorem replicate_kind {cs : List CState} {N b : Nat} (h : cs.map kindOf = List.replicate N (.tasks 0))
    (c : CState) (hc : cs[b]? = some c) : kindOf c = .tasks 0 := by
  have h1 : (cs.map kindOf)[b]? = some (kindOf c) := by rw [List.getElem?_map, hc]; rfl
  rw [h] at h1
  exact List.eq_of_mem_replicate (List.mem_of_getElem? h1)

theorem Inv.started_of_idle (hp : Keeps push) (h : Inv push prog acc wr (create n made) m0 cnt M s)
    (hq : s.pool.queue = []) (hn : ∀ i t, ¬ Runs s.pool i t) {t : Task} (ht : t ∈ s.pool.scheduled) :
    t ∈ s.pool.finished := by
  have F := facts hp h.reach h.nodup
  have h1 := (F.sched t).1 ht
  rw [hq] at h1
  have h2 := h1.resolve_right (by simp)
  exact ((F.start t).1 h2).resolve_right fun ⟨i, hi⟩ => hn i t hi

/-- Worker `i` starts a task. -/
theorem Inv.starts (hp : Keeps push) (h : Inv push prog acc wr (create n made) m0 cnt M s) {p' : Pool Task}
    {i : Nat} {t : Task} (hr : Reach push Calm (create n made) p') (hs : Starts s.pool p' i t)
    (hk : p'.clients.map kindOf = s.pool.clients.map kindOf)
    (hi : ∀ b k, s.pc = .inWait b → p'.clients[b]? = some (.returned k) →
      p'.queue = [] ∧ ∀ i t, ¬ Runs p' i t) :
    Inv push prog acc wr (create n made) m0 cnt M (s.began prog i p') := by
  have F := facts hp h.reach h.nodup
  have htq : t ∈ s.pool.queue := by rw [hs.queue]; simp
  have hts : t ∈ s.pool.scheduled := (F.sched t).2 (Or.inr htq)
  have hnst : t ∉ s.pool.started := F.fresh t htq
  have hnf : t ∉ s.pool.finished := fun hf => hnst ((F.start t).2 (Or.inl hf))
  obtain ⟨hb, hj⟩ := h.present hts hnf
  have hw := hs.runs
  unfold Runs at hw
  have e : s.began prog i p' =
      { s with pool := p', loc := fun i' => if i' = i then (job prog t).map (·.init) else s.loc i' } := by
    unfold Sys.began
    rw [hw]
  rw [e]
  refine ⟨hr, h.seq, h.ble, h.blt, h.kle, ?_, ?_, ?_, ?_, hi, ?_, ?_, ?_, h.rest, ?_⟩
  · intro b k; dsimp only; rw [hs.scheduled]; exact h.sched b k
  · dsimp only; rw [hs.scheduled]; exact h.nodup
  · intro u hu hbu
    dsimp only at hu ⊢
    rw [hs.finished]
    exact h.past u (by rw [← hs.scheduled]; exact hu) hbu
  · dsimp only; rw [hk]; exact h.kind
  · intro k j hj' hns
    dsimp only at hns
    rw [hs.started] at hns
    exact h.fresh k j hj' (fun hc => hns (List.mem_append_left _ hc))
  · intro i' k j hrun hj'
    dsimp only at hrun ⊢
    by_cases ei : i' = i
    · subst ei
      have et : t = (batch s.pc, k) := by
        have := hrun.symm.trans hs.runs
        injection this with this
        injection this with this
        exact this.symm
      subst et
      refine ⟨j.init, M, ?_, ?_, ?_⟩
      · rw [if_pos rfl]
        have hj2 : job prog (batch s.pc, k) = some j := hj'
        rw [hj2]
        rfl
      · rw [show cnt (batch s.pc, k) = 0 from h.cnt0 _ hnst]
        exact .refl
      · intro c hc
        exact (h.fresh k j hj' hnst c hc).symm
    · rw [if_neg ei]
      exact h.runs i' k j ((hs.other i' _ ei).1 hrun) hj'
  · intro k j hj' hf
    dsimp only at hf
    rw [hs.finished] at hf
    exact h.ended k j hj' hf
  · intro u hu
    dsimp only at hu
    rw [hs.started] at hu
    exact h.cnt0 u (fun hc => hu (List.mem_append_left _ hc))

theorem began_same {p' : Pool Task} {i : Nat} (h : ∀ t, ¬ Runs p' i t) :
    s.began prog i p' = { s with pool := p' } := by
  unfold Sys.began
  split
  · rename_i t e
    exact absurd e (h t)
  · rfl

theorem batch_take (prog : Prog V L) {b : Nat} {js : List (Job V L)} (h : prog[b]? = some js) :
    (prog.take (b + 1)).flatten = (prog.take b).flatten ++ js := by
  rw [List.take_add_one, h]
  simp

/-- At the end of a batch the memory is what the jobs, run one after another, make of
it. -/
theorem Inv.close (hp : Keeps push)
    (hW : ∀ t j, job prog t = some j → Within j (acc t) (wr t))
    (hD : ∀ b k k' c, (job prog (b, k)).isSome → (job prog (b, k')).isSome → wr (b, k) c → acc (b, k') c → k = k')
    (h : Inv push prog acc wr (create n made) m0 cnt M s) {b : Nat} {k : CKind} (hpc : s.pc = .inWait b)
    (hc : s.pool.clients[b]? = some (.returned k)) :
    Seq (prog.take (b + 1)).flatten m0 s.mem := by
  have hb := h.blt b hpc
  obtain ⟨hq, hn⟩ := h.idle b k hpc hc
  have ej : prog[b]? = some prog[b] := List.getElem?_eq_getElem hb
  have eb : batch s.pc = b := by rw [hpc]; rfl
  have eg : given prog s.pc = size prog b := by rw [hpc]; rfl
  have hjob : ∀ k, job prog (b, k) = prog[b][k]? := by
    intro k
    unfold job
    rw [ej]
    rfl
  rw [batch_take prog ej]
  have h0 := h.seq
  rw [eb] at h0
  refine seq_append h0 (seq_of_each (acc := fun k => acc (b, k)) (wr := fun k => wr (b, k)) ?_ ?_ ?_ ?_)
  · intro k j hj
    exact hW (b, k) j (by rw [hjob]; exact hj)
  · intro k k' c h1 h2
    refine hD b k k' c ?_ ?_
    · rw [hjob, List.getElem?_eq_getElem h1]; rfl
    · rw [hjob, List.getElem?_eq_getElem h2]; rfl
  · intro k j hj
    have hj' : job prog (b, k) = some j := by rw [hjob]; exact hj
    have hs : (b, k) ∈ s.pool.scheduled := by
      rw [h.sched]
      right
      refine ⟨eb.symm, ?_⟩
      rw [eg, ← job_iff, hj']
      rfl
    have hf := h.started_of_idle hp hq hn hs
    rw [← eb] at hf hj'
    obtain ⟨m1, h1, h2⟩ := h.ended k j hj' hf
    rw [eb] at h2
    exact ⟨_, m1, h1, h2⟩
  · intro c hc
    refine h.rest c fun k hk => ?_
    rw [eb] at hk ⊢
    refine hc k ?_
    rw [hjob, Option.isSome_iff_exists] at hk
    obtain ⟨j, hj⟩ := hk
    by_contra hge
    rw [List.getElem?_eq_none (by omega)] at hj
    cases hj

/-- Every move keeps the invariant; only an access of a job counts, for its task. -/
theorem inv_step (hp : Keeps push)
    (hW : ∀ t j, job prog t = some j → Within j (acc t) (wr t))
    (hD : ∀ b k k' c, (job prog (b, k)).isSome → (job prog (b, k')).isSome → wr (b, k) c → acc (b, k') c → k = k')
    (h : Inv push prog acc wr (create n made) m0 cnt M s) {mv : Move} {s' : Sys V L}
    (hs : s.step push prog mv = some s') :
    ∃ cnt' M', Inv push prog acc wr (create n made) m0 cnt' M' s' ∧
      ((∃ i t, mv = .work i ∧ Runs s'.pool i t ∧ t.1 = batch s'.pc ∧ (job prog t).isSome ∧
          s'.pool = s.pool ∧ s'.pc = s.pc ∧ cnt' = fun u => if u = t then cnt t + 1 else cnt u) ∨
        ((∀ i, mv ≠ .work i) ∧ cnt' = cnt)) := by
  have F := facts hp h.reach h.nodup
  cases mv with
  | schedule who =>
    simp only [Sys.step] at hs
    split at hs
    · rename_i b k hpc
      split at hs
      · rename_i js hjs
        split at hs
        · rename_i hk
          obtain ⟨p', hp', rfl⟩ := Option.map_eq_some_iff.1 hs
          have hr := h.reach.step (a := .schedule (b, k) who) trivial hp'
          obtain ⟨e1, e2, e3, e4, e5, e6⟩ := schedule_effect hp'
          have eb : batch s.pc = b := by rw [hpc]; rfl
          have eg : given prog s.pc = k := by rw [hpc]; rfl
          have ez : size prog b = js.length := by unfold size; rw [hjs]; rfl
          have hnew : (b, k) ∉ s.pool.scheduled := by
            rw [h.sched, eb, eg]
            rintro (h1 | h1) <;> omega
          refine ⟨cnt, M, ?_, Or.inr ⟨by simp, rfl⟩⟩
          have hseq := h.seq
          have hble := h.ble
          have hfresh := h.fresh
          have hruns := h.runs
          have hended := h.ended
          have hrest := h.rest
          have hsched := h.sched
          have hpast := h.past
          have hkind := h.kind
          rw [eb] at hseq hble hfresh hruns hended hrest hsched hpast
          rw [eg] at hsched
          rw [hpc] at hkind
          refine ⟨hr, hseq, hble, ?_, ?_, ?_, ?_, ?_, ?_, ?_, ?_, ?_, ?_, hrest, ?_⟩
          · intro b' hb'; cases hb'
          · show k + 1 ≤ size prog b; omega
          · intro b' k'
            show (b', k') ∈ p'.scheduled ↔ (k' < size prog b' ∧ b' < b) ∨ (b' = b ∧ k' < k + 1)
            rw [e1, List.mem_append, hsched, List.mem_singleton, Prod.mk.injEq]
            constructor
            · rintro ((h1 | h1) | ⟨h1, h2⟩)
              · exact Or.inl h1
              · exact Or.inr ⟨h1.1, by omega⟩
              · exact Or.inr ⟨h1, by omega⟩
            · rintro (h1 | ⟨h1, h2⟩)
              · exact Or.inl (Or.inl h1)
              · by_cases e : k' = k
                · exact Or.inr ⟨h1, e⟩
                · exact Or.inl (Or.inr ⟨h1, by omega⟩)
          · show p'.scheduled.Nodup
            rw [e1, List.nodup_append]
            refine ⟨h.nodup, by simp, ?_⟩
            intro x hx y hy
            rw [List.mem_singleton] at hy
            subst hy
            rintro rfl
            exact hnew hx
          · intro t ht hb
            show t ∈ p'.finished
            change t ∈ p'.scheduled at ht
            change t.1 < b at hb
            rw [e3]
            rw [e1, List.mem_append, List.mem_singleton] at ht
            rcases ht with ht | rfl
            · exact hpast t ht hb
            · exact absurd hb (Nat.lt_irrefl _)
          · show p'.clients.map kindOf = _; rw [e5]; exact hkind
          · intro b' k' hb'; cases hb'
          · intro k' j hj hns
            exact hfresh k' j hj (by rw [← e2]; exact hns)
          · intro i k' j hrun hj
            exact hruns i k' j ((e6 _ _).1 hrun) hj
          · intro k' j hj hf
            exact hended k' j hj (by rw [← e3]; exact hf)
          · intro t ht
            exact h.cnt0 t (by rw [← e2]; exact ht)
        · cases hs
      · cases hs
    · cases hs
  | wait =>
    simp only [Sys.step] at hs
    split at hs
    · rename_i b k hpc
      split at hs
      · rename_i js hjs
        split at hs
        · cases hs
        · rename_i hk
          obtain ⟨p', hp', rfl⟩ := Option.map_eq_some_iff.1 hs
          have hr := h.reach.step (a := .wait (.tasks 0)) trivial hp'
          obtain ⟨e1, e2, c, e3, e4⟩ := wait_effect hp'
          have eb : batch s.pc = b := by rw [hpc]; rfl
          have eg : given prog s.pc = k := by rw [hpc]; rfl
          have ez : size prog b = js.length := by unfold size; rw [hjs]; rfl
          have hkl := h.kle
          have ek : k = size prog b := by rw [eb, eg] at hkl; omega
          refine ⟨cnt, M, ?_, Or.inr ⟨by simp, rfl⟩⟩
          have hseq := h.seq
          have hble := h.ble
          have hfresh := h.fresh
          have hruns := h.runs
          have hended := h.ended
          have hrest := h.rest
          have hsched := h.sched
          have hpast := h.past
          have hkind := h.kind
          rw [eb] at hseq hble hfresh hruns hended hrest hsched hpast
          rw [eg, ek] at hsched
          rw [hpc] at hkind
          have hkind' : p'.clients.map kindOf = List.replicate (b + 1) (.tasks 0) := by
            rw [e3, List.map_append, hkind, List.replicate_succ']
            rcases e4 with rfl | rfl <;> rfl
          have hlen : s.pool.clients.length = b := by
            have := congrArg List.length hkind
            simpa using this
          refine ⟨hr, hseq, hble, ?_, ?_, ?_, ?_, ?_, hkind', ?_, ?_, ?_, ?_, hrest, ?_⟩
          · intro b' hb'
            injection hb' with hb'
            subst hb'
            by_contra hge
            rw [List.getElem?_eq_none (by omega)] at hjs
            cases hjs
          · exact Nat.le_refl _
          · intro b' k'
            show (b', k') ∈ p'.scheduled ↔ _
            rw [e1.scheduled]
            exact hsched b' k'
          · show p'.scheduled.Nodup; rw [e1.scheduled]; exact h.nodup
          · intro t ht hb
            show t ∈ p'.finished
            rw [e1.finished]
            exact hpast t (by rw [← e1.scheduled]; exact ht) hb
          · intro b' k' hb'
            injection hb' with hb'
            subst hb'
            refine Inv.idle_step hr hp' ?_ (fun c hc => replicate_kind hkind' c hc) k'
            intro k1 hk1
            rw [List.getElem?_eq_none (by omega)] at hk1
            cases hk1
          · intro k' j hj hns
            exact hfresh k' j hj (by rw [← e1.started]; exact hns)
          · intro i k' j hrun hj
            exact hruns i k' j ((e1.runs _ _).1 hrun) hj
          · intro k' j hj hf
            exact hended k' j hj (by rw [← e1.finished]; exact hf)
          · intro t ht
            exact h.cnt0 t (by rw [← e1.started]; exact ht)
      · cases hs
    · cases hs
  | clientResume =>
    simp only [Sys.step] at hs
    split at hs
    · rename_i b hpc
      obtain ⟨p', hp', rfl⟩ := Option.map_eq_some_iff.1 hs
      have hr := h.reach.step (a := .clientResume b) trivial hp'
      obtain ⟨e1, e2, e3, _⟩ := clientResume_effect hp'
      refine ⟨cnt, M, h.same hr e1 e3 ?_, Or.inr ⟨by simp, rfl⟩⟩
      intro b' k' hb'
      refine Inv.idle_step hr hp' ?_ (fun c hc => replicate_kind (e3.trans h.kind) c hc) k'
      intro k1 hk1
      obtain ⟨i1, i2⟩ := h.idle b' k1 hb' hk1
      exact ⟨e2.trans i1, fun i t ht => i2 i t ((e1.runs i t).1 ht)⟩
    · cases hs
  | clientSpurious =>
    simp only [Sys.step] at hs
    split at hs
    · rename_i b hpc
      obtain ⟨p', hp', rfl⟩ := Option.map_eq_some_iff.1 hs
      have hr := h.reach.step (a := .clientSpurious b) trivial hp'
      obtain ⟨e1, e2, e3, _⟩ := clientSpurious_effect hp'
      refine ⟨cnt, M, h.same hr e1 e3 ?_, Or.inr ⟨by simp, rfl⟩⟩
      intro b' k' hb'
      refine Inv.idle_step hr hp' ?_ (fun c hc => replicate_kind (e3.trans h.kind) c hc) k'
      intro k1 hk1
      obtain ⟨i1, i2⟩ := h.idle b' k1 hb' hk1
      exact ⟨e2.trans i1, fun i t ht => i2 i t ((e1.runs i t).1 ht)⟩
    · cases hs
  | ret =>
    simp only [Sys.step] at hs
    split at hs
    · rename_i b hpc
      split at hs
      · rename_i k hc
        injection hs with hs
        subst hs
        have hb := h.blt b hpc
        have eb : batch s.pc = b := by rw [hpc]; rfl
        have eg : given prog s.pc = size prog b := by rw [hpc]; rfl
        have hsched := h.sched
        rw [eb, eg] at hsched
        obtain ⟨hq, hn⟩ := h.idle b k hpc hc
        refine ⟨cnt, s.mem, ?_, Or.inr ⟨by simp, rfl⟩⟩
        refine ⟨h.reach, h.close hp hW hD hpc hc, hb, ?_, Nat.zero_le _, ?_, h.nodup, ?_, ?_, ?_, ?_, ?_, ?_, ?_, h.cnt0⟩
        · intro b' hb'; cases hb'
        · intro b' k'
          show (b', k') ∈ s.pool.scheduled ↔ (k' < size prog b' ∧ b' < b + 1) ∨ (b' = b + 1 ∧ k' < 0)
          rw [hsched]
          constructor
          · rintro (⟨h1, h2⟩ | ⟨h1, h2⟩)
            · exact Or.inl ⟨h1, by omega⟩
            · subst h1; exact Or.inl ⟨h2, by omega⟩
          · rintro (⟨h1, h2⟩ | ⟨_, h2⟩)
            · by_cases e : b' = b
              · subst e; exact Or.inr ⟨rfl, h1⟩
              · exact Or.inl ⟨h1, by omega⟩
            · omega
        · intro t ht _
          exact h.started_of_idle hp hq hn ht
        · have := h.kind
          rw [hpc] at this
          exact this
        · intro b' k' hb'; cases hb'
        · intro _ _ _ _ _ _; rfl
        · intro i k' j hrun _
          exact absurd hrun (hn i _)
        · intro k' j hj hf
          exfalso
          have hs1 : (b + 1, k') ∈ s.pool.scheduled := (F.sched _).2 (Or.inl ((F.start _).2 (Or.inl hf)))
          rcases (hsched (b + 1) k').1 hs1 with h1 | h1 <;> omega
        · intro _ _; rfl
      · cases hs
    · cases hs
  | fetch i =>
    simp only [Sys.step] at hs
    obtain ⟨p', hp', rfl⟩ := Option.map_eq_some_iff.1 hs
    have hr := h.reach.step (a := .fetch i) trivial hp'
    obtain ⟨e3, e⟩ := fetch_effect hp'
    have hidle : ∀ b k, s.pc = .inWait b → p'.clients[b]? = some (.returned k) →
        p'.queue = [] ∧ ∀ i t, ¬ Runs p' i t := by
      intro b' k' hb'
      refine Inv.idle_step hr hp' ?_ (fun c hc => replicate_kind (e3.trans h.kind) c hc) k'
      intro k1 hk1
      obtain ⟨i1, i2⟩ := h.idle b' k1 hb' hk1
      rcases e with ⟨e1, e2, _⟩ | ⟨t, e1⟩
      · exact ⟨e2.trans i1, fun i t ht => i2 i t ((e1.runs i t).1 ht)⟩
      · have := e1.queue
        rw [i1] at this
        cases this
    refine ⟨cnt, M, ?_, Or.inr ⟨by simp, rfl⟩⟩
    rcases e with ⟨e1, e2, e4⟩ | ⟨t, e1⟩
    · rw [began_same e4]
      exact h.same hr e1 e3 hidle
    · exact h.starts hp hr e1 e3 hidle
  | resume i =>
    simp only [Sys.step] at hs
    obtain ⟨p', hp', rfl⟩ := Option.map_eq_some_iff.1 hs
    have hr := h.reach.step (a := .resume i) trivial hp'
    obtain ⟨e3, e⟩ := resume_effect hp'
    have hidle : ∀ b k, s.pc = .inWait b → p'.clients[b]? = some (.returned k) →
        p'.queue = [] ∧ ∀ i t, ¬ Runs p' i t := by
      intro b' k' hb'
      refine Inv.idle_step hr hp' ?_ (fun c hc => replicate_kind (e3.trans h.kind) c hc) k'
      intro k1 hk1
      obtain ⟨i1, i2⟩ := h.idle b' k1 hb' hk1
      rcases e with ⟨e1, e2, _⟩ | ⟨t, e1⟩
      · exact ⟨e2.trans i1, fun i t ht => i2 i t ((e1.runs i t).1 ht)⟩
      · have := e1.queue
        rw [i1] at this
        cases this
    refine ⟨cnt, M, ?_, Or.inr ⟨by simp, rfl⟩⟩
    rcases e with ⟨e1, e2, e4⟩ | ⟨t, e1⟩
    · rw [began_same e4]
      exact h.same hr e1 e3 hidle
    · exact h.starts hp hr e1 e3 hidle
  | spurious i =>
    simp only [Sys.step] at hs
    obtain ⟨p', hp', rfl⟩ := Option.map_eq_some_iff.1 hs
    have hr := h.reach.step (a := .spurious i) trivial hp'
    obtain ⟨e1, e2, e3, _⟩ := spurious_effect hp'
    refine ⟨cnt, M, h.same hr e1 (by rw [e3]) ?_, Or.inr ⟨by simp, rfl⟩⟩
    intro b' k' hb' hk'
    rw [e3] at hk'
    obtain ⟨i1, i2⟩ := h.idle b' k' hb' hk'
    exact ⟨e2.trans i1, fun i t ht => i2 i t ((e1.runs i t).1 ht)⟩
  | exit i =>
    simp only [Sys.step] at hs
    obtain ⟨p', hp', rfl⟩ := Option.map_eq_some_iff.1 hs
    have hr := h.reach.step (a := .exit i) trivial hp'
    obtain ⟨e1, e2, e3⟩ := exit_effect hp'
    refine ⟨cnt, M, h.same hr e1 e3 ?_, Or.inr ⟨by simp, rfl⟩⟩
    intro b' k' hb'
    refine Inv.idle_step hr hp' ?_ (fun c hc => replicate_kind (e3.trans h.kind) c hc) k'
    intro k1 hk1
    obtain ⟨i1, i2⟩ := h.idle b' k1 hb' hk1
    exact ⟨e2.trans i1, fun i t ht => i2 i t ((e1.runs i t).1 ht)⟩
  | finish i =>
    simp only [Sys.step] at hs
    split at hs
    · rename_i t hrun
      split at hs
      · rename_i j l hj hl
        split at hs
        · rename_i hret
          obtain ⟨p', hp', rfl⟩ := Option.map_eq_some_iff.1 hs
          have hr := h.reach.step (a := .finish i) trivial hp'
          obtain ⟨e1, e2, e3, e4, e5, e6⟩ := finish_effect hrun hp'
          refine ⟨cnt, M, ?_, Or.inr ⟨by simp, rfl⟩⟩
          refine ⟨hr, h.seq, h.ble, h.blt, h.kle, ?_, ?_, ?_, ?_, ?_, ?_, ?_, ?_, h.rest, ?_⟩
          · intro b' k'; dsimp only; rw [e1]; exact h.sched b' k'
          · dsimp only; rw [e1]; exact h.nodup
          · intro u hu hb
            dsimp only at hu ⊢
            rw [e3]
            rw [e1] at hu
            exact List.mem_append_left _ (h.past u hu hb)
          · dsimp only; rw [e5]; exact h.kind
          · intro b' k' hb' hk'
            dsimp only at hk'
            rw [e5] at hk'
            exact absurd hrun ((h.idle b' k' hb' hk').2 i t)
          · intro k' j' hj' hns
            exact h.fresh k' j' hj' (by rw [← e2]; exact hns)
          · intro i' k' j' hrun' hj'
            exact h.runs i' k' j' ((e6 _ _).1 hrun').2 hj'
          · intro k' j' hj' hf
            dsimp only at hf
            rw [e3, List.mem_append, List.mem_singleton] at hf
            rcases hf with hf | rfl
            · exact h.ended k' j' hj' hf
            · obtain ⟨l1, m1, h1, h2, h3⟩ := h.runs i k' j' hrun hj'
              have el : l1 = l := by rw [hl] at h1; exact (Option.some.inj h1).symm
              have ejj : j' = j := by
                have := hj'.symm.trans hj
                exact Option.some.inj this
              subst el ejj
              exact ⟨m1, ⟨_, h2, hret⟩, h3⟩
          · intro u hu
            exact h.cnt0 u (by rw [← e2]; exact hu)
        · cases hs
      · cases hs
    · cases hs
  | work i =>
    simp only [Sys.step] at hs
    split at hs
    · rename_i t hrun
      split at hs
      · rename_i j l hj hl
        obtain ⟨r, hr, rfl⟩ := Option.map_eq_some_iff.1 hs
        have hts : t ∈ s.pool.scheduled := (F.sched t).2 (Or.inl ((F.start t).2 (Or.inr ⟨i, hrun⟩)))
        have hnf : t ∉ s.pool.finished := F.over t i hrun
        have htst : t ∈ s.pool.started := (F.start t).2 (Or.inr ⟨i, hrun⟩)
        obtain ⟨hb, hjs⟩ := h.present hts hnf
        obtain ⟨b, k⟩ := t
        change b = batch s.pc at hb
        subst hb
        have hw := hW _ _ hj
        obtain ⟨l1, m1, g1, g2, g3⟩ := h.runs i k j hrun hj
        have el : l1 = l := by rw [hl] at g1; exact (Option.some.inj g1).symm
        subst el
        -- the access alone
        have key : ∃ m1', Steps j (cnt (batch s.pc, k) + 1) j.init M r.1 m1' ∧
            (∀ c, acc (batch s.pc, k) c → m1' c = r.2 c) ∧ ∀ c, ¬ wr (batch s.pc, k) c → r.2 c = s.mem c := by
          unfold Job.next at hr
          cases hc : j.code l1 with
          | read c kk =>
            rw [hc] at hr
            injection hr with hr
            subst hr
            refine ⟨m1, ?_, g3, fun _ _ => rfl⟩
            have := Steps.read g2 hc
            rw [g3 c (within_read hw hc)] at this
            exact this
          | write c v l2 =>
            rw [hc] at hr
            injection hr with hr
            subst hr
            refine ⟨_, .write g2 hc, ?_, ?_⟩
            · intro d hd
              dsimp only [upd]
              split
              · rfl
              · exact g3 d hd
            · intro d hd
              dsimp only [upd]
              rw [if_neg]
              rintro rfl
              exact hd (within_write hw hc)
          | ret => rw [hc] at hr; cases hr
        obtain ⟨m1', k1, k2, k3⟩ := key
        have other : ∀ k', (job prog (batch s.pc, k')).isSome → k' ≠ k →
            ∀ c, acc (batch s.pc, k') c → r.2 c = s.mem c := by
          intro k' hk' hne c hc
          refine k3 c fun hwc => hne ?_
          exact (hD _ k k' c hjs hk' hwc hc).symm
        refine ⟨fun u => if u = (batch s.pc, k) then cnt (batch s.pc, k) + 1 else cnt u, M, ?_,
          Or.inl ⟨i, (batch s.pc, k), rfl, hrun, rfl, hjs, rfl, rfl, rfl⟩⟩
        refine ⟨h.reach, h.seq, h.ble, h.blt, h.kle, h.sched, h.nodup, h.past, h.kind, h.idle, ?_, ?_, ?_, ?_, ?_⟩
        · intro k' j' hj' hns c hc
          dsimp only at hj' hns hc ⊢
          have hne : k' ≠ k := by rintro rfl; exact hns htst
          rw [other k' (by rw [hj']; rfl) hne c hc]
          exact h.fresh k' j' hj' hns c hc
        · intro i' k' j' hrun' hj'
          dsimp only at hrun' hj' ⊢
          by_cases hkk : k' = k
          · subst hkk
            have ei := F.one _ _ _ hrun' hrun
            subst ei
            have ejj : j' = j := Option.some.inj (hj'.symm.trans hj)
            subst ejj
            refine ⟨r.1, m1', by rw [if_pos rfl], ?_, k2⟩
            rw [if_pos rfl]
            exact k1
          · have hi : i' ≠ i := by
              rintro rfl
              have := hrun'.symm.trans hrun
              injection this with this
              injection this with this
              injection this with _ this
              exact hkk this
            obtain ⟨l2, m2, q1, q2, q3⟩ := h.runs i' k' j' hrun' hj'
            refine ⟨l2, m2, by rw [if_neg hi]; exact q1, ?_, fun c hc => ?_⟩
            · rw [if_neg (fun e => hkk (Prod.mk.inj e).2)]
              exact q2
            · rw [other k' (by rw [hj']; rfl) hkk c hc]
              exact q3 c hc
        · intro k' j' hj' hf
          dsimp only at hj' hf ⊢
          have hkk : k' ≠ k := by rintro rfl; exact hnf hf
          obtain ⟨m2, q1, q2⟩ := h.ended k' j' hj' hf
          refine ⟨m2, ?_, fun c hc => ?_⟩
          · rw [if_neg (fun e => hkk (Prod.mk.inj e).2)]
            exact q1
          · rw [other k' (by rw [hj']; rfl) hkk c hc]
            exact q2 c hc
        · intro c hc
          dsimp only at hc ⊢
          rw [k3 c (hc k hjs)]
          exact h.rest c hc
        · intro u hu
          dsimp only at hu ⊢
          rw [if_neg (fun e => hu (by rw [e]; exact htst))]
          exact h.cnt0 u hu
      · cases hs
    · cases hs

theorem inv_start (push : Push Task) (prog : Prog V L) (acc wr : Task → Nat → Prop) (n made : Nat) (m0 : Nat → V) :
    Inv push prog acc wr (create n made) m0 (fun _ => 0) m0 (Sys.start (create n made) m0) := by
  obtain ⟨e1, e2, e3, e4, e5, e6, e7⟩ := create_empty (T := Task) n made
  have hnr : ∀ i t, ¬ Runs (create n made : Pool Task) i t := by
    intro i t ht
    have p := (C34_exactly_once (P := fun _ _ => True) (push := fifoPush) (fun _ _ => List.perm_append_comm)
      (Reach.init (s0 := (create n made : Pool Task)))).2
    have := p.mem_iff.2 (List.mem_append_right _ (mem_running.2 ⟨i, ht⟩))
    rw [e3] at this
    cases this
  refine ⟨.init, .nil, Nat.zero_le _, ?_, Nat.zero_le _, ?_, ?_, ?_, ?_, ?_, ?_, ?_, ?_, ?_, ?_⟩
  · intro b hb; cases hb
  · intro b k
    show (b, k) ∈ (create n made : Pool Task).scheduled ↔ (k < size prog b ∧ b < 0) ∨ (b = 0 ∧ k < 0)
    rw [e2]
    constructor
    · intro h; cases h
    · rintro (h | h) <;> omega
  · show (create n made : Pool Task).scheduled.Nodup; rw [e2]; exact List.nodup_nil
  · intro t ht
    change t ∈ (create n made : Pool Task).scheduled at ht
    rw [e2] at ht
    cases ht
  · show (create n made : Pool Task).clients.map kindOf = _; rw [e7]; rfl
  · intro b k hb; cases hb
  · intro _ _ _ _ _ _; rfl
  · intro i k j hr; exact absurd hr (hnr i _)
  · intro k j _ hf
    change _ ∈ (create n made : Pool Task).finished at hf
    rw [e4] at hf
    cases hf
  · intro _ _; rfl
  · intro _ _; rfl

end

end SpatialOps.Fork
