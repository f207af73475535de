import Verif.First.Spec
import Verif.Sync.Props

/-!
# Lemmas for the first use of the library's pools
-/

namespace SpatialOps.First

open Threads (Pool Push Act)
open Sync (Mgr upd Steps Any upd_same upd_other)

variable {T : Type}

/-! ## The registry as if every pool were registered when it is made -/

/-- Every pool that is there is registered, with `NTHREADS` if it was not. -/
def full (nt : Nat) (m : Mgr T) : Mgr T :=
  { m with reg := fun id => match m.reg id with
    | some r => some r
    | none => if (m.pools id).isSome then some (max 1 (nt : Int)) else none }

theorem clamp (n : Int) : (if n < 1 then 1 else n) = max 1 n := by split <;> omega

theorem full_make (nt : Nat) {m : Mgr T} {id : Nat} (made : Nat) (h1 : m.pools id = none) (h2 : m.reg id = none) :
    full nt { m with pools := upd m.pools id (some (Pool.create nt made)) } = (full nt m).self id nt made := by
  have h3 : (full nt m).pools id = none := h1
  have h4 : (full nt m).reg id = none := by simp [full, h1, h2]
  simp only [Mgr.self, h3, Mgr.insert, h4, clamp]
  simp only [full, Mgr.mk.injEq, and_true]
  funext j
  by_cases e : j = id
  · subst e; simp [upd, h2]
  · simp [upd, e]

theorem full_insert (nt : Nat) {m : Mgr T} {id : Nat} (h : m.pools id ≠ none) : full nt (m.insert id nt).2 = full nt m := by
  unfold Mgr.insert
  cases hr : m.reg id with
  | some r => rfl
  | none =>
    simp only [full, Mgr.mk.injEq, and_true, clamp]
    funext j
    by_cases e : j = id
    · subst e
      have : (m.pools j).isSome := Option.isSome_iff_ne_none.2 h
      simp [upd, hr, this]
    · simp [upd, e]

theorem pool_step {push : Push T} {m m' : Mgr T} {id : Nat} {a : Act T} (h : m.step push (.pool id a) = some m') :
    m'.reg = m.reg ∧ (∀ j, m'.pools j = none ↔ m.pools j = none) ∧
    ∀ g, ({ m with reg := g } : Mgr T).step push (.pool id a) = some { m' with reg := g } := by
  simp only [Mgr.step] at h ⊢
  cases hp : m.pools id with
  | none => rw [hp] at h; cases h
  | some p =>
    rw [hp] at h
    dsimp only at h
    cases hs : p.step push a with
    | none => rw [hs] at h; cases h
    | some p' =>
      rw [hs] at h
      injection h with h
      subst h
      refine ⟨rfl, fun j => ?_, fun g => ?_⟩
      · by_cases e : j = id
        · subst e; simp [upd, hp]
        · simp [upd, e]
      · simp [hs]

theorem full_pool (nt : Nat) {push : Push T} {m m' : Mgr T} {id : Nat} {a : Act T}
    (h : m.step push (.pool id a) = some m') : (full nt m).step push (.pool id a) = some (full nt m') := by
  obtain ⟨h1, h2, h3⟩ := pool_step h
  have e : ({ m' with reg := (full nt m).reg } : Mgr T) = full nt m' := by
    simp only [full, Mgr.mk.injEq, and_true, h1]
    funext j
    have : (m.pools j).isSome = (m'.pools j).isSome := by
      rw [Bool.eq_iff_iff, Option.isSome_iff_ne_none, Option.isSome_iff_ne_none, Ne, Ne, h2]
    simp [this]
  rw [← e]
  exact h3 _

theorem onPool_pools (m : Mgr T) (id : Nat) (f : Pool T → Pool T) (j : Nat) :
    ((m.onPool id f).pools j = none ↔ m.pools j = none) := by
  by_cases e : j = id
  · subst e; simp [Mgr.onPool, upd]
  · simp [Mgr.onPool, upd, e]

theorem run_pools (c : Call) (m : Mgr T) (made j : Nat) : ((c.run m made).2.pools j = none ↔ m.pools j = none) := by
  cases c with
  | resizePool id n =>
    simp only [Call.run, Mgr.resizeActive]
    split
    · rfl
    · exact onPool_pools _ _ _ _
  | poolSize id => rfl
  | setCapacity id n =>
    simp only [Call.run, Mgr.resize]
    split
    · rfl
    · split
      · rfl
      · exact onPool_pools { m with reg := _ } _ _ _
  | capacity id => rfl

theorem run_reg (c : Call) (m : Mgr T) (made j : Nat) : ((c.run m made).2.reg j = none ↔ m.reg j = none) := by
  cases c with
  | resizePool id n =>
    simp only [Call.run, Mgr.resizeActive]
    split
    · rfl
    · rfl
  | poolSize id => rfl
  | setCapacity id n =>
    simp only [Call.run, Mgr.resize]
    split
    · rfl
    · rename_i r hr
      split
      · rfl
      · by_cases e : j = id
        · subst e; simp [Mgr.onPool, upd, hr]
        · simp [Mgr.onPool, upd, e]
  | capacity id => rfl

theorem full_run (nt : Nat) {c : Call} {m : Mgr T} (made : Nat) (h : m.reg c.pool ≠ none) :
    c.run (full nt m) made = ((c.run m made).1, full nt (c.run m made).2) := by
  obtain ⟨r, hr⟩ := Option.ne_none_iff_exists'.1 h
  have hf : (full nt m).reg c.pool = some r := by simp [full, hr]
  cases c with
  | resizePool id n =>
    simp only [Call.pool] at hr hf
    simp only [Call.run, Mgr.resizeActive, hr, hf]
    simp only [full, Mgr.onPool, Prod.mk.injEq, Mgr.mk.injEq, and_true, true_and]
    funext j
    by_cases e : j = id
    · subst e; simp [hr]
    · simp [upd, e]
  | poolSize id =>
    simp only [Call.pool] at hr hf
    simp only [Call.run, Mgr.maxActive, hr, hf]
    rfl
  | setCapacity id n =>
    simp only [Call.pool] at hr hf
    simp only [Call.run, Mgr.resize, hr, hf]
    split
    · rfl
    · simp only [full, Mgr.onPool, Prod.mk.injEq, Mgr.mk.injEq, and_true, true_and]
      funext j
      by_cases e : j = id
      · subst e; simp [upd]
      · simp [upd, e]
  | capacity id =>
    simp only [Call.pool] at hr hf
    simp only [Call.run, Mgr.workerCount, hr, hf]
    rfl

theorem insert_pools (m : Mgr T) (id : Nat) (n : Int) : (m.insert id n).2.pools = m.pools := by
  unfold Mgr.insert; dsimp only; split <;> rfl

theorem insert_reg (m : Mgr T) (id : Nat) (n : Int) (j : Nat) :
    ((m.insert id n).2.reg j = none ↔ j ≠ id ∧ m.reg j = none) := by
  unfold Mgr.insert
  dsimp only
  split
  · rename_i h
    by_cases e : j = id
    · subst e; simp [upd]
    · simp [upd, e]
  · rename_i r h
    by_cases e : j = id
    · subst e; simp [h]
    · simp [e]

theorem insert_result (m : Mgr T) (id : Nat) (n : Int) : ((m.insert id n).1 = true ↔ m.reg id = none) := by
  unfold Mgr.insert
  dsimp only
  split <;> simp_all

/-! ## Invariants -/

theorem goto_get {s : St T} {i : Nat} (pc : Pc) (todo : List Call) (hi : i < s.threads.length) (j : Nat) :
    (s.goto i pc todo).threads[j]? = if j = i then some ⟨pc, todo⟩ else s.threads[j]? := by
  simp only [St.goto, List.getElem?_set]
  by_cases e : i = j
  · subst e; simp [hi]
  · simp [e, Ne.symm e]

/-- Where the threads are and what is there. -/
structure Inv (s : St T) : Prop where
  guardDone : ∀ id, s.guard id = .done ↔ s.mgr.pools id ≠ none
  guardBusy : ∀ id (i : Nat), s.guard id = .busy i → ∃ (c : Call) (r : List Call), s.threads[i]? = some ⟨.making, c :: r⟩ ∧ c.pool = id
  making : ∀ (i : Nat) (c : Call) (r : List Call), s.threads[i]? = some ⟨.making, c :: r⟩ → s.guard c.pool = .busy i
  regPools : ∀ id, s.mgr.reg id ≠ none → s.mgr.pools id ≠ none
  pools : ∀ (i : Nat) (pc : Pc) (c : Call) (r : List Call), s.threads[i]? = some ⟨pc, c :: r⟩ → pc ≠ .start → pc ≠ .making → s.mgr.pools c.pool ≠ none
  reg : ∀ (i : Nat) (pc : Pc) (c : Call) (r : List Call), s.threads[i]? = some ⟨pc, c :: r⟩ → pc = .mark ∨ pc = .call ∨ pc = .body → s.mgr.reg c.pool ≠ none
  init : ∀ id, s.init id = true → s.mgr.reg id ≠ none
  lock : ∀ i, s.lock = some i → ∃ (pc : Pc) (c : Call) (r : List Call), s.threads[i]? = some ⟨pc, c :: r⟩ ∧ (pc = .inserting ∨ pc = .body)
  locked : ∀ (i : Nat) (pc : Pc) (c : Call) (r : List Call), s.threads[i]? = some ⟨pc, c :: r⟩ → pc = .inserting ∨ pc = .body → s.lock = some i
  idle : ∀ (i : Nat) (pc : Pc), s.threads[i]? = some ⟨pc, []⟩ → pc = .start

theorem inv_start (progs : List (List Call)) : Inv (St.start (T := T) progs) := by
  have h : ∀ {i : Nat} {t : Thr}, (St.start (T := T) progs).threads[i]? = some t → t.pc = .start := by
    intro i t h
    simp only [St.start, List.getElem?_map, Option.map_eq_some_iff] at h
    obtain ⟨_, _, rfl⟩ := h
    rfl
  constructor
  · intro id; simp [St.start, Mgr.empty]
  · intro id i h; simp [St.start] at h
  · intro i c r hh; cases h hh
  · intro id hh; simp [St.start, Mgr.empty] at hh
  · intro i pc c r hh h1; exact absurd (h hh) h1
  · intro i pc c r hh h1; have := h hh; simp_all
  · intro id hh; simp [St.start] at hh
  · intro i hh; simp [St.start] at hh
  · intro i pc c r hh h1; have := h hh; simp_all
  · intro i pc hh; exact h hh

theorem inv_world {push : Push T} {nt : Nat} {s s' : St T} {id : Nat} {a : Act T} (h : Inv s)
    (hs : s.step push nt (.world id a) = some s') : Inv s' := by
  simp only [St.step] at hs
  cases hm : s.mgr.step push (.pool id a) with
  | none => rw [hm] at hs; cases hs
  | some m =>
    rw [hm] at hs
    injection hs with hs
    subst hs
    obtain ⟨h1, h2, -⟩ := pool_step hm
    constructor
    · intro j; dsimp only; rw [h.guardDone j, Ne, Ne, h2]
    · exact h.guardBusy
    · exact h.making
    · intro j; dsimp only; rw [h1, Ne, Ne, h2]; exact h.regPools j
    · intro i pc c r; dsimp only; rw [Ne, Ne, Ne, h2]; exact h.pools i pc c r
    · intro i pc c r; dsimp only; rw [h1]; exact h.reg i pc c r
    · intro j; dsimp only; rw [h1]; exact h.init j
    · exact h.lock
    · exact h.locked
    · exact h.idle

theorem inv_thread {nt : Nat} {s s' : St T} {i made : Nat} {c : Call} {r : List Call} {pc : Pc} (h : Inv s)
    (hi : s.threads[i]? = some ⟨pc, c :: r⟩) (hs : s.advance nt i made c r pc = some s') : Inv s' := by
  have hl : i < s.threads.length := (List.getElem?_eq_some_iff.1 hi).1
  obtain ⟨g1, g2, g3, g4, g5, g6, g7, g8, g9, g10⟩ := h
  cases pc with
  | start =>
    simp only [St.advance] at hs
    cases hg : s.guard c.pool with
    | busy j => rw [hg] at hs; cases hs
    | done =>
      rw [hg] at hs
      injection hs with hs
      subst hs
      have gg := goto_get (s := s) .test (c :: r) hl
      constructor <;> (try simp only [gg]) <;> (try simp only [St.goto]) <;> grind
    | untouched =>
      rw [hg] at hs
      injection hs with hs
      subst hs
      have gg := goto_get (s := { s with guard := upd s.guard c.pool (.busy i) }) .making (c :: r) hl
      constructor <;> (try simp only [gg]) <;> (try simp only [St.goto, upd]) <;> grind
  | making =>
    injection hs with hs
    subst hs
    have gg := goto_get (s := { s with
      mgr := { s.mgr with pools := upd s.mgr.pools c.pool (some (Pool.create nt made)) }
      guard := upd s.guard c.pool .done }) .test (c :: r) hl
    constructor <;> (try simp only [gg]) <;> (try simp only [St.goto, upd]) <;> grind
  | test =>
    injection hs with hs
    subst hs
    have gg := goto_get (s := s) (if s.init c.pool = false then .insert else .call) (c :: r) hl
    constructor <;> (try simp only [gg]) <;> (try simp only [St.goto]) <;> grind
  | insert =>
    simp only [St.advance] at hs
    split at hs
    · rename_i hk
      injection hs with hs
      subst hs
      have gg := goto_get (s := { s with lock := some i }) .inserting (c :: r) hl
      constructor <;> (try simp only [gg]) <;> (try simp only [St.goto]) <;> grind
    · cases hs
  | inserting =>
    injection hs with hs
    subst hs
    have gg := goto_get (s := { s with
      mgr := (s.mgr.insert c.pool nt).2
      lock := none
      inserts := s.inserts ++ [(i, c.pool, (s.mgr.insert c.pool nt).1)] }) .mark (c :: r) hl
    have k1 := insert_pools s.mgr c.pool nt
    have k2 := insert_reg s.mgr c.pool nt
    constructor <;> (try simp only [gg]) <;> (try simp only [St.goto]) <;> grind
  | mark =>
    injection hs with hs
    subst hs
    have gg := goto_get (s := { s with init := upd s.init c.pool true }) .call (c :: r) hl
    constructor <;> (try simp only [gg]) <;> (try simp only [St.goto, upd]) <;> grind
  | call =>
    simp only [St.advance] at hs
    split at hs
    · rename_i hk
      injection hs with hs
      subst hs
      have gg := goto_get (s := { s with lock := some i }) .body (c :: r) hl
      constructor <;> (try simp only [gg]) <;> (try simp only [St.goto]) <;> grind
    · cases hs
  | body =>
    injection hs with hs
    subst hs
    have gg := goto_get (s := { s with
      mgr := (c.run s.mgr made).2
      lock := none
      log := s.log ++ [(i, c, (c.run s.mgr made).1)] }) .start r hl
    have k1 := run_pools c s.mgr made
    have k2 := run_reg c s.mgr made
    constructor <;> (try simp only [gg]) <;> (try simp only [St.goto]) <;> grind

/-- A thread's step, opened. -/
theorem thread_step {push : Push T} {nt : Nat} {s s' : St T} {i made : Nat} (hs : s.step push nt (.thread i made) = some s') :
    ∃ pc c r, s.threads[i]? = some ⟨pc, c :: r⟩ ∧ s.advance nt i made c r pc = some s' := by
  simp only [St.step] at hs
  split at hs
  · rename_i pc c r h; exact ⟨pc, c, r, h, hs⟩
  · cases hs

theorem inv_step {push : Push T} {nt : Nat} {s s' : St T} {a : Move T} (h : Inv s) (hs : s.step push nt a = some s') : Inv s' := by
  cases a with
  | thread i made =>
    obtain ⟨pc, c, r, h1, h2⟩ := thread_step hs
    exact inv_thread h h1 h2
  | world id a => exact inv_world h hs

theorem inv_reach {push : Push T} {nt : Nat} {progs : List (List Call)} {s : St T}
    (h : Steps (St.step push nt) Any (St.start progs) s) : Inv s := by
  induction h with
  | init => exact inv_start progs
  | step _ _ h3 ih => exact inv_step ih h3

/-! ## The calls as if made one after the other -/

theorem serial_step {push : Push T} {nt : Nat} {s s' : St T} {a : Move T} (hv : Inv s) (hs : s.step push nt a = some s')
    (h : Serial push nt s.log (full nt s.mgr)) : Serial push nt s'.log (full nt s'.mgr) := by
  cases a with
  | world id a =>
    simp only [St.step] at hs
    cases hm : s.mgr.step push (.pool id a) with
    | none => rw [hm] at hs; cases hs
    | some m =>
      rw [hm] at hs
      injection hs with hs
      subst hs
      exact h.pool id a (full_pool nt hm)
  | thread i made =>
    obtain ⟨pc, c, r, hi, hs⟩ := thread_step hs
    cases pc with
    | start =>
      simp only [St.advance] at hs
      split at hs
      · injection hs with hs; subst hs; exact h
      · cases hs
      · injection hs with hs; subst hs; exact h
    | making =>
      injection hs with hs
      subst hs
      have hg := hv.making i c r hi
      have hp : s.mgr.pools c.pool = none := by
        by_contra hp
        rw [(hv.guardDone _).2 hp] at hg
        cases hg
      have hr : s.mgr.reg c.pool = none := by
        by_contra hr
        exact hv.regPools _ hr hp
      have := h.first c.pool made
      rw [← full_make nt made hp hr] at this
      exact this
    | test => injection hs with hs; subst hs; exact h
    | insert =>
      simp only [St.advance] at hs
      split at hs
      · injection hs with hs; subst hs; exact h
      · cases hs
    | inserting =>
      injection hs with hs
      subst hs
      show Serial push nt s.log (full nt (s.mgr.insert c.pool nt).2)
      rw [full_insert nt (hv.pools i _ c r hi (by decide) (by decide))]
      exact h
    | mark => injection hs with hs; subst hs; exact h
    | call =>
      simp only [St.advance] at hs
      split at hs
      · injection hs with hs; subst hs; exact h
      · cases hs
    | body =>
      injection hs with hs
      subst hs
      have := h.call i c made (hv.pools i _ c r hi (by decide) (by decide))
      rw [full_run nt made (hv.reg i _ c r hi (.inr (.inr rfl)))] at this
      exact this

theorem serial_reach {push : Push T} {nt : Nat} {progs : List (List Call)} {s : St T}
    (h : Steps (St.step push nt) Any (St.start progs) s) : Serial push nt s.log (full nt s.mgr) := by
  induction h with
  | init =>
    have : full nt (Mgr.empty (T := T)) = Mgr.empty := by simp [full, Mgr.empty]
    show Serial push nt [] (full nt Mgr.empty)
    rw [this]
    exact .none
  | step h1 _ h3 ih => exact serial_step (inv_reach h1) h3 ih

/-- Every thread has made the first of its calls. -/
def Ordered (progs : List (List Call)) (s : St T) : Prop :=
  s.threads.length = progs.length ∧ ∀ (i : Nat) (t : Thr), s.threads[i]? = some t → progs[i]? = some (s.made i ++ t.todo)

theorem ordered_goto {progs : List (List Call)} {s s' : St T} {i : Nat} {pc pc' : Pc} {todo : List Call} (h : Ordered progs s)
    (hi : s.threads[i]? = some ⟨pc, todo⟩) (h1 : s'.threads = s.threads.set i ⟨pc', todo⟩) (h2 : s'.log = s.log) :
    Ordered progs s' := by
  have hl : i < s.threads.length := (List.getElem?_eq_some_iff.1 hi).1
  refine ⟨by rw [h1, List.length_set]; exact h.1, fun j t ht => ?_⟩
  have e : s'.made j = s.made j := by simp [St.made, h2]
  rw [h1, List.getElem?_set] at ht
  rw [e]
  split at ht
  · rename_i hj
    subst hj
    injection ht with ht
    subst ht
    exact h.2 i ⟨pc, todo⟩ hi
  · exact h.2 j t ht

theorem ordered_step {push : Push T} {nt : Nat} {progs : List (List Call)} {s s' : St T} {a : Move T}
    (hs : s.step push nt a = some s') (h : Ordered progs s) : Ordered progs s' := by
  cases a with
  | world id a =>
    simp only [St.step] at hs
    cases hm : s.mgr.step push (.pool id a) with
    | none => rw [hm] at hs; cases hs
    | some m => rw [hm] at hs; injection hs with hs; subst hs; exact h
  | thread i made =>
    obtain ⟨pc, c, r, hi, hs⟩ := thread_step hs
    cases pc with
    | start =>
      simp only [St.advance] at hs
      split at hs
      · injection hs with hs; subst hs; exact ordered_goto h hi rfl rfl
      · cases hs
      · injection hs with hs; subst hs; exact ordered_goto h hi rfl rfl
    | making => injection hs with hs; subst hs; exact ordered_goto h hi rfl rfl
    | test => injection hs with hs; subst hs; exact ordered_goto h hi rfl rfl
    | insert =>
      simp only [St.advance] at hs
      split at hs
      · injection hs with hs; subst hs; exact ordered_goto h hi rfl rfl
      · cases hs
    | inserting => injection hs with hs; subst hs; exact ordered_goto h hi rfl rfl
    | mark => injection hs with hs; subst hs; exact ordered_goto h hi rfl rfl
    | call =>
      simp only [St.advance] at hs
      split at hs
      · injection hs with hs; subst hs; exact ordered_goto h hi rfl rfl
      · cases hs
    | body =>
      injection hs with hs
      subst hs
      have hl : i < s.threads.length := (List.getElem?_eq_some_iff.1 hi).1
      refine ⟨by simp [St.goto, h.1], fun j t ht => ?_⟩
      rw [goto_get] at ht
      swap
      · exact hl
      split at ht
      · rename_i hj
        subst hj
        injection ht with ht
        subst ht
        have := h.2 j _ hi
        rw [this]
        simp [St.made, St.goto]
      · rename_i hj
        have := h.2 j t ht
        rw [this]
        simp [St.made, St.goto, Ne.symm hj]

theorem ordered_reach {push : Push T} {nt : Nat} {progs : List (List Call)} {s : St T}
    (h : Steps (St.step push nt) Any (St.start progs) s) : Ordered progs s := by
  induction h with
  | init =>
    refine ⟨by simp [St.start], fun i t ht => ?_⟩
    simp only [St.start, List.getElem?_map, Option.map_eq_some_iff] at ht
    obtain ⟨p, h1, rfl⟩ := ht
    simp [St.made, St.start, h1]
  | step _ _ h3 ih => exact ordered_step h3 ih

/-! ## Values -/

theorem tact_step {push : Push T} {p p' : Pool T} {a : Act T} (hw : 0 ≤ p.wc) (h : 0 ≤ p.tact) (hs : p.step push a = some p') :
    0 ≤ p'.tact := by
  have hres : ∀ (p : Pool T) k l, (p.resize k l).tact = p.tact := by
    intro p k l
    unfold Pool.resize Pool.grow
    split
    · rfl
    · dsimp only; split <;> rfl
  have hf : ∀ (p : Pool T) i, (p.tryFetch i).tact = p.tact := by
    intro p i
    unfold Pool.tryFetch
    repeat' split
    all_goals rfl
  cases a with
  | resizeActive n =>
    injection hs with hs
    subst hs
    simp only [Pool.resizeActive]
    split <;> omega
  | resize n made => injection hs with hs; subst hs; rw [hres]; exact h
  | _ =>
    simp only [Pool.step] at hs
    repeat' split at hs
    all_goals first
      | cases hs
        done
      | (injection hs with hs
         subst hs
         first
         | exact h
         | (rw [hf]; exact h)
         | (rw [hres]; exact h))

theorem wc_nonneg {push : Push T} {m : Mgr T} (h : Sync.PoolsReach push m) {id : Nat} {p : Pool T} (hp : m.pools id = some p) :
    0 ≤ p.wc := by
  obtain ⟨n, made, hR⟩ := h id p hp
  have := (C36_counters hR).1
  omega

/-- What is known of a registry that is used as documented. -/
structure Sane (push : Push T) (m : Mgr T) : Prop where
  pos : ∀ id r, m.reg id = some r → 1 ≤ r
  reach : Sync.PoolsReach push m
  tact : ∀ id p, m.pools id = some p → 0 ≤ p.tact
  reg : ∀ id, m.pools id ≠ none → m.reg id ≠ none

theorem sane_onPool {push : Push T} {m : Mgr T} {id : Nat} {a : Act T} {f : Pool T → Pool T} (h1 : Sync.PoolsReach push m)
    (h2 : ∀ id p, m.pools id = some p → 0 ≤ p.tact) (hf : ∀ p, p.step push a = some (f p)) : ∀ j p, (m.onPool id f).pools j = some p → 0 ≤ p.tact := by
  intro j p hp
  by_cases e : j = id
  · subst e
    simp only [Mgr.onPool, upd_same, Option.map_eq_some_iff] at hp
    obtain ⟨q, hq, rfl⟩ := hp
    exact tact_step (wc_nonneg h1 hq) (h2 j q hq) (hf q)
  · simp only [Mgr.onPool, upd_other _ _ e] at hp
    exact h2 j p hp

theorem serial_sane {push : Push T} {nt : Nat} {l : List (Nat × Call × Int)} {m : Mgr T} (h : Serial push nt l m) : Sane push m := by
  induction h with
  | none =>
    constructor
    · intro id r h; cases h
    · intro id p h; cases h
    · intro id p h; cases h
    · intro id h; exact absurd rfl h
  | @first h m id made _ ih =>
    have e : m.step push (.self id nt made) = some (m.self id nt made) := rfl
    refine ⟨Sync.reg_pos_step e ih.pos, Sync.pools_reach_step e ih.reach, ?_, ?_⟩
    · intro j p hp
      unfold Mgr.self at hp
      split at hp
      · exact ih.tact j p hp
      · rw [insert_pools] at hp
        by_cases e : j = id
        · subst e
          simp only [upd_same, Option.some.injEq] at hp
          subst hp
          unfold Pool.create
          have hw : 0 ≤ ((Pool.empty : Pool T).resize nt made).wc := by
            simp [Pool.resize, Pool.empty, Pool.grow]
          simp only [Pool.resizeActive]
          split <;> omega
        · simp only [upd_other _ _ e] at hp
          exact ih.tact j p hp
    · intro j hj
      unfold Mgr.self at hj ⊢
      cases hp : m.pools id with
      | some q => simp only [hp] at hj ⊢; exact ih.reg j hj
      | none =>
        simp only [hp] at hj ⊢
        rw [insert_pools] at hj
        rw [Ne, insert_reg]
        rintro ⟨h1, h2⟩
        simp only [upd_other _ _ h1] at hj
        exact ih.reg j hj h2
  | @pool h m m' id a _ hs ih =>
    obtain ⟨h1, h2, -⟩ := pool_step hs
    refine ⟨Sync.reg_pos_step hs ih.pos, Sync.pools_reach_step hs ih.reach, ?_, fun j hj => ?_⟩
    · intro j p hp
      simp only [Mgr.step] at hs
      cases hq : m.pools id with
      | none => rw [hq] at hs; cases hs
      | some q =>
        rw [hq] at hs
        dsimp only at hs
        cases hq' : q.step push a with
        | none => rw [hq'] at hs; cases hs
        | some q' =>
          rw [hq'] at hs
          injection hs with hs
          subst hs
          by_cases e : j = id
          · subst e
            simp only [upd_same, Option.some.injEq] at hp
            subst hp
            exact tact_step (wc_nonneg ih.reach hq) (ih.tact j q hq) hq'
          · simp only [upd_other _ _ e] at hp
            exact ih.tact j p hp
    · rw [h1]
      exact ih.reg j fun e => hj ((h2 j).2 e)
  | @call h m i c made _ hc ih =>
    have key : Sane push (c.run m made).2 ↔ ((∀ id r, (c.run m made).2.reg id = some r → 1 ≤ r) ∧
        Sync.PoolsReach push (c.run m made).2 ∧ (∀ id p, (c.run m made).2.pools id = some p → 0 ≤ p.tact)) := by
      refine ⟨fun h => ⟨h.1, h.2, h.3⟩, fun ⟨a, b, d⟩ => ⟨a, b, d, fun j hj => ?_⟩⟩
      rw [Ne, run_reg]
      rw [Ne, run_pools] at hj
      exact ih.reg j hj
    rw [key]
    cases c with
    | poolSize id => exact ⟨ih.pos, ih.reach, ih.tact⟩
    | capacity id => exact ⟨ih.pos, ih.reach, ih.tact⟩
    | resizePool id n =>
      have e : m.step push (.resizeActive id n) = some (m.resizeActive id n).2 := rfl
      refine ⟨Sync.reg_pos_step e ih.pos, Sync.pools_reach_step e ih.reach, ?_⟩
      simp only [Call.run, Mgr.resizeActive]
      split
      · exact ih.tact
      · exact sane_onPool (a := .resizeActive (max 1 n).toNat) ih.reach ih.tact fun p => rfl
    | setCapacity id n =>
      have e : m.step push (.resize id n made) = some (m.resize id n made).2 := rfl
      refine ⟨Sync.reg_pos_step e ih.pos, Sync.pools_reach_step e ih.reach, ?_⟩
      simp only [Call.run, Mgr.resize]
      split
      · exact ih.tact
      · split
        · exact ih.tact
        · exact sane_onPool (m := { m with reg := _ }) (a := .resize (if n < 1 then 1 else n).toNat made) ih.reach ih.tact fun p => rfl

theorem run_answered {push : Push T} {m : Mgr T} (h : Sane push m) {c : Call} (hc : m.pools c.pool ≠ none) (made : Nat) :
    c.Answered (c.run m made).1 := by
  obtain ⟨r, hr⟩ := Option.ne_none_iff_exists'.1 (h.reg _ hc)
  obtain ⟨p, hp⟩ := Option.ne_none_iff_exists'.1 hc
  cases c with
  | resizePool id n => simp only [Call.pool] at hr; simp [Call.run, Mgr.resizeActive, hr, Call.Answered]
  | poolSize id =>
    simp only [Call.pool] at hr hp
    simp only [Call.run, Mgr.maxActive, hr, hp, Call.Answered]
    exact h.tact id p hp
  | setCapacity id n =>
    simp only [Call.pool] at hr
    have := h.pos id r hr
    simp only [Call.run, Mgr.resize, hr, Call.Answered]
    split
    · dsimp only; omega
    · exact clamp n
  | capacity id =>
    simp only [Call.pool] at hr hp
    simp only [Call.run, Mgr.workerCount, hr, hp, Call.Answered]
    exact wc_nonneg h.reach hp

theorem serial_answered {push : Push T} {nt : Nat} {l : List (Nat × Call × Int)} {m : Mgr T} (h : Serial push nt l m) :
    ∀ e ∈ l, e.2.1.Answered e.2.2 := by
  induction h with
  | none => simp
  | first id made _ ih => exact ih
  | pool id a _ _ ih => exact ih
  | call i c made h hc ih =>
    intro e he
    rcases List.mem_append.1 he with he | he
    · exact ih e he
    · simp only [List.mem_singleton] at he
      subst he
      exact run_answered (serial_sane h) hc made

/-! ## Registrations -/

/-- Who has registered what, with which result. -/
structure Regs (s : St T) : Prop where
  once : (s.inserts.map fun e => (e.1, e.2.1)).Nodup
  lt : ∀ e ∈ s.inserts, e.1 < s.threads.length
  past : ∀ e ∈ s.inserts, s.init e.2.1 = true ∨ ∃ (c : Call) (r : List Call), s.threads[e.1]? = some ⟨.mark, c :: r⟩ ∧ c.pool = e.2.1
  fresh : ∀ (i : Nat) (pc : Pc) (c : Call) (r : List Call), s.threads[i]? = some ⟨pc, c :: r⟩ → pc = .insert ∨ pc = .inserting →
    ∀ e ∈ s.inserts, ¬ (e.1 = i ∧ e.2.1 = c.pool)
  results : ∀ id, (s.mgr.reg id = none ∧ s.registrations id = []) ∨
    (s.mgr.reg id ≠ none ∧ ∃ k, s.registrations id = true :: List.replicate k false)

theorem regs_start (progs : List (List Call)) : Regs (St.start (T := T) progs) := by
  constructor <;> simp [St.start, St.registrations, Mgr.empty]

theorem regs_thread {nt : Nat} {s s' : St T} {i made : Nat} {c : Call} {r : List Call} {pc : Pc} (h : Regs s)
    (hi : s.threads[i]? = some ⟨pc, c :: r⟩) (hs : s.advance nt i made c r pc = some s') : Regs s' := by
  have hl : i < s.threads.length := (List.getElem?_eq_some_iff.1 hi).1
  obtain ⟨g1, g2, g3, g4, g5⟩ := h
  cases pc with
  | start =>
    simp only [St.advance] at hs
    split at hs
    · injection hs with hs
      subst hs
      have gg := goto_get (s := { s with guard := upd s.guard c.pool (.busy i) }) .making (c :: r) hl
      refine ⟨g1, by simpa [St.goto] using g2, ?_, ?_, g5⟩ <;> simp only [gg] <;> (try simp only [St.goto]) <;> grind
    · cases hs
    · injection hs with hs
      subst hs
      have gg := goto_get (s := s) .test (c :: r) hl
      refine ⟨g1, by simpa [St.goto] using g2, ?_, ?_, g5⟩ <;> simp only [gg] <;> (try simp only [St.goto]) <;> grind
  | making =>
    injection hs with hs
    subst hs
    have gg := goto_get (s := { s with
      mgr := { s.mgr with pools := upd s.mgr.pools c.pool (some (Pool.create nt made)) }
      guard := upd s.guard c.pool .done }) .test (c :: r) hl
    refine ⟨g1, by simpa [St.goto] using g2, ?_, ?_, g5⟩ <;> simp only [gg] <;> (try simp only [St.goto]) <;> grind
  | test =>
    injection hs with hs
    subst hs
    have gg := goto_get (s := s) (if s.init c.pool = false then .insert else .call) (c :: r) hl
    refine ⟨g1, by simpa [St.goto] using g2, ?_, ?_, g5⟩ <;> simp only [gg] <;> (try simp only [St.goto]) <;> grind
  | insert =>
    simp only [St.advance] at hs
    split at hs
    · rename_i hk
      injection hs with hs
      subst hs
      have gg := goto_get (s := { s with lock := some i }) .inserting (c :: r) hl
      refine ⟨g1, by simpa [St.goto] using g2, ?_, ?_, g5⟩ <;> simp only [gg] <;> (try simp only [St.goto]) <;> grind
    · cases hs
  | inserting =>
    injection hs with hs
    subst hs
    have gg := goto_get (s := { s with
      mgr := (s.mgr.insert c.pool nt).2
      lock := none
      inserts := s.inserts ++ [(i, c.pool, (s.mgr.insert c.pool nt).1)] }) .mark (c :: r) hl
    have k1 := insert_reg s.mgr c.pool nt
    have k2 := insert_result s.mgr c.pool nt
    have g4i := g4 i _ c r hi (.inr rfl)
    refine ⟨?_, ?_, ?_, ?_, ?_⟩
    · simp only [St.goto, List.map_append, List.map_cons, List.map_nil]
      rw [List.nodup_append]
      refine ⟨g1, by simp, ?_⟩
      intro a ha b hb
      simp only [List.mem_singleton] at hb
      obtain ⟨e, he, rfl⟩ := List.mem_map.1 ha
      subst hb
      intro hab
      simp only [Prod.mk.injEq] at hab
      exact g4i e he hab
    · simp only [St.goto, List.length_set, List.mem_append, List.mem_singleton]
      rintro e (he | rfl)
      · exact g2 e he
      · exact hl
    · simp only [gg]
      simp only [St.goto, List.mem_append, List.mem_singleton]
      grind
    · simp only [gg]
      simp only [St.goto, List.mem_append, List.mem_singleton]
      grind
    · intro id
      simp only [St.goto, St.registrations]
      by_cases e : id = c.pool
      · subst e
        refine .inr ⟨fun h => (k1 _).1 h |>.1 rfl, ?_⟩
        rcases g5 c.pool with ⟨h1, h2⟩ | ⟨h1, k, h2⟩
        · refine ⟨0, ?_⟩
          have := k2.2 h1
          simp only [St.registrations] at h2
          simp [List.filter_append, h2, this]
        · refine ⟨k + 1, ?_⟩
          have : (s.mgr.insert c.pool nt).1 = false := by
            rw [Bool.eq_false_iff]
            exact fun h => h1 (k2.1 h)
          simp only [St.registrations] at h2
          simp [List.filter_append, h2, this, List.replicate_succ']
      · have e' : ¬ c.pool = id := fun h => e h.symm
        have : ((s.mgr.insert c.pool nt).2.reg id = none ↔ s.mgr.reg id = none) := by
          rw [k1]; simp [e]
        rw [Ne, this]
        simpa [List.filter_append, e', St.registrations] using g5 id
  | mark =>
    injection hs with hs
    subst hs
    have gg := goto_get (s := { s with init := upd s.init c.pool true }) .call (c :: r) hl
    refine ⟨g1, by simpa [St.goto] using g2, ?_, ?_, g5⟩ <;> simp only [gg] <;> (try simp only [St.goto, upd]) <;> grind
  | call =>
    simp only [St.advance] at hs
    split at hs
    · rename_i hk
      injection hs with hs
      subst hs
      have gg := goto_get (s := { s with lock := some i }) .body (c :: r) hl
      refine ⟨g1, by simpa [St.goto] using g2, ?_, ?_, g5⟩ <;> simp only [gg] <;> (try simp only [St.goto]) <;> grind
    · cases hs
  | body =>
    injection hs with hs
    subst hs
    have gg := goto_get (s := { s with
      mgr := (c.run s.mgr made).2
      lock := none
      log := s.log ++ [(i, c, (c.run s.mgr made).1)] }) .start r hl
    refine ⟨g1, by simpa [St.goto] using g2, ?_, ?_, fun id => ?_⟩
    · simp only [gg]; simp only [St.goto]; grind
    · simp only [gg]; simp only [St.goto]; grind
    · have := run_reg c s.mgr made id
      simp only [St.goto, St.registrations, Ne, this]
      exact g5 id

theorem regs_reach {push : Push T} {nt : Nat} {progs : List (List Call)} {s : St T}
    (h : Steps (St.step push nt) Any (St.start progs) s) : Regs s := by
  induction h with
  | init => exact regs_start progs
  | @step s s' a _ _ hs ih =>
    cases a with
    | thread i made =>
      obtain ⟨pc, c, r, h1, h2⟩ := thread_step hs
      exact regs_thread ih h1 h2
    | world id a =>
      simp only [St.step] at hs
      cases hm : s.mgr.step push (.pool id a) with
      | none => rw [hm] at hs; cases hs
      | some m =>
        rw [hm] at hs
        injection hs with hs
        subst hs
        have h1 := (pool_step hm).1
        refine ⟨ih.1, ih.2, ih.3, ih.4, fun j => ?_⟩
        dsimp only
        rw [h1]
        exact ih.5 j

/-! ## After the first use -/

/-- Pool `id` has been used, and no thread is in its `self()` between the test and the write of `init_`. -/
def Used (s : St T) (id : Nat) : Prop :=
  s.init id = true ∧ ∀ (i : Nat) (pc : Pc) (c : Call) (r : List Call), s.threads[i]? = some ⟨pc, c :: r⟩ → c.pool = id →
    pc ≠ .insert ∧ pc ≠ .inserting ∧ pc ≠ .mark

theorem used_step {push : Push T} {nt : Nat} {s s' : St T} {a : Move T} {id : Nat} (h : Used s id)
    (hs : s.step push nt a = some s') : Used s' id ∧ s'.registrations id = s.registrations id := by
  cases a with
  | world j a =>
    simp only [St.step] at hs
    cases hm : s.mgr.step push (.pool j a) with
    | none => rw [hm] at hs; cases hs
    | some m => rw [hm] at hs; injection hs with hs; subst hs; exact ⟨h, rfl⟩
  | thread i made =>
    obtain ⟨pc, c, r, hi, hs⟩ := thread_step hs
    have hl : i < s.threads.length := (List.getElem?_eq_some_iff.1 hi).1
    obtain ⟨h1, h2⟩ := h
    cases pc with
    | start =>
      simp only [St.advance] at hs
      split at hs
      · injection hs with hs
        subst hs
        have gg := goto_get (s := { s with guard := upd s.guard c.pool (.busy i) }) .making (c :: r) hl
        refine ⟨⟨h1, ?_⟩, rfl⟩
        simp only [gg]
        grind
      · cases hs
      · injection hs with hs
        subst hs
        refine ⟨⟨h1, ?_⟩, rfl⟩
        simp only [goto_get (s := s) .test (c :: r) hl]
        grind
    | making =>
      injection hs with hs
      subst hs
      refine ⟨⟨h1, ?_⟩, rfl⟩
      simp only [goto_get (s := { s with
        mgr := { s.mgr with pools := upd s.mgr.pools c.pool (some (Pool.create nt made)) }
        guard := upd s.guard c.pool .done }) .test (c :: r) hl]
      grind
    | test =>
      injection hs with hs
      subst hs
      refine ⟨⟨h1, ?_⟩, rfl⟩
      simp only [goto_get (s := s) (if s.init c.pool = false then .insert else .call) (c :: r) hl]
      grind
    | insert =>
      simp only [St.advance] at hs
      split at hs
      · injection hs with hs
        subst hs
        refine ⟨⟨h1, ?_⟩, rfl⟩
        simp only [goto_get (s := { s with lock := some i }) .inserting (c :: r) hl]
        grind
      · cases hs
    | inserting =>
      injection hs with hs
      subst hs
      have hne : ¬ c.pool = id := fun e => (h2 i _ c r hi e).2.1 rfl
      refine ⟨⟨h1, ?_⟩, by simp [St.registrations, St.goto, List.filter_append, hne]⟩
      simp only [goto_get (s := { s with
        mgr := (s.mgr.insert c.pool nt).2
        lock := none
        inserts := s.inserts ++ [(i, c.pool, (s.mgr.insert c.pool nt).1)] }) .mark (c :: r) hl]
      grind
    | mark =>
      injection hs with hs
      subst hs
      refine ⟨⟨?_, ?_⟩, rfl⟩
      · simp only [St.goto, upd]
        split
        · rfl
        · exact h1
      · simp only [goto_get (s := { s with init := upd s.init c.pool true }) .call (c :: r) hl]
        grind
    | call =>
      simp only [St.advance] at hs
      split at hs
      · injection hs with hs
        subst hs
        refine ⟨⟨h1, ?_⟩, rfl⟩
        simp only [goto_get (s := { s with lock := some i }) .body (c :: r) hl]
        grind
      · cases hs
    | body =>
      injection hs with hs
      subst hs
      refine ⟨⟨h1, ?_⟩, rfl⟩
      simp only [goto_get (s := { s with
        mgr := (c.run s.mgr made).2
        lock := none
        log := s.log ++ [(i, c, (c.run s.mgr made).1)] }) .start r hl]
      grind

/-- Only thread `k` has made steps. -/
structure Solo (k : Nat) (s : St T) : Prop where
  others : ∀ (i : Nat) (t : Thr), i ≠ k → s.threads[i]? = some t → t.pc = .start
  before : ∀ (i : Nat) (pc : Pc) (c : Call) (r : List Call), s.threads[i]? = some ⟨pc, c :: r⟩ →
    pc = .insert ∨ pc = .inserting ∨ pc = .mark → s.init c.pool = false
  after : ∀ (i : Nat) (pc : Pc) (c : Call) (r : List Call), s.threads[i]? = some ⟨pc, c :: r⟩ →
    pc = .call ∨ pc = .body → s.init c.pool = true
  logged : ∀ e ∈ s.log, s.init e.2.1.pool = true
  alone : ∀ e ∈ s.inserts, e.1 = k

theorem solo_start (k : Nat) (progs : List (List Call)) : Solo k (St.start (T := T) progs) := by
  have h : ∀ {i : Nat} {t : Thr}, (St.start (T := T) progs).threads[i]? = some t → t.pc = .start := by
    intro i t h
    simp only [St.start, List.getElem?_map, Option.map_eq_some_iff] at h
    obtain ⟨_, _, rfl⟩ := h
    rfl
  constructor
  · intro i t _ ht; exact h ht
  · intro i pc c r ht; have := h ht; simp_all
  · intro i pc c r ht; have := h ht; simp_all
  · simp [St.start]
  · simp [St.start]

theorem solo_step {push : Push T} {nt k : Nat} {s s' : St T} {a : Move T} (ha : a.only k) (h : Solo k s)
    (hs : s.step push nt a = some s') : Solo k s' := by
  cases a with
  | world j a =>
    simp only [St.step] at hs
    cases hm : s.mgr.step push (.pool j a) with
    | none => rw [hm] at hs; cases hs
    | some m => rw [hm] at hs; injection hs with hs; subst hs; exact ⟨h.1, h.2, h.3, h.4, h.5⟩
  | thread i made =>
    obtain rfl : i = k := ha
    obtain ⟨pc, c, r, hi, hs⟩ := thread_step hs
    have hl : i < s.threads.length := (List.getElem?_eq_some_iff.1 hi).1
    obtain ⟨h1, h2, h3, h4, h5⟩ := h
    cases pc with
    | start =>
      simp only [St.advance] at hs
      split at hs
      · injection hs with hs
        subst hs
        have gg := goto_get (s := { s with guard := upd s.guard c.pool (.busy i) }) .making (c :: r) hl
        constructor <;> (try simp only [gg]) <;> (try simp only [St.goto]) <;> grind
      · cases hs
      · injection hs with hs
        subst hs
        have gg := goto_get (s := s) .test (c :: r) hl
        constructor <;> (try simp only [gg]) <;> (try simp only [St.goto]) <;> grind
    | making =>
      injection hs with hs
      subst hs
      have gg := goto_get (s := { s with
        mgr := { s.mgr with pools := upd s.mgr.pools c.pool (some (Pool.create nt made)) }
        guard := upd s.guard c.pool .done }) .test (c :: r) hl
      constructor <;> (try simp only [gg]) <;> (try simp only [St.goto]) <;> grind
    | test =>
      injection hs with hs
      subst hs
      have gg := goto_get (s := s) (if s.init c.pool = false then .insert else .call) (c :: r) hl
      constructor <;> (try simp only [gg]) <;> (try simp only [St.goto]) <;> grind
    | insert =>
      simp only [St.advance] at hs
      split at hs
      · injection hs with hs
        subst hs
        have gg := goto_get (s := { s with lock := some i }) .inserting (c :: r) hl
        constructor <;> (try simp only [gg]) <;> (try simp only [St.goto]) <;> grind
      · cases hs
    | inserting =>
      injection hs with hs
      subst hs
      have gg := goto_get (s := { s with
        mgr := (s.mgr.insert c.pool nt).2
        lock := none
        inserts := s.inserts ++ [(i, c.pool, (s.mgr.insert c.pool nt).1)] }) .mark (c :: r) hl
      constructor <;> (try simp only [gg]) <;> (try simp only [St.goto]) <;> grind
    | mark =>
      injection hs with hs
      subst hs
      have gg := goto_get (s := { s with init := upd s.init c.pool true }) .call (c :: r) hl
      constructor <;> (try simp only [gg]) <;> (try simp only [St.goto, upd]) <;> grind
    | call =>
      simp only [St.advance] at hs
      split at hs
      · injection hs with hs
        subst hs
        have gg := goto_get (s := { s with lock := some i }) .body (c :: r) hl
        constructor <;> (try simp only [gg]) <;> (try simp only [St.goto]) <;> grind
      · cases hs
    | body =>
      injection hs with hs
      subst hs
      have gg := goto_get (s := { s with
        mgr := (c.run s.mgr made).2
        lock := none
        log := s.log ++ [(i, c, (c.run s.mgr made).1)] }) .start r hl
      constructor <;> (try simp only [gg]) <;> (try simp only [St.goto]) <;> grind

theorem solo_used {s : St T} {k id : Nat} (h : Solo k s) {e : Nat × Call × Int} (he : e ∈ s.log) (hid : e.2.1.pool = id) :
    Used s id := by
  have h1 := h.logged e he
  rw [hid] at h1
  refine ⟨h1, fun i pc c r hi hc => ?_⟩
  have := h.before i pc c r hi
  rw [hc, h1] at this
  refine ⟨fun e => ?_, fun e => ?_, fun e => ?_⟩ <;> subst e <;> simp at this

/-! ## A pool that is not registered yet -/

/-- A pool that is there and not registered is about to be. -/
def Owned (s : St T) : Prop :=
  ∀ id, s.mgr.pools id ≠ none → s.mgr.reg id = none → ∃ (i : Nat) (pc : Pc) (c : Call) (r : List Call),
    s.threads[i]? = some ⟨pc, c :: r⟩ ∧ c.pool = id ∧ (pc = .test ∨ pc = .insert ∨ pc = .inserting)

theorem owned_thread {nt : Nat} {s s' : St T} {i made : Nat} {c : Call} {r : List Call} {pc : Pc} (hv : Inv s) (h : Owned s)
    (hi : s.threads[i]? = some ⟨pc, c :: r⟩) (hs : s.advance nt i made c r pc = some s') : Owned s' := by
  have hl : i < s.threads.length := (List.getElem?_eq_some_iff.1 hi).1
  have hn := hv.init
  unfold Owned at h ⊢
  -- a thread other than the one that moves, or the same one at its new place
  have keep : ∀ (s' : St T) (pc' : Pc) (todo : List Call), s'.threads = s.threads.set i ⟨pc', todo⟩ → ∀ id,
      (s.mgr.pools id ≠ none ∧ s.mgr.reg id = none) →
      ((pc = .test ∨ pc = .insert ∨ pc = .inserting) → c.pool = id →
        todo = c :: r ∧ (pc' = .test ∨ pc' = .insert ∨ pc' = .inserting)) →
      ∃ (i : Nat) (pc : Pc) (c : Call) (r : List Call),
        s'.threads[i]? = some ⟨pc, c :: r⟩ ∧ c.pool = id ∧ (pc = .test ∨ pc = .insert ∨ pc = .inserting) := by
    intro s' pc' todo h1 id ⟨h2, h3⟩ h4
    obtain ⟨j, pc1, c1, r1, h5, h6, h7⟩ := h id h2 h3
    by_cases e : j = i
    · subst e
      rw [hi] at h5
      injection h5 with h5
      injection h5 with h8 h9
      injection h9 with h9 h10
      subst h8 h9 h10
      obtain ⟨h11, h12⟩ := h4 h7 h6
      refine ⟨j, pc', c, r, ?_, h6, h12⟩
      rw [h1, List.getElem?_set, if_pos rfl, if_pos hl, h11]
    · exact ⟨j, pc1, c1, r1, by rw [h1, List.getElem?_set, if_neg (Ne.symm e)]; exact h5, h6, h7⟩
  cases pc with
  | start =>
    simp only [St.advance] at hs
    split at hs
    · injection hs with hs; subst hs
      exact fun id h1 h2 => keep _ _ _ rfl id ⟨h1, h2⟩ (by simp)
    · cases hs
    · injection hs with hs; subst hs
      exact fun id h1 h2 => keep _ _ _ rfl id ⟨h1, h2⟩ (by simp)
  | making =>
    injection hs with hs; subst hs
    intro id h1 h2
    by_cases e : id = c.pool
    · refine ⟨i, .test, c, r, ?_, e.symm, .inl rfl⟩
      simp [St.goto, hl]
    · refine keep _ _ _ rfl id ⟨?_, h2⟩ (by simp)
      simpa [St.goto, upd, e] using h1
  | test =>
    injection hs with hs; subst hs
    intro id h1 h2
    refine keep _ _ _ rfl id ⟨h1, h2⟩ fun _ e => ⟨rfl, ?_⟩
    have : s.init c.pool = false := by
      rw [Bool.eq_false_iff]
      exact fun h => hn _ h (e ▸ h2)
    simp [this]
  | insert =>
    simp only [St.advance] at hs
    split at hs
    · injection hs with hs; subst hs
      exact fun id h1 h2 => keep _ _ _ rfl id ⟨h1, h2⟩ (by simp)
    · cases hs
  | inserting =>
    injection hs with hs; subst hs
    intro id h1 h2
    obtain ⟨h3, h4⟩ := (insert_reg s.mgr c.pool nt id).1 h2
    refine keep _ _ _ rfl id ⟨?_, h4⟩ fun _ e => absurd e.symm h3
    simpa [St.goto, insert_pools] using h1
  | mark =>
    injection hs with hs; subst hs
    exact fun id h1 h2 => keep _ _ _ rfl id ⟨h1, h2⟩ (by simp)
  | call =>
    simp only [St.advance] at hs
    split at hs
    · injection hs with hs; subst hs
      exact fun id h1 h2 => keep _ _ _ rfl id ⟨h1, h2⟩ (by simp)
    · cases hs
  | body =>
    injection hs with hs; subst hs
    intro id h1 h2
    refine keep _ _ _ rfl id ⟨?_, (run_reg c s.mgr made id).1 h2⟩ (by simp)
    exact fun e => h1 ((run_pools c s.mgr made id).2 e)

theorem owned_reach {push : Push T} {nt : Nat} {progs : List (List Call)} {s : St T}
    (h : Steps (St.step push nt) Any (St.start progs) s) : Owned s := by
  induction h with
  | init => intro id h; exact absurd rfl h
  | @step s s' a h1 _ hs ih =>
    cases a with
    | thread i made =>
      obtain ⟨pc, c, r, h2, h3⟩ := thread_step hs
      exact owned_thread (inv_reach h1) ih h2 h3
    | world id a =>
      simp only [St.step] at hs
      cases hm : s.mgr.step push (.pool id a) with
      | none => rw [hm] at hs; cases hs
      | some m =>
        rw [hm] at hs
        injection hs with hs
        subst hs
        obtain ⟨h2, h3, -⟩ := pool_step hm
        intro j h4 h5
        exact ih j (fun e => h4 ((h3 j).2 e)) (h2 ▸ h5)

/-! ## How many steps are left -/

/-- The steps of a call that are left, at most. -/
def Pc.left : Pc → Nat
  | .start => 8 | .making => 7 | .test => 6 | .insert => 5 | .inserting => 4 | .mark => 3 | .call => 2 | .body => 1

def Thr.left (t : Thr) : Nat :=
  match t.todo with
  | [] => 0
  | _ :: r => t.pc.left + 8 * r.length

def St.left (s : St T) : Nat := (s.threads.map Thr.left).sum

theorem sum_set {α : Type} (f : α → Nat) : ∀ (l : List α) (i : Nat) (x y : α), l[i]? = some x → f y < f x →
    ((l.set i y).map f).sum + 1 ≤ (l.map f).sum
  | [], _, _, _, h, _ => by simp at h
  | a :: l, 0, x, y, h, hlt => by
    simp only [List.getElem?_cons_zero, Option.some.injEq] at h
    subst h
    simp only [List.set_cons_zero, List.map_cons, List.sum_cons]
    omega
  | a :: l, i + 1, x, y, h, hlt => by
    simp only [List.getElem?_cons_succ] at h
    have := sum_set f l i x y h hlt
    simp only [List.set_cons_succ, List.map_cons, List.sum_cons]
    omega

theorem left_thread {nt : Nat} {s s' : St T} {i made : Nat} {c : Call} {r : List Call} {pc : Pc}
    (hi : s.threads[i]? = some ⟨pc, c :: r⟩) (hs : s.advance nt i made c r pc = some s') : s'.left + 1 ≤ s.left := by
  have key : ∀ (t : Thr) (s' : St T), s'.threads = s.threads.set i t → t.left < pc.left + 8 * r.length → s'.left + 1 ≤ s.left := by
    intro t s' h1 h2
    unfold St.left
    rw [h1]
    exact sum_set Thr.left _ i _ t hi h2
  cases pc with
  | start =>
    simp only [St.advance] at hs
    split at hs
    · injection hs with hs; subst hs; exact key _ _ rfl (by simp [Thr.left, Pc.left])
    · cases hs
    · injection hs with hs; subst hs; exact key _ _ rfl (by simp [Thr.left, Pc.left])
  | making => injection hs with hs; subst hs; exact key _ _ rfl (by simp [Thr.left, Pc.left])
  | test => injection hs with hs; subst hs; exact key _ _ rfl (by split <;> simp [Thr.left, Pc.left])
  | insert =>
    simp only [St.advance] at hs
    split at hs
    · injection hs with hs; subst hs; exact key _ _ rfl (by simp [Thr.left, Pc.left])
    · cases hs
  | inserting => injection hs with hs; subst hs; exact key _ _ rfl (by simp [Thr.left, Pc.left])
  | mark => injection hs with hs; subst hs; exact key _ _ rfl (by simp [Thr.left, Pc.left])
  | call =>
    simp only [St.advance] at hs
    split at hs
    · injection hs with hs; subst hs; exact key _ _ rfl (by simp [Thr.left, Pc.left])
    · cases hs
  | body =>
    injection hs with hs
    subst hs
    refine key _ _ rfl ?_
    cases r with
    | nil => simp [Thr.left, Pc.left]
    | cons b r => simp only [Thr.left, Pc.left, List.length_cons]; omega

theorem left_runs {push : Push T} {nt : Nat} (as : List (Move T)) : ∀ {s s' : St T}, Sync.runs (St.step push nt) s as = some s' →
    (as.filter Move.ofThread).length + s'.left ≤ s.left := by
  induction as with
  | nil => intro s s' h; simp only [Sync.runs, Option.some.injEq] at h; subst h; simp
  | cons a as ih =>
    intro s s' h
    simp only [Sync.runs] at h
    cases hs : s.step push nt a with
    | none => rw [hs] at h; cases h
    | some t =>
      rw [hs] at h
      have h1 := ih h
      cases a with
      | thread i made =>
        obtain ⟨pc, c, r, h2, h3⟩ := thread_step hs
        have := left_thread h2 h3
        simp only [List.filter_cons, Move.ofThread, if_true, List.length_cons]
        omega
      | world id a =>
        simp only [St.step] at hs
        cases hm : s.mgr.step push (.pool id a) with
        | none => rw [hm] at hs; cases hs
        | some m =>
          rw [hm] at hs
          injection hs with hs
          subst hs
          simp only [List.filter_cons, Move.ofThread, Bool.false_eq_true, if_false]
          exact h1

theorem left_start (progs : List (List Call)) : (St.start (T := T) progs).left ≤ 8 * (progs.map List.length).sum := by
  induction progs with
  | nil => simp [St.start, St.left]
  | cons p l ih =>
    simp only [St.start, St.left, List.map_cons, List.sum_cons] at ih ⊢
    have : Thr.left ⟨.start, p⟩ ≤ 8 * p.length := by
      cases p with
      | nil => simp [Thr.left]
      | cons c r => simp only [Thr.left, Pc.left, List.length_cons]; omega
    omega

/-! ## Somebody can go on -/

theorem go_on {nt : Nat} {s : St T} (hv : Inv s) (ht : ¬ s.through) :
    ∃ (i : Nat) (pc : Pc) (c : Call) (r : List Call), s.threads[i]? = some ⟨pc, c :: r⟩ ∧
      ∀ made, ∃ s', s.advance nt i made c r pc = some s' := by
  cases hk : s.lock with
  | some i =>
    obtain ⟨pc, c, r, h1, h2⟩ := hv.lock i hk
    refine ⟨i, pc, c, r, h1, fun made => ?_⟩
    rcases h2 with rfl | rfl
    · exact ⟨_, rfl⟩
    · exact ⟨_, rfl⟩
  | none =>
    simp only [St.through, not_forall] at ht
    obtain ⟨t, h1, h2⟩ := ht
    obtain ⟨i, hi⟩ := List.getElem?_of_mem h1
    obtain ⟨pc, todo⟩ := t
    cases todo with
    | nil => exact absurd rfl h2
    | cons c r =>
      by_cases hb : pc = .start ∧ ∃ j, s.guard c.pool = .busy j
      · obtain ⟨-, j, hj⟩ := hb
        obtain ⟨c', r', h3, h4⟩ := hv.guardBusy _ j hj
        exact ⟨j, .making, c', r', h3, fun made => ⟨_, rfl⟩⟩
      · refine ⟨i, pc, c, r, hi, fun made => ?_⟩
        cases pc with
        | start =>
          cases hg : s.guard c.pool with
          | busy j => exact absurd ⟨rfl, j, hg⟩ hb
          | untouched => simp [St.advance, hg]
          | done => simp [St.advance, hg]
        | insert => simp [St.advance, hk]
        | call => simp [St.advance, hk]
        | making => exact ⟨_, rfl⟩
        | test => exact ⟨_, rfl⟩
        | inserting => exact ⟨_, rfl⟩
        | mark => exact ⟨_, rfl⟩
        | body => exact ⟨_, rfl⟩

end SpatialOps.First
