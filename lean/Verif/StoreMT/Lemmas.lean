import Verif.StoreMT.Spec
import Verif.Pool.Props

/-!
# Lemmas for the field store used by several threads
-/

namespace SpatialOps
namespace StoreMT

open World

/-! ## The map of size classes -/

theorem lowerBound_find {cs : List (Nat × List Nat)} {n k : Nat} {st : List Nat} (h : Pool.lowerBound cs n = some (k, st)) :
    cs.find? (fun e => decide (e.1 = k)) = some (k, st) := by
  induction cs with
  | nil => cases h
  | cons e es ih =>
    unfold Pool.lowerBound at h ih
    rw [List.find?_cons] at h ⊢
    by_cases c : n ≤ e.1
    · simp only [c, decide_true] at h
      injection h with h
      subst h
      simp
    · simp only [c, decide_false] at h
      have hk := Pool.lowerBound_mem (cs := es) (n := n) h
      have : e.1 ≠ k := by have := hk.2; simp only at this; omega
      simp only [this, decide_false]
      exact ih h

theorem modifyAt_key {cs : List (Nat × List Nat)} {n k : Nat} {st : List Nat} (h : Pool.lowerBound cs n = some (k, st))
    (f : List Nat → List Nat) : Pool.modifyAt cs k f = Pool.modifyAt cs n f := by
  induction cs with
  | nil => cases h
  | cons e es ih =>
    unfold Pool.lowerBound at h ih
    rw [List.find?_cons] at h
    by_cases c : n ≤ e.1
    · simp only [c, decide_true] at h
      injection h with h
      subst h
      simp [Pool.modifyAt, c]
    · simp only [c, decide_false] at h
      have hk := Pool.lowerBound_mem (cs := es) (n := n) h
      have : ¬ k ≤ e.1 := by have := hk.2; simp only at this; omega
      simp only [Pool.modifyAt, if_neg c, if_neg this]
      rw [ih h]

theorem stackAt_eq {p : Pool} {n k : Nat} {st : List Nat} (h : Pool.lowerBound p.classes n = some (k, st)) : stackAt p k = st := by
  unfold stackAt
  rw [lowerBound_find h]

/-- The padding in effect after a request. -/
def padOf (p : Pool) (n0 : Nat) : Nat := if p.pad = 0 then n0 / 10 else p.pad

/-- The size classes after the search for one that fits. -/
def classesAfter (p : Pool) (n0 : Nat) : List (Nat × List Nat) :=
  match Pool.lowerBound p.classes (n0 + padOf p n0) with
  | none => p.classes ++ [(n0 + padOf p n0, [])]
  | some _ => p.classes

theorem lowerBound_append {cs : List (Nat × List Nat)} {n : Nat} (h : Pool.lowerBound cs n = none) :
    Pool.lowerBound (cs ++ [(n, [])]) n = some (n, []) := by
  unfold Pool.lowerBound at *
  rw [List.find?_append, h]
  simp

/-- What is known about the pool while a thread is inside a call, in terms of the world `s` before the call. -/
def Within (s : PoolWorld) (p : Pool) (h : List (Nat × Nat)) : Pc → Prop
  | .idle | .enter _ => False
  | .pad _ => p = s.pool ∧ h = s.heap
  | .find n0 n => h = s.heap ∧ p = { s.pool with pad := padOf s.pool n0 } ∧ n = n0 + padOf s.pool n0
  | .test n0 k => h = s.heap ∧ p = { s.pool with pad := padOf s.pool n0, classes := classesAfter s.pool n0 } ∧
      ∃ st, Pool.lowerBound (classesAfter s.pool n0) (n0 + padOf s.pool n0) = some (k, st)
  | .count n0 k => h = s.heap ∧ p = { s.pool with pad := padOf s.pool n0, classes := classesAfter s.pool n0 } ∧
      Pool.lowerBound (classesAfter s.pool n0) (n0 + padOf s.pool n0) = some (k, [])
  | .alloc n0 k => h = s.heap ∧
      p = { s.pool with pad := padOf s.pool n0, classes := classesAfter s.pool n0, highWater := s.pool.highWater + 1 } ∧
      Pool.lowerBound (classesAfter s.pool n0) (n0 + padOf s.pool n0) = some (k, [])
  | .top n0 k => h = s.heap ∧ p = { s.pool with pad := padOf s.pool n0, classes := classesAfter s.pool n0 } ∧
      ∃ a st, Pool.lowerBound (classesAfter s.pool n0) (n0 + padOf s.pool n0) = some (k, a :: st)
  | .pop n0 k a => h = s.heap ∧ p = { s.pool with pad := padOf s.pool n0, classes := classesAfter s.pool n0 } ∧
      ∃ st, Pool.lowerBound (classesAfter s.pool n0) (n0 + padOf s.pool n0) = some (k, a :: st)
  | .got n0 a => ∃ fresh r, s.Legal (.get n0 fresh) ∧ s.pool.get n0 fresh = .ok r ∧ r.addr = a ∧ p = r.pool ∧
      h = (match r.alloc with | some k => (r.addr, k) :: s.heap | none => s.heap)
  | .size _ => p = s.pool ∧ h = s.heap
  | .push a n => p = s.pool ∧ h = s.heap ∧ n = s.pool.fsm a
  | .gave a => ∃ s', s.step (.put a) = .ok s' ∧ p = s'.pool ∧ h = s.heap

/-- The block a thread is giving back. -/
def putting : Pc → List Nat
  | .enter (.put a) | .size a | .push a _ | .gave a => [a]
  | _ => []

theorem micro_test (p : Pool) (fresh n0 k : Nat) :
    micro p fresh (.test n0 k) = .ok (p, if stackAt p k = [] then .count n0 k else .top n0 k, none) := rfl

theorem micro_top (p : Pool) (fresh n0 k a : Nat) (st : List Nat) (h : stackAt p k = a :: st) :
    micro p fresh (.top n0 k) = .ok (p, .pop n0 k a, none) := by
  show (match stackAt p k with | [] => Outcome.ub | a :: _ => _) = _
  rw [h]
  rfl

theorem micro_pop (p : Pool) (fresh n0 k a : Nat) (h : stackAt p k ≠ []) :
    micro p fresh (.pop n0 k a) = .ok ({ p with classes := Pool.modifyAt p.classes k List.tail }, .got n0 a, none) := by
  show (Outcome.ubUnless (stackAt p k ≠ []) >>= _) = _
  rw [Outcome.ubUnless_true h]
  rfl

theorem micro_push (p : Pool) (fresh a n : Nat) (h : (Pool.lowerBound p.classes n).isSome = true) :
    micro p fresh (.push a n) = .ok ({ p with classes := Pool.modifyAt p.classes n (a :: ·) }, .gave a, none) := by
  show (Outcome.assert ((Pool.lowerBound p.classes n).isSome = true) >>= _) = _
  rw [Outcome.assert_true h]
  rfl

theorem exists_fresh (l : List Nat) : ∃ f, f ∉ l := by
  have h : ∀ l : List Nat, ∃ m, ∀ x ∈ l, x ≤ m := by
    intro l
    induction l with
    | nil => exact ⟨0, by simp⟩
    | cons a l ih =>
      obtain ⟨m, hm⟩ := ih
      refine ⟨a + m, fun x hx => ?_⟩
      rcases List.mem_cons.1 hx with rfl | hx
      · omega
      · have := hm x hx; omega
  obtain ⟨m, hm⟩ := h l
  exact ⟨m + 1, fun hx => by have := hm _ hx; omega⟩

/-- One statement inside a call. -/
theorem within_micro {s : PoolWorld} (hs : PoolInv s) {p : Pool} {h : List (Nat × Nat)} {pc : Pc} (hw : Within s p h pc)
    (hne : ∀ n a, pc ≠ .got n a) (hne' : ∀ a, pc ≠ .gave a)
    (hp : ∀ a ∈ putting pc, a ∈ s.held) {fresh : Nat} (hf : (∃ n0 k, pc = .alloc n0 k) → fresh ∉ h.map Prod.fst) :
    ∃ p' pc' al, micro p fresh pc = .ok (p', pc', al) ∧ pc'.inside = true ∧ putting pc' = putting pc ∧
      Within s p' (grown h fresh al) pc' := by
  cases pc with
  | idle => exact hw.elim
  | enter c => exact hw.elim
  | got n a => exact absurd rfl (hne n a)
  | gave a => exact absurd rfl (hne' a)
  | pad n0 =>
    obtain ⟨rfl, rfl⟩ := hw
    unfold micro
    rw [Outcome.assert_true hs.alive]
    exact ⟨_, _, _, rfl, rfl, rfl, rfl, rfl, rfl⟩
  | find n0 n =>
    obtain ⟨rfl, rfl, rfl⟩ := hw
    unfold micro
    simp only
    cases e : Pool.lowerBound s.pool.classes (n0 + padOf s.pool n0) with
    | none =>
      have hc : classesAfter s.pool n0 = s.pool.classes ++ [(n0 + padOf s.pool n0, [])] := by unfold classesAfter; rw [e]
      exact ⟨_, _, _, rfl, rfl, rfl, rfl, by rw [hc], [], by rw [hc]; exact lowerBound_append e⟩
    | some v =>
      have hc : classesAfter s.pool n0 = s.pool.classes := by unfold classesAfter; rw [e]
      obtain ⟨k, st⟩ := v
      exact ⟨_, _, _, rfl, rfl, rfl, rfl, by rw [hc], st, by rw [hc]; exact e⟩
  | test n0 k =>
    obtain ⟨rfl, hpe, st, e⟩ := hw
    have e' : stackAt p k = st := stackAt_eq (by rw [hpe]; exact e)
    rw [micro_test, e']
    cases st with
    | nil => exact ⟨_, _, _, rfl, rfl, rfl, rfl, hpe, e⟩
    | cons a st => exact ⟨_, _, _, rfl, rfl, rfl, rfl, hpe, a, st, e⟩
  | count n0 k =>
    obtain ⟨rfl, rfl, e⟩ := hw
    exact ⟨_, _, _, rfl, rfl, rfl, rfl, rfl, e⟩
  | alloc n0 k =>
    obtain ⟨rfl, rfl, e⟩ := hw
    have hfr := hf ⟨n0, k, rfl⟩
    refine ⟨_, _, _, rfl, rfl, rfl, fresh, ?_⟩
    have hl : s.Legal (.get n0 fresh) := hfr
    unfold Pool.get
    rw [Outcome.assert_true hs.alive]
    simp only [Outcome.ok_bind]
    have hpad : (if s.pool.pad = 0 then n0 / 10 else s.pool.pad) = padOf s.pool n0 := rfl
    simp only [hpad]
    cases e1 : Pool.lowerBound s.pool.classes (n0 + padOf s.pool n0) with
    | none =>
      have hc : classesAfter s.pool n0 = s.pool.classes ++ [(n0 + padOf s.pool n0, [])] := by unfold classesAfter; rw [e1]
      rw [hc, lowerBound_append e1] at e
      injection e with e
      injection e with e _
      subst e
      refine ⟨_, hl, rfl, rfl, ?_, rfl⟩
      simp only [hc]
    | some v =>
      have hc : classesAfter s.pool n0 = s.pool.classes := by unfold classesAfter; rw [e1]
      rw [hc, e1] at e
      injection e with e
      subst e
      refine ⟨_, hl, rfl, rfl, ?_, rfl⟩
      simp only [hc]
  | top n0 k =>
    obtain ⟨rfl, hpe, a, st, e⟩ := hw
    have e' : stackAt p k = a :: st := stackAt_eq (by rw [hpe]; exact e)
    exact ⟨_, _, _, micro_top _ _ _ _ _ _ e', rfl, rfl, rfl, hpe, st, e⟩
  | pop n0 k a =>
    obtain ⟨rfl, hpe, st, e⟩ := hw
    have e' : stackAt p k = a :: st := stackAt_eq (by rw [hpe]; exact e)
    refine ⟨_, _, _, micro_pop _ _ _ _ _ (by rw [e']; simp), rfl, rfl, ?_⟩
    subst hpe
    obtain ⟨fr, hfr⟩ := exists_fresh (s.heap.map Prod.fst)
    refine ⟨fr, ?_⟩
    have hl : s.Legal (.get n0 fr) := hfr
    unfold Pool.get
    rw [Outcome.assert_true hs.alive]
    simp only [Outcome.ok_bind]
    have hpad : (if s.pool.pad = 0 then n0 / 10 else s.pool.pad) = padOf s.pool n0 := rfl
    simp only [hpad]
    cases e1 : Pool.lowerBound s.pool.classes (n0 + padOf s.pool n0) with
    | none =>
      have hc : classesAfter s.pool n0 = s.pool.classes ++ [(n0 + padOf s.pool n0, [])] := by unfold classesAfter; rw [e1]
      rw [hc, lowerBound_append e1] at e
      injection e with e
      injection e with _ e
      cases e
    | some v =>
      have hc : classesAfter s.pool n0 = s.pool.classes := by unfold classesAfter; rw [e1]
      rw [hc, e1] at e
      injection e with e
      subst e
      refine ⟨_, hl, rfl, rfl, ?_, rfl⟩
      simp only [hc]
      rw [modifyAt_key e1]
  | size a =>
    obtain ⟨rfl, rfl⟩ := hw
    unfold micro
    rw [hs.alive]
    exact ⟨_, _, _, rfl, rfl, rfl, rfl, rfl, rfl⟩
  | push a n =>
    obtain ⟨rfl, rfl, rfl⟩ := hw
    obtain ⟨s', e1, -, -, -⟩ := poolInv_put hs (hp a (List.mem_singleton.2 rfl))
    have e2 := e1
    unfold PoolWorld.step Pool.put at e2
    simp only [hs.alive, Bool.false_eq_true, if_false] at e2
    by_cases hb : (Pool.lowerBound s.pool.classes (s.pool.fsm a)).isSome = true
    · rw [Outcome.assert_true hb] at e2
      refine ⟨_, _, _, micro_push _ _ _ _ hb, rfl, rfl, s', e1, ?_, rfl⟩
      simp only [Outcome.ok_bind, Outcome.pure_eq] at e2
      injection e2 with e2
      rw [← e2, hs.alive]
    · rw [Outcome.assert_false hb] at e2
      cases e2

/-! ## The invariant -/

/-- The invariant of executions in which all calls use the store's mutex, with the sequential world `s` after
the calls finished so far. -/
structure InvS (w : World) (s : PoolWorld) : Prop where
  seq : Sequential w.log s
  guard : ∀ (t : Nat) (g : Guard) (pc : Pc), w.threads[t]? = some (g, pc) → pc ≠ Pc.idle → g = Guard.store
  owner : ∀ (t : Nat) (g : Guard) (pc : Pc), w.threads[t]? = some (g, pc) → pc.inside = true → w.storeMutex = some t
  lock : ∀ t : Nat, w.storeMutex = some t → ∃ g pc, w.threads[t]? = some (g, pc) ∧ pc.inside = true ∧ Within s w.pool w.heap pc
  free : w.storeMutex = none → w.pool = s.pool ∧ w.heap = s.heap
  perm : s.held.Perm (w.held.map Prod.fst ++ w.threads.flatMap (fun x => putting x.2))
  sizes : ∀ b ∈ w.held, ∃ k, (b.1, k) ∈ s.heap ∧ b.2 ≤ k
  grow : ∀ b ∈ s.heap, b ∈ w.heap

theorem sequential_reach {l : List Done} {s : PoolWorld} (h : Sequential l s) : PoolWorld.Reach s := by
  induction h with
  | nil => exact .init
  | got _ hl _ hs ih => exact .step ih hl hs
  | gave _ hl hs ih => exact .step ih hl hs

theorem invS_init (N : Nat) : InvS (World.init N) PoolWorld.init where
  seq := .nil
  guard := by
    intro t g pc h hne
    simp only [World.init, List.getElem?_replicate] at h
    split at h
    · injection h with h; injection h with h1 h2; exact absurd h2.symm hne
    · cases h
  owner := by
    intro t g pc h hne
    simp only [World.init, List.getElem?_replicate] at h
    split at h
    · injection h with h; injection h with h1 h2; subst h2; cases hne
    · cases h
  lock := nofun
  free := fun _ => ⟨rfl, rfl⟩
  perm := by
    have : (List.replicate N ((.bare, .idle) : Guard × Pc)).flatMap (fun x => putting x.2) = [] := by
      simp [List.flatMap_eq_nil_iff, putting]
    simp [World.init, this, PoolWorld.init]
  sizes := by simp [World.init]
  grow := by simp [PoolWorld.init]

theorem flatMap_set {α β : Type} (f : α → List β) {l : List α} {i : Nat} {x y : α} (h : l[i]? = some x) :
    ∃ l1 l2, l.flatMap f = l1 ++ f x ++ l2 ∧ (l.set i y).flatMap f = l1 ++ f y ++ l2 := by
  induction l generalizing i with
  | nil => cases h
  | cons a l ih =>
    cases i with
    | zero =>
      simp only [List.getElem?_cons_zero, Option.some.injEq] at h
      subst h
      exact ⟨[], l.flatMap f, by simp, by simp⟩
    | succ i =>
      simp only [List.getElem?_cons_succ] at h
      obtain ⟨l1, l2, h1, h2⟩ := ih h
      exact ⟨f a ++ l1, l2, by simp [h1], by simp [h2]⟩

theorem getElem?_set_self' {α : Type} {l : List α} {i : Nat} {x y : α} (h : l[i]? = some x) : (l.set i y)[i]? = some y := by
  rw [List.getElem?_set_self]
  exact (List.getElem?_eq_some_iff.1 h).1

/-- Threads after one of them moved on. -/
theorem thread_cases {w : World} {t : Nat} {g g' : Guard} {pc pc' : Pc} {x : Guard × Pc} (ht : w.threads[t]? = some x)
    {t' : Nat} (h : (w.threads.set t (g, pc))[t']? = some (g', pc')) :
    (t' = t ∧ g' = g ∧ pc' = pc) ∨ (t' ≠ t ∧ w.threads[t']? = some (g', pc')) := by
  by_cases e : t' = t
  · subst e
    rw [getElem?_set_self' ht] at h
    injection h with h
    injection h with h1 h2
    exact .inl ⟨rfl, h1.symm, h2.symm⟩
  · rw [List.getElem?_set_ne (Ne.symm e)] at h
    exact .inr ⟨e, h⟩

/-- Every enabled event succeeds and keeps the invariant. -/
theorem invS_step {w : World} {s : PoolWorld} (hi : InvS w s) {e : Ev} (he : w.Enabled e)
    (hg : ∀ t g c, e = .call t g c → g = .store) : ∃ w' s', w.step e = .ok w' ∧ InvS w' s' := by
  have hps : PoolInv s := poolInv_reach (sequential_reach hi.seq)
  cases e with
  | call t g c =>
    obtain rfl := hg t g c rfl
    refine ⟨_, s, rfl, ?_⟩
    obtain ⟨h1, h2⟩ := he
    cases ht : w.threads[t]? with
    | none => rw [ht] at h1; exact h1.elim
    | some x =>
    obtain ⟨g0, pc0⟩ := x
    rw [ht] at h1
    have hpc : pc0 = .idle := by cases pc0 <;> first | rfl | exact h1.elim
    subst hpc
    constructor
    · exact hi.seq
    · intro t' g' pc' h hne
      rcases thread_cases ht h with ⟨-, e, -⟩ | ⟨-, h⟩
      · exact e
      · exact hi.guard _ _ _ h hne
    · intro t' g' pc' h hin
      rcases thread_cases ht h with ⟨-, -, e⟩ | ⟨-, h⟩
      · subst e; cases hin
      · exact hi.owner _ _ _ h hin
    · intro t' h
      obtain ⟨g', pc', a1, a2, a3⟩ := hi.lock t' h
      have : t' ≠ t := by
        rintro rfl
        rw [ht] at a1
        injection a1 with a1
        injection a1 with _ a1
        subst a1
        cases a2
      exact ⟨g', pc', by show (w.threads.set t _)[t']? = _; rw [List.getElem?_set_ne (Ne.symm this)]; exact a1, a2, a3⟩
    · exact hi.free
    · obtain ⟨l1, l2, b1, b2⟩ := flatMap_set (fun x : Guard × Pc => putting x.2) (y := (Guard.store, Pc.enter c)) ht
      have hp := hi.perm
      rw [b1] at hp
      show s.held.Perm (_ ++ (w.threads.set t (Guard.store, Pc.enter c)).flatMap _)
      rw [b2]
      cases c with
      | get n => exact hp
      | put a =>
        obtain ⟨b, hb, hba⟩ := List.mem_map.1 h2
        have hpe : (w.held.map Prod.fst).Perm (a :: (w.held.eraseP (fun b => b.1 == a)).map Prod.fst) := by
          have := List.exists_of_eraseP (p := fun b : Nat × Nat => b.1 == a) hb (by simpa using hba)
          obtain ⟨x, k1, k2, -, k3, k4, k5⟩ := this
          have k3 : x.1 = a := by simpa using k3
          rw [k5, k4]
          simp only [List.map_append, List.map_cons, k3]
          exact List.perm_middle
        refine hp.trans ((hpe.append_right _).trans ?_)
        simp only [putting, List.append_nil, List.append_assoc, List.cons_append, List.nil_append, setPc]
        refine List.perm_middle.symm.trans ?_
        refine List.Perm.append_left _ ?_
        exact List.perm_middle.symm
    · intro b hb
      apply hi.sizes b
      cases c with
      | get n => exact hb
      | put a => exact List.mem_of_mem_eraseP hb
    · exact hi.grow
  | go t fresh =>
    unfold World.Enabled at he
    cases ht : w.threads[t]? with
    | none => simp only [ht] at he
    | some x =>
    obtain ⟨g0, pc0⟩ := x
    simp only [ht] at he
    by_cases hidle : pc0 = .idle
    · subst hidle; exact he.elim
    obtain rfl := hi.guard _ _ _ ht hidle
    by_cases hent : ∃ c, pc0 = .enter c
    · obtain ⟨c, rfl⟩ := hent
      have hfree : w.storeMutex = none := he
      obtain ⟨f1, f2⟩ := hi.free hfree
      refine ⟨_, s, by unfold World.step; simp only [ht]; rfl, ?_⟩
      constructor
      · exact hi.seq
      · intro t' g' pc' h hne
        rcases thread_cases ht h with ⟨-, e, -⟩ | ⟨-, h⟩
        · exact e
        · exact hi.guard _ _ _ h hne
      · intro t' g' pc' h hin
        rcases thread_cases ht h with ⟨rfl, -, e⟩ | ⟨-, h⟩
        · rfl
        · have := hi.owner _ _ _ h hin
          rw [hfree] at this
          cases this
      · intro t' h
        have : t = t' := by simpa [setPc, setOwner] using h
        subst this
        refine ⟨_, _, getElem?_set_self' ht, by cases c <;> rfl, ?_⟩
        cases c
        · exact ⟨f1, f2⟩
        · exact ⟨f1, f2⟩
      · intro h; cases h
      · obtain ⟨l1, l2, b1, b2⟩ := flatMap_set (fun x : Guard × Pc => putting x.2)
          (y := (Guard.store, c.first)) ht
        have hp := hi.perm
        rw [b1] at hp
        show s.held.Perm (_ ++ (w.threads.set t _).flatMap _)
        rw [b2]
        cases c <;> exact hp
      · exact hi.sizes
      · exact hi.grow
    have hin : pc0.inside = true := by
      cases pc0 <;> first | rfl | exact absurd rfl hidle | exact absurd ⟨_, rfl⟩ hent
    have hown := hi.owner _ _ _ ht hin
    obtain ⟨g1, pc1, a1, -, a3⟩ := hi.lock t hown
    rw [ht] at a1
    injection a1 with a1
    injection a1 with _ a1
    subst a1
    have hother : ∀ (t' : Nat) (g' : Guard) (pc' : Pc), t' ≠ t → w.threads[t']? = some (g', pc') → pc'.inside = false := by
      intro t' g' pc' hne h
      by_contra hc
      have := hi.owner _ _ _ h (by simpa using hc)
      rw [hown] at this
      injection this with this
      exact hne this.symm
    by_cases hgot : ∃ n a, pc0 = .got n a
    · obtain ⟨n, a, rfl⟩ := hgot
      obtain ⟨fr, r, l1, l2, l3, l4, l5⟩ := a3
      obtain ⟨r', s', m1, m2, m3, m4, m5, ⟨k, m6, m7⟩, m8, m9, m10⟩ := poolInv_get hps (n := n) l1
      rw [l2] at m1
      injection m1 with m1
      subst m1
      have hheap : s'.heap = w.heap := by
        rw [l5]
        cases ea : r.alloc with
        | none => exact m10 ea
        | some k =>
          rw [m9 k ea]
          have : r.addr = fr := by
            unfold Pool.get at l2
            rw [Outcome.assert_true hps.alive] at l2
            simp only [Outcome.ok_bind] at l2
            split at l2
            · injection l2 with l2; rw [← l2]
            · injection l2 with l2; rw [← l2]
            · injection l2 with l2; rw [← l2] at ea; cases ea
          rw [this]
      refine ⟨_, s', by unfold World.step; simp only [ht]; rfl, ?_⟩
      constructor
      · have := Sequential.got (t := t) hi.seq l1 l2 m2
        rw [l3] at this
        exact this
      · intro t' g' pc' h hne
        rcases thread_cases ht h with ⟨-, e, -⟩ | ⟨-, h⟩
        · exact e
        · exact hi.guard _ _ _ h hne
      · intro t' g' pc' h hin
        rcases thread_cases ht h with ⟨rfl, -, e⟩ | ⟨hne, h⟩
        · subst e; cases hin
        · rw [hother _ _ _ hne h] at hin; cases hin
      · intro t' h; cases h
      · intro _
        exact ⟨by rw [m5]; exact l4, hheap.symm⟩
      · obtain ⟨l1', l2', b1, b2⟩ := flatMap_set (fun x : Guard × Pc => putting x.2) (y := (Guard.store, Pc.idle)) ht
        have hp := hi.perm
        rw [b1] at hp
        show s'.held.Perm (_ ++ (w.threads.set t _).flatMap _)
        rw [b2, m4, l3]
        exact List.Perm.cons a hp
      · intro b hb
        have hb : b = (a, n) ∨ b ∈ w.held := by simpa [setPc, setOwner] using hb
        rcases hb with rfl | hb
        · exact ⟨k, by rw [← l3]; exact m6, m7⟩
        · obtain ⟨k, c1, c2⟩ := hi.sizes b hb
          exact ⟨k, by rw [hheap]; exact hi.grow _ c1, c2⟩
      · intro b hb
        show b ∈ w.heap
        rw [← hheap]
        exact hb
    by_cases hgave : ∃ a, pc0 = .gave a
    · obtain ⟨a, rfl⟩ := hgave
      obtain ⟨s', l1, l2, l3⟩ := a3
      obtain ⟨q1, q2, b1, b2⟩ := flatMap_set (fun x : Guard × Pc => putting x.2) (y := (Guard.store, Pc.idle)) ht
      have hp := hi.perm
      rw [b1] at hp
      have hmem : a ∈ s.held := hp.mem_iff.2 (by simp [putting])
      obtain ⟨s'', k1, k2, k3, k4⟩ := poolInv_put hps hmem
      rw [l1] at k1
      injection k1 with k1
      subst k1
      refine ⟨_, s', by unfold World.step; simp only [ht]; rfl, ?_⟩
      constructor
      · exact Sequential.gave (t := t) hi.seq hmem l1
      · intro t' g' pc' h hne
        rcases thread_cases ht h with ⟨-, e, -⟩ | ⟨-, h⟩
        · exact e
        · exact hi.guard _ _ _ h hne
      · intro t' g' pc' h hin
        rcases thread_cases ht h with ⟨rfl, -, e⟩ | ⟨hne, h⟩
        · subst e; cases hin
        · rw [hother _ _ _ hne h] at hin; cases hin
      · intro t' h; cases h
      · intro _
        exact ⟨l2, by rw [k4]; exact l3⟩
      · show s'.held.Perm (_ ++ (w.threads.set t _).flatMap _)
        rw [b2, k3]
        have h1 : s.held.Perm (a :: (w.held.map Prod.fst ++ (q1 ++ q2))) := by
          refine hp.trans ?_
          simp only [putting, List.append_assoc, List.cons_append, List.nil_append]
          rw [← List.append_assoc, ← List.append_assoc]
          exact List.perm_middle
        have h2 := h1.erase a
        rw [List.erase_cons_head] at h2
        simpa [putting, setPc, setOwner] using h2
      · intro b hb
        obtain ⟨k, c1, c2⟩ := hi.sizes b hb
        exact ⟨k, by rw [k4]; exact c1, c2⟩
      · intro b hb
        rw [k4] at hb
        exact hi.grow b hb
    · obtain ⟨q1, q2, b1, b2⟩ := flatMap_set (fun x : Guard × Pc => putting x.2) (y := (Guard.store, Pc.idle)) ht
      have hput : ∀ a ∈ putting pc0, a ∈ s.held := by
        intro a ha
        have hp := hi.perm
        rw [b1] at hp
        exact hp.mem_iff.2 (by simp [ha])
      obtain ⟨p', pc', al, c1, c2, c3, c4⟩ := within_micro hps a3 (fun n a h => hgot ⟨n, a, h⟩) (fun a h => hgave ⟨a, h⟩) hput
        (fresh := fresh) (by rintro ⟨n0, k, rfl⟩; exact he)
      have hstep : w.step (.go t fresh) = .ok ({ w with pool := p', heap := grown w.heap fresh al }.setPc t .store pc') := by
        unfold World.step
        simp only [ht]
        split
        · rename_i h; cases h
        · rename_i h; injection h with h; injection h with _ h; exact absurd h hidle
        · rename_i h; injection h with h; injection h with _ h; exact absurd ⟨_, h⟩ hent
        · rename_i h; injection h with h; injection h with _ h; exact absurd ⟨_, _, h⟩ hgot
        · rename_i h; injection h with h; injection h with _ h; exact absurd ⟨_, h⟩ hgave
        · rename_i h
          injection h with h
          injection h with h1 h2
          subst h1 h2
          rw [c1]
          rfl
      refine ⟨_, s, hstep, ?_⟩
      constructor
      · exact hi.seq
      · intro t' g' pc'' h hne
        rcases thread_cases ht h with ⟨-, e, -⟩ | ⟨-, h⟩
        · exact e
        · exact hi.guard _ _ _ h hne
      · intro t' g' pc'' h hin
        rcases thread_cases ht h with ⟨rfl, -, e⟩ | ⟨hne, h⟩
        · exact hown
        · rw [hother _ _ _ hne h] at hin; cases hin
      · intro t' h
        have : t' = t := by
          have h : w.storeMutex = some t' := h
          rw [hown] at h
          injection h with h
          exact h.symm
        subst this
        exact ⟨_, _, getElem?_set_self' ht, c2, c4⟩
      · intro h
        have h : w.storeMutex = none := h
        rw [hown] at h
        cases h
      · obtain ⟨l1, l2, b1, b2⟩ := flatMap_set (fun x : Guard × Pc => putting x.2) (y := (Guard.store, pc')) ht
        have hp := hi.perm
        rw [b1] at hp
        show s.held.Perm (_ ++ (w.threads.set t _).flatMap _)
        rw [b2]
        simp only [c3]
        exact hp
      · exact hi.sizes
      · intro b hb
        have := hi.grow b hb
        show b ∈ grown w.heap fresh al
        cases al
        · exact this
        · exact List.mem_cons_of_mem _ this

theorem invS_reach {N : Nat} {w : World} (h : Reach N (· = .store) w) : ∃ s, InvS w s := by
  induction h with
  | init => exact ⟨_, invS_init N⟩
  | step _ he hg hs ih =>
    obtain ⟨s, hi⟩ := ih
    obtain ⟨w', s', h1, h2⟩ := invS_step hi he hg
    rw [hs] at h1
    injection h1 with h1
    subst h1
    exact ⟨s', h2⟩

end StoreMT
end SpatialOps
