import Verif.Pool.Spec
import Mathlib.Data.List.Perm.Basic
import Mathlib.Data.List.Nodup

/-!
# Properties C13, C14: the memory pool
-/

namespace SpatialOps
open PoolWorld

/-! ## Lemmas -/

namespace Pool

theorem lowerBound_mem {cs : List (Nat × List Nat)} {n : Nat} {e} (h : lowerBound cs n = some e) :
    e ∈ cs ∧ n ≤ e.1 := by
  unfold lowerBound at h
  exact ⟨List.mem_of_find?_eq_some h, by simpa using List.find?_some h⟩

theorem lowerBound_none {cs : List (Nat × List Nat)} {n : Nat} (h : lowerBound cs n = none) :
    ∀ e ∈ cs, e.1 < n := by
  unfold lowerBound at h
  rw [List.find?_eq_none] at h
  intro e he
  have := h e he
  simp at this
  omega

/-- `modifyAt` touches only the entry found by `lowerBound`. -/
theorem modifyAt_split {cs : List (Nat × List Nat)} {n : Nat} {k : Nat} {st : List Nat}
    (h : lowerBound cs n = some (k, st)) (f : List Nat → List Nat) :
    ∃ pre post, cs = pre ++ (k, st) :: post ∧ (∀ e ∈ pre, e.1 < n) ∧
      modifyAt cs n f = pre ++ (k, f st) :: post := by
  induction cs with
  | nil => cases h
  | cons e es ih =>
    unfold lowerBound at h
    rw [List.find?_cons] at h
    by_cases c : n ≤ e.1
    · simp only [c, decide_true] at h
      injection h with h
      subst h
      exact ⟨[], es, rfl, by simp, by simp [modifyAt, c]⟩
    · simp only [c, decide_false] at h
      obtain ⟨pre, post, h1, h2, h3⟩ := ih h
      refine ⟨e :: pre, post, by rw [h1]; rfl, ?_, ?_⟩
      · intro a ha
        rcases List.mem_cons.1 ha with rfl | ha
        · omega
        · exact h2 a ha
      · simp only [modifyAt, if_neg c, h3, List.cons_append]

end Pool

/-- The invariant. -/
structure PoolInv (w : PoolWorld) : Prop where
  alive : w.pool.destroyed = false
  sorted : (w.pool.classes.map Prod.fst).Pairwise (· < ·)
  perm : (w.pool.queued ++ w.held).Perm (w.heap.map Prod.fst)
  nodup : (w.heap.map Prod.fst).Nodup
  sized : ∀ e ∈ w.pool.classes, ∀ a ∈ e.2, (a, e.1) ∈ w.heap
  fsm : ∀ b ∈ w.heap, w.pool.fsm b.1 = b.2
  keys : ∀ b ∈ w.heap, b.2 ∈ w.pool.classes.map Prod.fst
  high : w.pool.highWater = w.heap.length

theorem poolInv_init : PoolInv PoolWorld.init :=
  ⟨rfl, by simp [PoolWorld.init, Pool.init], by simp [PoolWorld.init, Pool.init, Pool.queued],
   by simp [PoolWorld.init], by simp [PoolWorld.init, Pool.init], by simp [PoolWorld.init],
   by simp [PoolWorld.init], rfl⟩

/-- `get` keeps the invariant; details of what it returned. -/
theorem poolInv_get {w : PoolWorld} (hw : PoolInv w) {n fresh : Nat}
    (hl : fresh ∉ w.heap.map Prod.fst) :
    ∃ r w', w.pool.get n fresh = .ok r ∧ w.step (.get n fresh) = .ok w' ∧ PoolInv w' ∧
      w'.held = r.addr :: w.held ∧ w'.pool = r.pool ∧
      (∃ k, (r.addr, k) ∈ w'.heap ∧ n ≤ k) ∧ r.addr ∉ w.held ∧
      (∀ k, r.alloc = some k → w'.heap = (fresh, k) :: w.heap) ∧
      (r.alloc = none → w'.heap = w.heap) := by
  obtain ⟨h1, h2, h3, h4, h5, h6, h7, h8⟩ := hw
  have hfheld : fresh ∉ w.held := fun h =>
    hl ((h3.mem_iff).1 (List.mem_append.2 (Or.inr h)))
  unfold PoolWorld.step Pool.get
  rw [Outcome.assert_true h1]
  simp only [Outcome.ok_bind, Outcome.pure_eq]
  generalize hpad : (if w.pool.pad = 0 then n / 10 else w.pool.pad) = pad
  cases hlb : Pool.lowerBound w.pool.classes (n + pad) with
  | none =>
    have hlt := Pool.lowerBound_none hlb
    refine ⟨_, _, rfl, rfl, ?_, rfl, rfl, ⟨n + pad, by simp, by omega⟩, hfheld, ?_, ?_⟩
    · refine ⟨h1, ?_, ?_, ?_, ?_, ?_, ?_, ?_⟩
      · simp only [List.map_append, List.map_cons, List.map_nil, List.pairwise_append]
        refine ⟨h2, List.pairwise_singleton _ _, ?_⟩
        intro a ha b hb
        obtain ⟨e, he, rfl⟩ := List.mem_map.1 ha
        rw [List.mem_singleton.1 hb]; exact hlt e he
      · simp only [Pool.queued, List.flatMap_append, List.flatMap_cons, List.flatMap_nil,
          List.append_nil, List.map_cons]
        exact List.perm_middle.trans (h3.cons _)
      · simpa using ⟨by simpa using hl, h4⟩
      · intro e he a ha
        rcases List.mem_append.1 he with he | he
        · exact List.mem_cons_of_mem _ (h5 e he a ha)
        · rw [List.mem_singleton.1 he] at ha; simp at ha
      · intro b hb
        rcases List.mem_cons.1 hb with rfl | hb
        · simp
        · have hne : b.1 ≠ fresh := fun h => hl (h ▸ List.mem_map_of_mem hb)
          simp [hne, h6 b hb]
      · intro b hb
        rcases List.mem_cons.1 hb with rfl | hb
        · simp
        · have := h7 b hb
          simp only [List.map_append, List.mem_append]; exact Or.inl this
      · simp [h8]
    · intro k hk; injection hk with hk; subst hk; rfl
    · intro hk; cases hk
  | some e =>
    obtain ⟨k, st⟩ := e
    obtain ⟨hmem, hle⟩ := Pool.lowerBound_mem hlb
    simp only at hle
    cases st with
    | nil =>
      refine ⟨_, _, rfl, rfl, ?_, rfl, rfl, ⟨k, by simp, by omega⟩, hfheld, ?_, ?_⟩
      · refine ⟨h1, h2, ?_, ?_, ?_, ?_, ?_, ?_⟩
        · simp only [Pool.queued, List.map_cons]
          exact List.perm_middle.trans (h3.cons _)
        · simpa using ⟨by simpa using hl, h4⟩
        · intro e he a ha; exact List.mem_cons_of_mem _ (h5 e he a ha)
        · intro b hb
          rcases List.mem_cons.1 hb with rfl | hb
          · simp
          · have hne : b.1 ≠ fresh := fun h => hl (h ▸ List.mem_map_of_mem hb)
            simp [hne, h6 b hb]
        · intro b hb
          rcases List.mem_cons.1 hb with rfl | hb
          · exact List.mem_map_of_mem hmem
          · exact h7 b hb
        · simp [h8]
      · intro k' hk; injection hk with hk; subst hk; rfl
      · intro hk; cases hk
    | cons a as =>
      obtain ⟨pre, post, hc, hpre, hmod⟩ := Pool.modifyAt_split hlb List.tail
      have hkeys : ((Pool.modifyAt w.pool.classes (n + pad) List.tail).map Prod.fst) =
          w.pool.classes.map Prod.fst := by rw [hmod, hc]; simp
      have hperm' : (a :: ((Pool.modifyAt w.pool.classes (n + pad) List.tail).flatMap (·.2) ++ w.held)).Perm
          (w.pool.queued ++ w.held) := by
        rw [Pool.queued, hmod, hc]
        simp only [List.flatMap_append, List.flatMap_cons, List.tail_cons, List.cons_append,
          List.append_assoc]
        exact List.perm_middle.symm
      have hnd : (a :: ((Pool.modifyAt w.pool.classes (n + pad) List.tail).flatMap (·.2) ++ w.held)).Nodup :=
        (hperm'.trans h3).nodup_iff.2 h4
      refine ⟨_, _, rfl, rfl, ?_, rfl, rfl, ⟨k, h5 _ hmem a (by simp), by omega⟩, ?_, ?_, ?_⟩
      · refine ⟨h1, ?_, ?_, h4, ?_, h6, ?_, h8⟩
        · simp only [hkeys]; exact h2
        · refine List.Perm.trans ?_ (hperm'.trans h3)
          exact List.perm_middle
        · intro e he b hb
          simp only [hmod] at he
          rcases List.mem_append.1 he with he | he
          · exact h5 e (by rw [hc]; exact List.mem_append.2 (Or.inl he)) b hb
          · rcases List.mem_cons.1 he with rfl | he
            · exact h5 _ hmem b (List.mem_of_mem_tail hb)
            · exact h5 e (by rw [hc]; exact List.mem_append.2 (Or.inr (List.mem_cons_of_mem _ he))) b hb
        · intro b hb; simp only [hkeys]; exact h7 b hb
      · intro hh
        rw [List.nodup_cons] at hnd
        exact hnd.1 (List.mem_append.2 (Or.inr hh))
      · intro k' hk; cases hk
      · intro _; rfl

theorem sorted_find {cs : List (Nat × List Nat)} (hs : (cs.map Prod.fst).Pairwise (· < ·))
    {e : Nat × List Nat} (he : e ∈ cs) : Pool.lowerBound cs e.1 = some e := by
  induction cs with
  | nil => cases he
  | cons c cs ih =>
    rw [List.map_cons, List.pairwise_cons] at hs
    unfold Pool.lowerBound
    rw [List.find?_cons]
    rcases List.mem_cons.1 he with rfl | he
    · simp
    · have := hs.1 e.1 (List.mem_map_of_mem he)
      have hn : ¬ e.1 ≤ c.1 := by omega
      simp only [hn, decide_false]
      exact ih hs.2 he

/-- `put` of a held block succeeds and keeps the invariant. -/
theorem poolInv_put {w : PoolWorld} (hw : PoolInv w) {a : Nat} (hl : a ∈ w.held) :
    ∃ w', w.step (.put a) = .ok w' ∧ PoolInv w' ∧ w'.held = w.held.erase a ∧ w'.heap = w.heap := by
  obtain ⟨h1, h2, h3, h4, h5, h6, h7, h8⟩ := hw
  have hdom : a ∈ w.heap.map Prod.fst := h3.mem_iff.1 (List.mem_append.2 (Or.inr hl))
  obtain ⟨b, hb, hba⟩ := List.mem_map.1 hdom
  obtain ⟨e, he, hek⟩ := List.mem_map.1 (h7 b hb)
  have hfsm : w.pool.fsm a = b.2 := by rw [← hba]; exact h6 b hb
  have hlb : Pool.lowerBound w.pool.classes (w.pool.fsm a) = some (e.1, e.2) := by
    rw [hfsm, ← hek]; exact sorted_find h2 he
  obtain ⟨pre, post, hc, hpre, hmod⟩ := Pool.modifyAt_split hlb (a :: ·)
  unfold PoolWorld.step Pool.put
  dsimp only
  rw [if_neg (by simp [h1])]
  rw [hlb]
  simp only [Option.isSome_some, Outcome.assert_true, Outcome.ok_bind, Outcome.pure_eq]
  refine ⟨_, rfl, ?_, rfl, rfl⟩
  have hkeys : ((Pool.modifyAt w.pool.classes (w.pool.fsm a) (a :: ·)).map Prod.fst) =
      w.pool.classes.map Prod.fst := by rw [hmod, hc]; simp
  refine ⟨h1, ?_, ?_, h4, ?_, h6, ?_, h8⟩
  · simp only [hkeys]; exact h2
  · refine List.Perm.trans ?_ h3
    have : (w.pool.queued ++ w.held).Perm (w.pool.queued ++ (a :: w.held.erase a)) :=
      (List.perm_cons_erase hl).append_left _
    refine List.Perm.trans ?_ this.symm
    simp only [Pool.queued, hmod]
    rw [hc]
    simp only [List.flatMap_append, List.flatMap_cons, List.append_assoc, List.cons_append]
    apply List.Perm.append_left
    have q : ∀ (X Y Z : List Nat), (a :: (X ++ (Y ++ Z))).Perm (X ++ (Y ++ a :: Z)) := by
      intro X Y Z
      rw [← List.append_assoc, ← List.append_assoc]
      exact List.perm_middle.symm
    exact q _ _ _
  · intro e' he' x hx
    simp only [hmod] at he'
    rcases List.mem_append.1 he' with he' | he'
    · exact h5 e' (by rw [hc]; exact List.mem_append.2 (Or.inl he')) x hx
    · rcases List.mem_cons.1 he' with rfl | he'
      · rcases List.mem_cons.1 hx with rfl | hx
        · simp only
          have hb2 : (b.1, b.2) ∈ w.heap := hb
          rw [hba] at hb2; rw [hek]; exact hb2
        · exact h5 e he x hx
      · exact h5 e' (by rw [hc]; exact List.mem_append.2 (Or.inr (List.mem_cons_of_mem _ he'))) x hx
  · intro b' hb'; simp only [hkeys]; exact h7 b' hb'

theorem poolInv_reach {w : PoolWorld} (h : Reach w) : PoolInv w := by
  induction h with
  | init => exact poolInv_init
  | @step w w' e _ hl hs ih =>
    cases e with
    | get n fresh =>
      obtain ⟨_, w2, _, h2, h3, _⟩ := poolInv_get ih (n := n) hl
      rw [hs] at h2; injection h2 with h2; subst h2; exact h3
    | put a =>
      obtain ⟨w2, h2, h3, _⟩ := poolInv_put ih hl
      rw [hs] at h2; injection h2 with h2; subst h2; exact h3

/-! ## C13 -/

/-- C13 (no aliasing, large enough). In every reachable world a `get` succeeds;
the block it returns is held by nobody, its real size is at least the request,
and the blocks held afterwards are pairwise different. -/
theorem C13_get_fresh_and_large (w : PoolWorld) (hw : Reach w) (n fresh : Nat)
    (hl : w.Legal (.get n fresh)) :
    ∃ w' a k, w.step (.get n fresh) = .ok w' ∧ w'.held = a :: w.held ∧ a ∉ w.held ∧
      (a, k) ∈ w'.heap ∧ n ≤ k ∧ w'.held.Nodup := by
  obtain ⟨r, w', _, h2, h3, h4, _, ⟨k, h5, h6⟩, h7, _⟩ := poolInv_get (poolInv_reach hw) (n := n) hl
  refine ⟨w', r.addr, k, h2, h4, h7, h5, h6, ?_⟩
  have := h3.perm.nodup_iff.2 h3.nodup
  exact (List.nodup_append.1 this).2.1

/-- C13 (reuse). Giving back a held block never fails; only that block leaves
the users' hands, and no memory is lost: every allocated block is either held or
queued for reuse, exactly once. -/
theorem C13_put_returns (w : PoolWorld) (hw : Reach w) (a : Nat) (hl : w.Legal (.put a)) :
    ∃ w', w.step (.put a) = .ok w' ∧ w'.held = w.held.erase a ∧ w'.heap = w.heap ∧
      a ∉ w'.held ∧ a ∈ w'.pool.queued ∧ (w'.pool.queued ++ w'.held).Perm (w'.heap.map Prod.fst) := by
  have hi := poolInv_reach hw
  obtain ⟨w', h1, h2, h3, h4⟩ := poolInv_put hi hl
  have hnd := (List.nodup_append.1 (hi.perm.nodup_iff.2 hi.nodup)).2.1
  have hna : a ∉ w'.held := by rw [h3]; exact hnd.not_mem_erase
  refine ⟨w', h1, h3, h4, hna, ?_, h2.perm⟩
  have : a ∈ w'.heap.map Prod.fst := by
    rw [h4]; exact hi.perm.mem_iff.1 (List.mem_append.2 (Or.inr hl))
  rcases List.mem_append.1 (h2.perm.mem_iff.2 this) with h | h
  · exact h
  · exact absurd h hna

/-- C13 (block sizes never shrink below a request): a block's real size is
fixed, whoever holds it. The recorded sizes of reachable worlds are unique. -/
theorem C13_block_has_one_size (w : PoolWorld) (hw : Reach w) (a k k' : Nat)
    (h : (a, k) ∈ w.heap) (h' : (a, k') ∈ w.heap) : k = k' := by
  have hi := poolInv_reach hw
  have e1 := hi.fsm _ h
  have e2 := hi.fsm _ h'
  simp only at e1 e2
  omega

/-- Outside the assumption: giving the same block back twice is not detected,
and two users then get the same memory. -/
theorem C13_double_put_aliases :
    ∃ p1 p2 p3 r4 r5, Pool.init.get 20 1 = .ok p1 ∧ p1.pool.put 1 = .ok p2 ∧ p2.put 1 = .ok p3 ∧
      p3.get 20 2 = .ok r4 ∧ r4.pool.get 20 2 = .ok r5 ∧ r4.addr = r5.addr :=
  ⟨_, _, _, _, _, rfl, rfl, rfl, rfl, rfl, rfl⟩

/-- Destroying the pool frees each queued block once and never a held one;
`put` after that is ignored and `get` fails an assertion. -/
theorem C13_destroy (w : PoolWorld) (hw : Reach w) :
    (w.pool.destroy).2.Nodup ∧ (∀ a ∈ w.held, a ∉ (w.pool.destroy).2) ∧
    (∀ a, (w.pool.destroy).1.put a = .ok (w.pool.destroy).1) ∧
    (∀ n f, (w.pool.destroy).1.get n f = .abort) := by
  have hi := poolInv_reach hw
  have hnd := List.nodup_append.1 (hi.perm.nodup_iff.2 hi.nodup)
  refine ⟨hnd.1, fun a ha hq => hnd.2.2 a hq a ha rfl, fun a => by simp [Pool.destroy, Pool.put], fun n f => ?_⟩
  unfold Pool.get
  rw [Outcome.assert_false (by simp [Pool.destroy])]
  rfl

/-! ## C14 -/

/-- C14. In every reachable world `active()` is the number of blocks held by
users and `total()` the number of blocks ever allocated. -/
theorem C14_accounting (w : PoolWorld) (hw : Reach w) :
    w.pool.active = w.held.length ∧ w.pool.total = w.heap.length := by
  have hi := poolInv_reach hw
  have := hi.perm.length_eq
  simp only [List.length_append, List.length_map] at this
  refine ⟨?_, hi.high⟩
  unfold Pool.active
  rw [hi.high]
  omega

/-- C14. `get` allocates exactly when the smallest size class that can serve the
padded request (or no class at all) has no free block. -/
theorem C14_allocates_only_if_needed (w : PoolWorld) (hw : Reach w) (n fresh : Nat)
    (hl : w.Legal (.get n fresh)) :
    ∃ w' pad, w.step (.get n fresh) = .ok w' ∧
      pad = (if w.pool.pad = 0 then n / 10 else w.pool.pad) ∧
      (w'.heap ≠ w.heap ↔
        ∀ e ∈ w.pool.classes, n + pad ≤ e.1 → (∀ e' ∈ w.pool.classes, n + pad ≤ e'.1 → e.1 ≤ e'.1) →
          e.2 = []) := by
  have hi := poolInv_reach hw
  have smallest : ∀ {m : Nat} {e}, Pool.lowerBound w.pool.classes m = some e →
      ∀ e' ∈ w.pool.classes, m ≤ e'.1 → e.1 ≤ e'.1 := by
    intro m e h e' he' hm
    by_cases c : e'.1 < e.1
    · exfalso
      obtain ⟨pre, post, hc, hpre, _⟩ := Pool.modifyAt_split (k := e.1) (st := e.2) h id
      have hs := hi.sorted
      rw [hc] at hs he'
      rcases List.mem_append.1 he' with hh | hh
      · have := hpre e' hh; omega
      · rcases List.mem_cons.1 hh with rfl | hh
        · omega
        · simp only [List.map_append, List.map_cons, List.pairwise_append, List.pairwise_cons] at hs
          have := hs.2.1.1 e'.1 (List.mem_map_of_mem hh)
          omega
    · omega
  have key_inj : ∀ e ∈ w.pool.classes, ∀ e' ∈ w.pool.classes, e.1 = e'.1 → e = e' := by
    intro e he e' he' hk
    have h1 := sorted_find hi.sorted he
    have h2 := sorted_find hi.sorted he'
    rw [hk, h2] at h1
    injection h1 with h1; exact h1.symm
  obtain ⟨r, w', hg, h2, _, _, _, _, _, h8, h9⟩ := poolInv_get hi (n := n) hl
  refine ⟨w', _, h2, rfl, ?_⟩
  unfold Pool.get at hg
  rw [Outcome.assert_true hi.alive] at hg
  simp only [Outcome.ok_bind, Outcome.pure_eq] at hg
  generalize (if w.pool.pad = 0 then n / 10 else w.pool.pad) = pad at *
  cases hlb : Pool.lowerBound w.pool.classes (n + pad) with
  | none =>
    have := Pool.lowerBound_none hlb
    rw [hlb] at hg
    injection hg with hg
    have hne : w'.heap ≠ w.heap := by
      rw [h8 (n + pad) (by rw [← hg])]
      intro hh
      exact hl (by rw [← hh]; simp)
    exact ⟨fun _ e he hle => by have := this e he; omega, fun _ => hne⟩
  | some e =>
    obtain ⟨k, st⟩ := e
    have hmem := Pool.lowerBound_mem hlb
    have hsm := smallest hlb
    rw [hlb] at hg
    cases st with
    | nil =>
      injection hg with hg
      have hne : w'.heap ≠ w.heap := by
        rw [h8 k (by rw [← hg])]
        intro hh
        exact hl (by rw [← hh]; simp)
      refine ⟨fun _ e he hle hmin => ?_, fun _ => hne⟩
      have : e = (k, []) := key_inj e he _ hmem.1 (by
        have a1 := hsm e he hle
        have a2 := hmin _ hmem.1 hmem.2
        simp only at a1 a2 ⊢; omega)
      rw [this]
    | cons a as =>
      injection hg with hg
      have heq : w'.heap = w.heap := h9 (by rw [← hg])
      refine ⟨fun h => absurd heq h, fun h => ?_⟩
      have := h (k, a :: as) hmem.1 hmem.2 hsm
      cases this

/-! ## Non-vacuity -/

/-- A reachable world with reuse, several classes and held blocks. -/
example : ∃ w, Reach w ∧ w.held = [11, 12] ∧ w.pool.queued = [10] ∧ w.pool.active = 2 ∧ w.pool.total = 3 := by
  refine ⟨_, Reach.step (e := .put 10) (Reach.step (e := .get 30 99) (Reach.step (e := .put 11)
    (Reach.step (e := .get 50 12) (Reach.step (e := .get 100 11)
    (Reach.step (e := .get 20 10) Reach.init ?_ rfl) ?_ rfl) ?_ rfl) ?_ rfl) ?_ rfl) ?_ rfl, ?_⟩
  all_goals decide

end SpatialOps
