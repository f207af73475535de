import Verif.DevPool.Spec
import Verif.Pool.Props

/-!
# C55: the memory pool of a CUDA build
-/

namespace SpatialOps
namespace DWorld

/-- The world as seen by one memory type. -/
def proj (w : DWorld) (k : MemKind) : PoolWorld :=
  ⟨w.pool.side k, (w.heap k).map (fun b => (b.1, b.2.1)), w.held k⟩

theorem proj_addrs (w : DWorld) (k : MemKind) : (w.proj k).heap.map Prod.fst = w.addrs k := by
  simp [proj, addrs, Function.comp_def]

structure DInv (w : DWorld) : Prop where
  side : ∀ k, PoolInv (w.proj k)
  apart : ∀ a, a ∈ w.addrs .cpu → a ∉ w.addrs .gpu
  dev : ∀ b ∈ w.heap .gpu, b.2.2 = .device
  host : ∀ b ∈ w.heap .cpu, b.2.2 ≠ .device
  pin : w.pool.pinned = true ↔ ∀ b ∈ w.heap .cpu, b.2.2 = .pinned

theorem dInv_init : DInv init := by
  refine ⟨fun k => ?_, ?_, ?_, ?_, ?_⟩
  · have := poolInv_init
    simpa [proj, init, DPool.init, DPool.side, PoolWorld.init, Pool.init] using this
  all_goals simp [init, addrs, DPool.init]

/-- The invariant of one side does not depend on the padding, and only on the sizes
recorded for its own blocks. -/
theorem poolInv_other {w w' : PoolWorld} (h : PoolInv w) (hd : w'.pool.destroyed = w.pool.destroyed)
    (hc : w'.pool.classes = w.pool.classes) (hh : w'.pool.highWater = w.pool.highWater)
    (hf : ∀ a ∈ w.heap.map Prod.fst, w'.pool.fsm a = w.pool.fsm a) (h1 : w'.heap = w.heap)
    (h2 : w'.held = w.held) : PoolInv w' := by
  obtain ⟨i1, i2, i3, i4, i5, i6, i7, i8⟩ := h
  refine ⟨by rw [hd, i1], by rw [hc]; exact i2, ?_, by rw [h1]; exact i4, by rw [hc, h1]; exact i5, ?_,
    by rw [hc, h1]; exact i7, by rw [hh, h1]; exact i8⟩
  · unfold Pool.queued at i3 ⊢; rw [hc, h1, h2]; exact i3
  · intro b hb
    rw [h1] at hb
    rw [hf b.1 (List.mem_map_of_mem hb)]
    exact i6 b hb

theorem get_fsm {p : Pool} {n fresh : Nat} {r : GetResult} (h : p.get n fresh = .ok r) {a : Nat}
    (ha : a ≠ fresh) : r.pool.fsm a = p.fsm a := by
  unfold Pool.get at h
  simp only [Outcome.bind_eq_ok] at h
  obtain ⟨_, _, h⟩ := h
  split at h <;> (injection h with h; subst h; simp [ha])

theorem get_destroyed {p : Pool} {n fresh : Nat} {r : GetResult} (h : p.get n fresh = .ok r) :
    r.pool.destroyed = p.destroyed := by
  unfold Pool.get at h
  simp only [Outcome.bind_eq_ok] at h
  obtain ⟨_, _, h⟩ := h
  split at h <;> (injection h with h; subst h; rfl)

theorem get_addr {p : Pool} {n fresh : Nat} {r : GetResult} (h : p.get n fresh = .ok r) {s : Nat}
    (ha : r.alloc = some s) : r.addr = fresh := by
  unfold Pool.get at h
  simp only [Outcome.bind_eq_ok] at h
  obtain ⟨_, _, h⟩ := h
  split at h <;> (injection h with h; subst h; first | rfl | cases ha)

theorem put_facts {p q : Pool} {a : Nat} (h : p.put a = .ok q) :
    q.pad = p.pad ∧ q.fsm = p.fsm ∧ q.highWater = p.highWater ∧ q.destroyed = p.destroyed := by
  unfold Pool.put at h
  split at h
  · injection h with h; subst h; exact ⟨rfl, rfl, rfl, rfl⟩
  · simp only [Outcome.bind_eq_ok] at h
    obtain ⟨_, _, h⟩ := h
    injection h with h; subst h; exact ⟨rfl, rfl, rfl, rfl⟩

/-- A `get` in terms of the side it uses. -/
theorem step_get {w : DWorld} (hi : DInv w) {k : MemKind} {n fresh : Nat} {pinOk : Bool}
    (hl : ∀ k, fresh ∉ w.addrs k) :
    ∃ (r : GetResult) (w1 : PoolWorld) (w' : DWorld) (m : Alloc), (w.pool.side k).get n fresh = .ok r ∧
      w.step (.get k n fresh pinOk) = .ok w' ∧ DInv w' ∧ PoolInv w1 ∧ w'.proj k = w1 ∧
      w1.held = r.addr :: w.held k ∧ r.addr ∉ w.held k ∧
      (∃ s, (r.addr, s) ∈ w1.heap ∧ n ≤ s) ∧
      w'.held = (fun k' => if k' = k then r.addr :: w.held k else w.held k') ∧
      (∀ k', k' ≠ k → w'.heap k' = w.heap k') ∧
      (∀ s, r.alloc = some s → r.addr = fresh ∧ w'.heap k = (fresh, s, m) :: w.heap k) ∧
      (r.alloc = none → w'.heap k = w.heap k) := by
  have hf : fresh ∉ (w.proj k).heap.map Prod.fst := by rw [proj_addrs]; exact hl k
  obtain ⟨r, w1, e1, e2, i2, e3, e4, e5, e6, e7, e8⟩ := poolInv_get (hi.side k) (n := n) hf
  have hfsm : ∀ a, a ≠ fresh → r.pool.fsm a = w.pool.fsm a := fun a ha => get_fsm e1 ha
  have hdes : r.pool.destroyed = w.pool.destroyed := get_destroyed e1
  unfold step DPool.get
  simp only [proj] at e1
  dsimp only
  rw [e1, Outcome.ok_bind]
  cases hal : r.alloc with
  | none =>
    have h8 := e8 hal
    dsimp only
    have hp : (⟨w.pool.setSide k r.pool, fun k' => if k' = k then w.heap k else w.heap k',
        fun k' => if k' = k then r.addr :: w.held k else w.held k'⟩ : DWorld).proj k = w1 := by
      obtain ⟨wp, wh, wl⟩ := w1
      simp only at e3 e4 h8
      subst e3 e4 h8
      simp only [proj, DPool.side, DPool.setSide, if_true]
      rw [← hdes]
    refine ⟨r, w1, _, .device, rfl, rfl, ?_, i2, hp, e3, e6, e5, rfl, ?_, ?_, ?_⟩
    · refine ⟨fun k' => ?_, ?_, ?_, ?_, ?_⟩
      · by_cases hk : k' = k
        · subst hk; rw [hp]; exact i2
        · refine poolInv_other (hi.side k') rfl ?_ ?_ ?_ ?_ ?_
          · simp [proj, DPool.side, DPool.setSide, hk]
          · simp [proj, DPool.side, DPool.setSide, hk]
          · intro a ha
            rw [proj_addrs] at ha
            exact hfsm a (fun h => hl k' (h ▸ ha))
          · simp [proj, hk]
          · simp [proj, hk]
      · have : ∀ k', (if k' = k then w.heap k else w.heap k') = w.heap k' := by
          intro k'; split
          · next h => rw [h]
          · rfl
        intro a ha
        simp only [addrs, this] at ha ⊢
        exact hi.apart a ha
      · intro b hb
        exact hi.dev b (by dsimp only at hb; split at hb <;> simp_all)
      · intro b hb
        exact hi.host b (by dsimp only at hb; split at hb <;> simp_all)
      · have : (if MemKind.cpu = k then w.heap k else w.heap .cpu) = w.heap .cpu := by
          split
          · next h => rw [h]
          · rfl
        simp only [DPool.setSide, this]
        exact hi.pin
    · intro k' hk; simp [hk]
    · intro s hs; rw [hal] at hs; cases hs
    · intro _; simp
  | some s =>
    have h7 := e7 s hal
    have haddr := get_addr e1 hal
    -- the three cases differ in the method and the pinned flag only
    have main : ∀ (m : Alloc) (pin : Bool), (k = .gpu → m = .device ∧ pin = w.pool.pinned) →
        (k = .cpu → (m = .pinned ∧ pin = w.pool.pinned) ∨ (m = .pageable ∧ pin = false)) →
        ∃ (w' : DWorld), (Outcome.ok (⟨{ (w.pool.setSide k r.pool) with pinned := pin },
            fun k' => if k' = k then (r.addr, s, m) :: w.heap k else w.heap k',
            fun k' => if k' = k then r.addr :: w.held k else w.held k'⟩ : DWorld)) = Outcome.ok w' ∧ DInv w' ∧
          PoolInv w1 ∧ w'.proj k = w1 ∧ w1.held = r.addr :: w.held k ∧ r.addr ∉ w.held k ∧
          (∃ s, (r.addr, s) ∈ w1.heap ∧ n ≤ s) ∧
          w'.held = (fun k' => if k' = k then r.addr :: w.held k else w.held k') ∧
          (∀ k', k' ≠ k → w'.heap k' = w.heap k') ∧
          (∀ s', some s = some s' → r.addr = fresh ∧ w'.heap k = (fresh, s', m) :: w.heap k) ∧
          (some s = none → w'.heap k = w.heap k) := by
      intro m pin hgpu hcpu
      have hp : (⟨{ (w.pool.setSide k r.pool) with pinned := pin },
          fun k' => if k' = k then (r.addr, s, m) :: w.heap k else w.heap k',
          fun k' => if k' = k then r.addr :: w.held k else w.held k'⟩ : DWorld).proj k = w1 := by
        obtain ⟨wp, wh, wl⟩ := w1
        simp only at e3 e4 h7
        subst e3 e4 h7
        simp only [proj, DPool.side, DPool.setSide, if_true, List.map_cons, haddr]
        rw [← hdes]
      refine ⟨_, rfl, ?_, i2, hp, e3, e6, e5, rfl, ?_, ?_, ?_⟩
      · refine ⟨fun k' => ?_, ?_, ?_, ?_, ?_⟩
        · by_cases hk : k' = k
          · subst hk; rw [hp]; exact i2
          · refine poolInv_other (hi.side k') rfl ?_ ?_ ?_ ?_ ?_
            · simp [proj, DPool.side, DPool.setSide, hk]
            · simp [proj, DPool.side, DPool.setSide, hk]
            · intro a ha
              rw [proj_addrs] at ha
              exact hfsm a (fun h => hl k' (h ▸ ha))
            · simp [proj, hk]
            · simp [proj, hk]
        · intro a ha hb
          have hc := hl .cpu
          have hg := hl .gpu
          cases k with
          | cpu =>
            simp only [addrs, if_true, List.map_cons, List.mem_cons, haddr] at ha
            simp only [addrs, reduceCtorEq, if_false] at hb
            rcases ha with rfl | ha
            · exact hg hb
            · exact hi.apart a ha hb
          | gpu =>
            simp only [addrs, if_true, List.map_cons, List.mem_cons, haddr] at hb
            simp only [addrs, reduceCtorEq, if_false] at ha
            rcases hb with rfl | hb
            · exact hc ha
            · exact hi.apart a ha hb
        · intro b hb
          cases k with
          | cpu => exact hi.dev b (by simpa using hb)
          | gpu =>
            simp only [if_true, List.mem_cons] at hb
            rcases hb with rfl | hb
            · exact (hgpu rfl).1
            · exact hi.dev b hb
        · intro b hb
          cases k with
          | gpu => exact hi.host b (by simpa using hb)
          | cpu =>
            simp only [if_true, List.mem_cons] at hb
            rcases hb with rfl | hb
            · rcases hcpu rfl with h | h <;> simp [h.1]
            · exact hi.host b hb
        · cases k with
          | gpu =>
            simp only [reduceCtorEq, if_false]
            rw [(hgpu rfl).2]; exact hi.pin
          | cpu =>
            simp only [if_true]
            rcases hcpu rfl with h | h
            · rw [h.2, hi.pin]
              constructor
              · intro h1 b hb
                rcases List.mem_cons.1 hb with rfl | hb
                · exact h.1
                · exact h1 b hb
              · intro h1 b hb
                exact h1 b (List.mem_cons_of_mem _ hb)
            · rw [h.2]
              constructor
              · intro h1; cases h1
              · intro h1
                have := h1 _ (List.mem_cons_self)
                simp only [h.1] at this
                cases this
      · intro k' hk; simp [hk]
      · intro s' hs; injection hs with hs; subst hs; exact ⟨haddr, by simp [haddr]⟩
      · intro h; cases h
    dsimp only
    cases k with
    | gpu =>
      obtain ⟨w', he, hrest⟩ := main .device w.pool.pinned (fun _ => ⟨rfl, rfl⟩) (fun h => by cases h)
      exact ⟨r, w1, w', .device, rfl, he, hal ▸ hrest⟩
    | cpu =>
      cases pinOk with
      | true =>
        obtain ⟨w', he, hrest⟩ := main .pinned w.pool.pinned (fun h => by cases h) (fun _ => Or.inl ⟨rfl, rfl⟩)
        exact ⟨r, w1, w', .pinned, rfl, he, hal ▸ hrest⟩
      | false =>
        obtain ⟨w', he, hrest⟩ := main .pageable false (fun h => by cases h) (fun _ => Or.inr ⟨rfl, rfl⟩)
        exact ⟨r, w1, w', .pageable, rfl, he, hal ▸ hrest⟩

/-- A `put` in terms of the side it uses. -/
theorem step_put {w : DWorld} (hi : DInv w) {k : MemKind} {a : Nat} (hl : a ∈ w.held k) :
    ∃ (w' : DWorld), w.step (.put k a) = .ok w' ∧ DInv w' ∧ w'.heap = w.heap ∧
      w'.held = (fun k' => if k' = k then (w.held k).erase a else w.held k') ∧
      (∀ k', k' ≠ k → w'.pool.classes k' = w.pool.classes k') := by
  obtain ⟨w1, e1, i1, e2, e3⟩ := poolInv_put (hi.side k) (a := a) hl
  unfold PoolWorld.step at e1
  simp only [Outcome.bind_eq_ok, proj] at e1
  obtain ⟨q, hq, e1⟩ := e1
  injection e1 with e1
  obtain ⟨f1, f2, f3, f4⟩ := put_facts hq
  unfold step DPool.put
  dsimp only
  rw [hq, Outcome.ok_bind, Outcome.pure_eq, Outcome.ok_bind]
  have hp : (⟨w.pool.setSide k q, w.heap, fun k' => if k' = k then (w.held k).erase a else w.held k'⟩ : DWorld).proj k = w1 := by
    rw [← e1]
    simp only [proj, DPool.side, DPool.setSide, if_true]
    obtain ⟨q1, q2, q3, q4, q5⟩ := q
    simp only at f4
    rw [f4]; rfl
  refine ⟨_, rfl, ⟨fun k' => ?_, hi.apart, hi.dev, hi.host, hi.pin⟩, rfl, rfl, fun k' hk => by simp [DPool.setSide, hk]⟩
  by_cases hk : k' = k
  · subst hk; rw [hp]; exact i1
  · refine poolInv_other (hi.side k') rfl ?_ ?_ ?_ ?_ ?_
    · simp [proj, DPool.side, DPool.setSide, hk]
    · simp [proj, DPool.side, DPool.setSide, hk]
    · intro b _
      show q.fsm b = w.pool.fsm b
      rw [f2]; rfl
    · simp [proj]
    · simp [proj, hk]

theorem dInv_reach {w : DWorld} (h : Reach w) : DInv w := by
  induction h with
  | init => exact dInv_init
  | @step w w' e _ hl hs ih =>
    cases e with
    | get k n fresh pinOk =>
      obtain ⟨_, _, w2, _, _, h2, h3, _⟩ := step_get ih (k := k) (n := n) (pinOk := pinOk) hl
      rw [hs] at h2; injection h2 with h2; subst h2; exact h3
    | put k a =>
      obtain ⟨w2, h2, h3, _⟩ := step_put ih hl
      rw [hs] at h2; injection h2 with h2; subst h2; exact h3

theorem held_addrs {w : DWorld} (hi : DInv w) {k : MemKind} {a : Nat} (h : a ∈ w.held k) : a ∈ w.addrs k := by
  rw [← proj_addrs]
  exact (hi.side k).perm.mem_iff.1 (List.mem_append.2 (Or.inr h))

theorem queued_addrs {w : DWorld} (hi : DInv w) {k : MemKind} {a : Nat} (h : a ∈ (w.pool.side k).queued) :
    a ∈ w.addrs k := by
  rw [← proj_addrs]
  exact (hi.side k).perm.mem_iff.1 (List.mem_append.2 (Or.inl h))

theorem addrs_apart {w : DWorld} (hi : DInv w) {k k' : MemKind} {a : Nat} (h : a ∈ w.addrs k)
    (h' : a ∈ w.addrs k') : k = k' := by
  cases k <;> cases k'
  · rfl
  · exact absurd h' (hi.apart a h)
  · exact absurd h (hi.apart a h')
  · rfl

end DWorld

open DWorld

/-- C55. In a CUDA build, as long as blocks are given back with the memory type they
were obtained for: a request for either memory type succeeds, and the block returned
has the requested memory type (it is among those allocated for that type and not among
those of the other), is at least as large as requested, and is held by nobody, whatever
memory type they asked for. Nothing changes for the holders of other blocks. -/
theorem C55_get (w : DWorld) (hw : Reach w) (k : MemKind) (n fresh : Nat) (pinOk : Bool)
    (hl : w.Legal (.get k n fresh pinOk)) :
    ∃ w' a s m, w.step (.get k n fresh pinOk) = .ok w' ∧ w'.held k = a :: w.held k ∧
      (∀ k', k' ≠ k → w'.held k' = w.held k') ∧ (∀ k', a ∉ w.held k') ∧
      (a, s, m) ∈ w'.heap k ∧ n ≤ s ∧ (m = .device ↔ k = .gpu) ∧ (∀ k', k' ≠ k → a ∉ w'.addrs k') ∧
      ∀ k', (w'.held k').Nodup := by
  have hi := dInv_reach hw
  obtain ⟨r, w1, w', m, h1, h2, h3, h4, h5, h6, h7, ⟨s, h8, h9⟩, h10, h11, h12, h13⟩ :=
    step_get hi (k := k) (n := n) (pinOk := pinOk) hl
  have hmem : ∃ m, (r.addr, s, m) ∈ w'.heap k := by
    rw [← h5] at h8
    obtain ⟨b, hb, hbe⟩ := List.mem_map.1 h8
    obtain ⟨b1, b2, b3⟩ := b
    simp only [Prod.mk.injEq] at hbe
    exact ⟨b3, by rw [← hbe.1, ← hbe.2]; exact hb⟩
  obtain ⟨m', hm'⟩ := hmem
  have haddr : r.addr ∈ w'.addrs k := List.mem_map.2 ⟨_, hm', rfl⟩
  refine ⟨w', r.addr, s, m', h2, by rw [h10]; simp, fun k' hk => by rw [h10]; simp [hk], ?_, hm', h9, ?_, ?_, ?_⟩
  · intro k' hk
    by_cases c : k' = k
    · subst c; exact h7 hk
    · have : r.addr ∈ w'.held k' := by rw [h10]; simp [c, hk]
      exact c (addrs_apart h3 (held_addrs h3 this) haddr)
  · cases k with
    | gpu => exact ⟨fun _ => rfl, fun _ => h3.dev _ hm'⟩
    | cpu => exact ⟨fun h => absurd h (h3.host _ hm'), fun h => by cases h⟩
  · intro k' hk ha
    exact hk (addrs_apart h3 ha haddr)
  · intro k'
    have := (h3.side k').perm.nodup_iff.2 (h3.side k').nodup
    exact (List.nodup_append.1 this).2.1

/-- C55. Giving back a held block succeeds; it becomes available for later requests of
its own memory type only, and no memory is lost or freed. -/
theorem C55_put (w : DWorld) (hw : Reach w) (k : MemKind) (a : Nat) (hl : w.Legal (.put k a)) :
    ∃ w', w.step (.put k a) = .ok w' ∧ w'.held k = (w.held k).erase a ∧ w'.heap = w.heap ∧
      (∀ k', k' ≠ k → w'.held k' = w.held k' ∧ w'.pool.classes k' = w.pool.classes k') ∧
      a ∈ (w'.pool.side k).queued ∧
      ∀ k', ((w'.pool.side k').queued ++ w'.held k').Perm (w'.addrs k') := by
  have hi := dInv_reach hw
  obtain ⟨w', h1, h2, h3, h4, h5⟩ := step_put hi hl
  have hperm : ∀ k', ((w'.pool.side k').queued ++ w'.held k').Perm (w'.addrs k') := by
    intro k'; rw [← proj_addrs]; exact (h2.side k').perm
  have hnd := (List.nodup_append.1 ((hi.side k).perm.nodup_iff.2 (hi.side k).nodup)).2.1
  refine ⟨w', h1, by rw [h4]; simp, h3, fun k' hk => ⟨by rw [h4]; simp [hk], h5 k' hk⟩, ?_, hperm⟩
  have hin : a ∈ w'.addrs k := by
    have := held_addrs hi hl
    simpa [addrs, h3] using this
  rcases List.mem_append.1 ((hperm k).mem_iff.2 hin) with h | h
  · exact h
  · have h' : a ∈ (w.held k).erase a := by simpa [h4] using h
    exact absurd h' (List.Nodup.not_mem_erase hnd)

/-- C55. `active()` counts the CPU blocks held by users, `total()` those ever allocated. -/
theorem C55_accounting (w : DWorld) (hw : Reach w) :
    w.pool.active = (w.held .cpu).length ∧ w.pool.total = (w.heap .cpu).length := by
  have hi := (dInv_reach hw).side .cpu
  have h1 := hi.perm.length_eq
  have h2 := hi.high
  simp only [List.length_append, List.length_map, proj] at h1 h2
  refine ⟨?_, h2⟩
  unfold DPool.active Pool.active
  rw [h2]
  omega

/-- C55. At the end of the program the pool releases each block that is not in use, once,
and none that is; device blocks are released as device memory, and CPU blocks in the
way they were obtained provided no pinned allocation ever failed or all failed. -/
theorem C55_release_partial (w : DWorld) (hw : Reach w) :
    (w.pool.destroy.map Prod.fst).Nodup ∧
    (∀ a, a ∈ w.pool.destroy.map Prod.fst ↔ ∃ k, a ∈ w.addrs k ∧ a ∉ w.held k) ∧
    ((∀ b ∈ w.heap .cpu, b.2.2 = .pinned) ∨ (∀ b ∈ w.heap .cpu, b.2.2 = .pageable) →
      ∀ a m, (a, m) ∈ w.pool.destroy → ∃ k s, (a, s, m) ∈ w.heap k) := by
  have hi := dInv_reach hw
  have hq : ∀ k, (w.pool.side k).queued.Nodup ∧ ∀ a ∈ (w.pool.side k).queued, a ∉ w.held k := by
    intro k
    have h := List.nodup_append.1 ((hi.side k).perm.nodup_iff.2 (hi.side k).nodup)
    exact ⟨h.1, fun a ha hh => h.2.2 a ha a hh rfl⟩
  have hmap : w.pool.destroy.map Prod.fst = (w.pool.side .cpu).queued ++ (w.pool.side .gpu).queued := by
    simp [DPool.destroy, Function.comp_def]
  refine ⟨?_, ?_, ?_⟩
  · rw [hmap, List.nodup_append]
    refine ⟨(hq _).1, (hq _).1, ?_⟩
    rintro a ha b hb rfl
    exact hi.apart a (queued_addrs hi ha) (queued_addrs hi hb)
  · intro a
    rw [hmap, List.mem_append]
    constructor
    · rintro (h | h)
      · exact ⟨.cpu, queued_addrs hi h, (hq _).2 a h⟩
      · exact ⟨.gpu, queued_addrs hi h, (hq _).2 a h⟩
    · rintro ⟨k, h1, h2⟩
      have hp : ((w.pool.side k).queued ++ w.held k).Perm (w.addrs k) := by
        rw [← proj_addrs]; exact (hi.side k).perm
      rcases List.mem_append.1 (hp.mem_iff.2 h1) with h | h
      · cases k
        · exact Or.inl h
        · exact Or.inr h
      · exact absurd h h2
  · intro huni a m hm
    simp only [DPool.destroy, List.mem_append, List.mem_map] at hm
    rcases hm with ⟨b, hb, hbe⟩ | ⟨b, hb, hbe⟩
    · obtain ⟨c, hc, hce⟩ := List.mem_map.1 (queued_addrs hi hb)
      injection hbe with h1 h2
      subst h1
      refine ⟨.cpu, c.2.1, ?_⟩
      have : c = (b, c.2.1, c.2.2) := by rw [← hce]
      have hcm : c.2.2 = m := by
        rw [← h2]
        rcases huni with hu | hu
        · rw [hi.pin.2 hu, if_pos rfl]; exact hu c hc
        · have : w.pool.pinned = false := by
            cases hp : w.pool.pinned with
            | false => rfl
            | true => have := hi.pin.1 hp c hc; rw [hu c hc] at this; cases this
          rw [this, if_neg (by decide)]; exact hu c hc
      rw [← hcm, ← this]; exact hc
    · obtain ⟨c, hc, hce⟩ := List.mem_map.1 (queued_addrs hi hb)
      injection hbe with h1 h2
      subst h1 h2
      refine ⟨.gpu, c.2.1, ?_⟩
      have : c = (b, c.2.1, c.2.2) := by rw [← hce]
      have hd := hi.dev c hc
      rw [← hd, ← this]; exact hc

/-- C55, what fails. One failed pinned allocation makes the pool release *all* CPU blocks
with `delete[]`, also the pinned ones. -/
theorem C55_mixed_release : ∃ w, Reach w ∧ (7, 22, .pinned) ∈ w.heap .cpu ∧ (7, .pageable) ∈ w.pool.destroy := by
  refine ⟨_, Reach.step (e := .put .cpu 7) (Reach.step (e := .get .cpu 50 8 false)
    (Reach.step (e := .get .cpu 20 7 true) Reach.init ?_ rfl) ?_ rfl) ?_ rfl, ?_, ?_⟩
  · intro k; cases k <;> decide
  · intro k; cases k <;> decide
  · show 7 ∈ _; decide
  · decide
  · decide

/-- C55, what fails without the assumption. Giving a GPU block back as CPU memory is not
noticed once CPU memory of that size has been used, and the next CPU request of that size is
answered with device memory. -/
theorem C55_wrong_type_poisons :
    ∃ w p r, Reach w ∧ (5, 22, .device) ∈ w.heap .gpu ∧ 5 ∈ w.held .gpu ∧ w.pool.put .cpu 5 = .ok p ∧
      p.get .cpu 20 9 true = .ok r ∧ r.addr = 5 := by
  refine ⟨_, _, _, Reach.step (e := .get .gpu 20 5 true)
    (Reach.step (e := .get .cpu 20 4 true) Reach.init ?_ rfl) ?_ rfl, ?_, ?_, rfl, rfl, rfl⟩
  · intro k; cases k <;> decide
  · intro k; cases k <;> decide
  · decide
  · decide

/-- A reachable world with blocks of both types held and waiting for reuse. -/
example : ∃ w, Reach w ∧ w.held .cpu = [1] ∧ w.held .gpu = [] ∧ (w.pool.side .gpu).queued = [2] := by
  refine ⟨_, Reach.step (e := .put .gpu 2) (Reach.step (e := .get .gpu 20 2 true)
    (Reach.step (e := .get .cpu 20 1 true) Reach.init ?_ rfl) ?_ rfl) ?_ rfl, ?_, ?_, ?_⟩
  · intro k; cases k <;> decide
  · intro k; cases k <;> decide
  · show 2 ∈ _; decide
  · rfl
  · rfl
  · rfl

end SpatialOps
