import Verif.StoreMT.Lemmas

/-!
# Property C68: the field store used by several threads
-/

namespace SpatialOps

open StoreMT StoreMT.World

/-- C68. Mutual exclusion: if all calls go through the store, at most one thread at a time executes pool
code, under every schedule. -/
theorem C68_one_at_a_time (N : Nat) (w : World) (hw : Reach N (· = .store) w) (t t' : Nat) (g g' : Guard) (pc pc' : Pc)
    (h : w.threads[t]? = some (g, pc)) (h' : w.threads[t']? = some (g', pc')) (hi : pc.inside = true) (hi' : pc'.inside = true) :
    t = t' := by
  obtain ⟨s, hs⟩ := invS_reach hw
  have e1 := hs.owner _ _ _ h hi
  have e2 := hs.owner _ _ _ h' hi'
  rw [e1] at e2
  injection e2

/-- C68. No statement of a call fails: no assertion of the pool, no access to an empty stack. -/
theorem C68_never_fails (N : Nat) (w : World) (hw : Reach N (· = .store) w) (e : Ev) (he : w.Enabled e)
    (hg : ∀ t g c, e = .call t g c → g = .store) : ∃ w', w.step e = .ok w' := by
  obtain ⟨s, hs⟩ := invS_reach hw
  obtain ⟨w', -, h, -⟩ := invS_step hs he hg
  exact ⟨w', h⟩

/-- C68. No sharing: at every moment of every schedule the blocks held by users are pairwise different, none of them is free for
reuse once no call is in progress, and each is an allocation at least as large as asked for. -/
theorem C68_no_sharing (N : Nat) (w : World) (hw : Reach N (· = .store) w) :
    (w.held.map Prod.fst).Nodup ∧ (∀ b ∈ w.held, ∃ k, (b.1, k) ∈ w.heap ∧ b.2 ≤ k) ∧
    (w.storeMutex = none → ∀ b ∈ w.held, b.1 ∉ w.pool.queued) := by
  obtain ⟨s, hs⟩ := invS_reach hw
  have hps : PoolInv s := poolInv_reach (sequential_reach hs.seq)
  have hnd := List.nodup_append.1 (hps.perm.nodup_iff.2 hps.nodup)
  refine ⟨(List.nodup_append.1 (hs.perm.nodup_iff.1 hnd.2.1)).1, fun b hb => ?_, fun hm b hb hq => ?_⟩
  · obtain ⟨k, h1, h2⟩ := hs.sizes b hb
    exact ⟨k, hs.grow _ h1, h2⟩
  · rw [(hs.free hm).1] at hq
    exact hnd.2.2 _ hq _ (hs.perm.mem_iff.2 (List.mem_append.2 (.inl (List.mem_map_of_mem hb)))) rfl

/-- C68. Every execution is equivalent to a sequential one: the finished calls, made one after the other in the order in
which they finished by a single thread, are legal and return the same blocks; and when no call is inside the pool, the pool and
the allocated memory are what they are after that sequence. -/
theorem C68_linearizable (N : Nat) (w : World) (hw : Reach N (· = .store) w) :
    ∃ s, Sequential w.log s ∧ (w.storeMutex = none → w.pool = s.pool ∧ w.heap = s.heap) ∧
      (Quiet w → s.held.Perm (w.held.map Prod.fst)) := by
  obtain ⟨s, hs⟩ := invS_reach hw
  refine ⟨s, hs.seq, hs.free, fun hq => ?_⟩
  have : w.threads.flatMap (fun x => putting x.2) = [] := by
    rw [List.flatMap_eq_nil_iff]
    intro x hx
    rw [hq x hx]
    rfl
  have hp := hs.perm
  rwa [this, List.append_nil] at hp

/-- A quiet world has no owner of the mutex. -/
theorem quiet_free {N : Nat} {w : World} (hw : Reach N (· = .store) w) (hq : Quiet w) : w.storeMutex = none := by
  obtain ⟨s, hs⟩ := invS_reach hw
  cases h : w.storeMutex with
  | none => rfl
  | some t =>
    obtain ⟨g, pc, h1, h2, -⟩ := hs.lock t h
    have := hq _ (List.mem_of_getElem? h1)
    simp only at this
    subst this
    cases h2

/-- C68. Accounting: whenever no call is in progress, `active()` is the number of blocks users hold and `total()` the number
of allocations. -/
theorem C68_accounting (N : Nat) (w : World) (hw : Reach N (· = .store) w) (hq : Quiet w) :
    w.pool.active = w.held.length ∧ w.pool.total = w.heap.length := by
  obtain ⟨s, h1, h2, h3⟩ := C68_linearizable N w hw
  obtain ⟨e1, e2⟩ := h2 (quiet_free hw hq)
  obtain ⟨a1, a2⟩ := C14_accounting s (sequential_reach h1)
  rw [e1, e2, a1, a2]
  have := (h3 hq).length_eq
  rw [List.length_map] at this
  rw [this]
  exact ⟨rfl, rfl⟩

namespace StoreMT

/-- Statements a thread still has to execute, at most. -/
def left : Pc → Nat
  | .idle => 0
  | .enter _ => 9
  | .pad _ => 7
  | .find _ _ => 6
  | .test _ _ => 5
  | .count _ _ => 4
  | .alloc _ _ => 3
  | .top _ _ => 4
  | .pop _ _ _ => 3
  | .size _ => 7
  | .push _ _ => 6
  | .got _ _ => 1
  | .gave _ => 1

/-- All statements still to be executed. -/
def leftAll (w : World) : Nat := (w.threads.map (fun x => left x.2)).sum

theorem sum_set {l : List Nat} {i x : Nat} (h : i < l.length) : (l.set i x).sum + l[i] = l.sum + x := by
  induction l generalizing i with
  | nil => cases h
  | cons a l ih =>
    cases i with
    | zero => simp; omega
    | succ i =>
      simp only [List.set_cons_succ, List.sum_cons, List.getElem_cons_succ]
      have := ih (i := i) (by simpa using h)
      omega

theorem left_set {w : World} {t : Nat} {x y : Guard × Pc} (ht : w.threads[t]? = some x) (hlt : left y.2 < left x.2) :
    ((w.threads.set t y).map (fun x => left x.2)).sum < leftAll w := by
  obtain ⟨hl, hx⟩ := List.getElem?_eq_some_iff.1 ht
  unfold leftAll
  rw [List.map_set]
  have := sum_set (l := w.threads.map (fun x => left x.2)) (i := t) (x := left y.2) (by simpa using hl)
  simp only [List.getElem_map, hx] at this
  omega

theorem micro_left {p p' : Pool} {fresh : Nat} {pc pc' : Pc} {al : Option Nat} (h : micro p fresh pc = .ok (p', pc', al))
    (hne : pc ≠ .idle) (hne2 : ∀ c, pc ≠ .enter c) (hne3 : ∀ n a, pc ≠ .got n a) (hne4 : ∀ a, pc ≠ .gave a) : left pc' < left pc := by
  cases pc with
  | idle => exact absurd rfl hne
  | enter c => exact absurd rfl (hne2 c)
  | got n a => exact absurd rfl (hne3 n a)
  | gave a => exact absurd rfl (hne4 a)
  | pad n0 =>
    unfold micro at h
    simp only [Outcome.bind_eq_ok] at h
    obtain ⟨-, -, h⟩ := h
    cases h
    simp [left]
  | find n0 n =>
    unfold micro at h
    simp only at h
    split at h <;> cases h <;> simp [left]
  | test n0 k =>
    rw [micro_test] at h
    injection h with h
    injection h with _ h
    injection h with h _
    subst h
    split <;> simp [left]
  | count n0 k => cases h; simp [left]
  | alloc n0 k => cases h; simp [left]
  | top n0 k =>
    unfold micro at h
    simp only at h
    split at h
    · cases h
    · cases h; simp [left]
  | pop n0 k a =>
    unfold micro at h
    simp only [Outcome.bind_eq_ok] at h
    obtain ⟨-, -, h⟩ := h
    cases h
    simp [left]
  | size a =>
    have h : Outcome.ok (p, (if p.destroyed then Pc.gave a else Pc.push a (p.fsm a)), none) = Outcome.ok (p', pc', al) := h
    injection h with h
    injection h with _ h
    injection h with h _
    subst h
    split <;> simp [left]
  | push a n =>
    unfold micro at h
    simp only [Outcome.bind_eq_ok] at h
    obtain ⟨-, -, h⟩ := h
    cases h
    simp [left]

theorem go_left {w w' : World} {t fresh : Nat} (he : w.Enabled (.go t fresh)) (hs : w.step (.go t fresh) = .ok w') :
    leftAll w' < leftAll w := by
  unfold World.Enabled at he
  unfold World.step at hs
  cases ht : w.threads[t]? with
  | none => simp only [ht] at he
  | some x =>
    obtain ⟨g, pc⟩ := x
    simp only [ht] at he hs
    split at hs
    · rename_i h; cases h
    · rename_i h; injection h with h; injection h with h1 h2; subst h1 h2; exact he.elim
    · rename_i c h
      injection h with h; injection h with h1 h2; subst h1 h2
      injection hs with hs
      subst hs
      refine Nat.lt_of_le_of_lt (Nat.le_of_eq ?_) (left_set (y := (g, c.first)) ht ?_)
      · cases g <;> rfl
      · cases c <;> simp [left, Call.first]
    · rename_i h
      injection h with h; injection h with h1 h2; subst h1 h2
      injection hs with hs
      subst hs
      refine Nat.lt_of_le_of_lt (Nat.le_of_eq ?_) (left_set (y := (g, Pc.idle)) ht ?_)
      · cases g <;> rfl
      · simp [left]
    · rename_i h
      injection h with h; injection h with h1 h2; subst h1 h2
      injection hs with hs
      subst hs
      refine Nat.lt_of_le_of_lt (Nat.le_of_eq ?_) (left_set (y := (g, Pc.idle)) ht ?_)
      · cases g <;> rfl
      · simp [left]
    · rename_i h1 h2 h3 h4 h
      injection h with h; injection h with e1 e2; subst e1 e2
      rw [Outcome.bind_eq_ok] at hs
      obtain ⟨⟨p', pc', al⟩, m1, m2⟩ := hs
      injection m2 with m2
      subst m2
      have := micro_left m1 h1 h2 h3 h4
      exact left_set (y := (g, pc')) ht this

end StoreMT

/-- C68. No deadlock: while some call is in progress, some thread can execute its next statement. -/
theorem C68_deadlock_free (N : Nat) (w : World) (hw : Reach N (· = .store) w) (hq : ¬ Quiet w) :
    ∃ t fresh, w.Enabled (.go t fresh) := by
  obtain ⟨s, hs⟩ := invS_reach hw
  cases hm : w.storeMutex with
  | some t =>
    obtain ⟨g, pc, h1, h2, -⟩ := hs.lock t hm
    obtain ⟨fresh, hf⟩ := exists_fresh (w.heap.map Prod.fst)
    refine ⟨t, fresh, ?_⟩
    unfold World.Enabled
    simp only [h1]
    cases pc <;> trivial
  | none =>
    unfold Quiet at hq
    simp only [not_forall] at hq
    obtain ⟨⟨g, pc⟩, hx, hne⟩ := hq
    obtain ⟨t, ht⟩ := List.mem_iff_getElem?.1 hx
    refine ⟨t, 0, ?_⟩
    have hni : pc.inside = false := by
      by_contra hc
      have := hs.owner _ _ _ ht (by simpa using hc)
      rw [hm] at this
      cases this
    obtain rfl := hs.guard _ _ _ ht hne
    unfold World.Enabled
    simp only [ht]
    cases pc with
    | idle => exact hne rfl
    | enter c => exact hm
    | _ => cases hni

theorem StoreMT.reach_runs {N : Nat} {w w' : World} {es : List Ev} (hw : Reach N (· = .store) w) (hr : Runs w es w') :
    Reach N (· = .store) w' := by
  induction hr with
  | nil => exact hw
  | cons he hs _ ih => exact ih (.step hw he nofun hs)

/-- C68. Calls finish: however the threads are scheduled, without new calls they execute at most nine more statements each, and
when none of them can go on, all calls are finished. -/
theorem C68_calls_finish (N : Nat) (w : World) (hw : Reach N (· = .store) w) (es : List Ev) (w' : World) (hr : Runs w es w') :
    es.length ≤ 9 * w.threads.length ∧ ((∀ t fresh, ¬ w'.Enabled (.go t fresh)) → Quiet w') := by
  constructor
  · have h1 : es.length + leftAll w' ≤ leftAll w := by
      clear hw
      induction hr with
      | nil => simp
      | cons he hs _ ih =>
        have := go_left he hs
        simp only [List.length_cons]
        omega
    have h2 : leftAll w ≤ 9 * w.threads.length := by
      unfold leftAll
      induction w.threads with
      | nil => simp
      | cons x l ih =>
        have : left x.2 ≤ 9 := by cases x.2 <;> simp [left]
        simp only [List.map_cons, List.sum_cons, List.length_cons]
        omega
    omega
  · intro hn
    by_contra hq
    obtain ⟨t, f, h⟩ := C68_deadlock_free N w' (StoreMT.reach_runs hw hr) hq
    exact hn t f h

/-! ## Calls past the store -/

namespace StoreMT

/-- A decision procedure for `Enabled`. -/
def enabled (w : World) : Ev → Bool
  | .call t _ c =>
    (match w.threads[t]? with | some (_, .idle) => true | _ => false) &&
    (match c with | .get _ => true | .put a => decide (a ∈ w.held.map Prod.fst))
  | .go t fresh =>
    match w.threads[t]? with
    | none | some (_, .idle) => false
    | some (g, .enter _) => decide (w.owner g = none)
    | some (_, .alloc _ _) => decide (fresh ∉ w.heap.map Prod.fst)
    | _ => true

theorem enabled_iff (w : World) (e : Ev) : enabled w e = true ↔ w.Enabled e := by
  cases e with
  | call t g c =>
    unfold enabled World.Enabled
    rw [Bool.and_eq_true]
    apply and_congr
    · split <;> simp_all
    · cases c <;> simp
  | go t fresh =>
    unfold enabled World.Enabled
    simp only
    cases w.threads[t]? with
    | none => simp
    | some x =>
      obtain ⟨g, pc⟩ := x
      cases pc <;> simp

/-- Run a schedule, checking that every event is possible. -/
def play (w : World) : List Ev → Option World
  | [] => some w
  | e :: es => if enabled w e then (match w.step e with | .ok w' => play w' es | _ => none) else none

theorem play_reach {N : Nat} {allowed : Guard → Prop} {es : List Ev} {w w' : World} (hw : Reach N allowed w)
    (ha : ∀ t g c, Ev.call t g c ∈ es → allowed g) (h : play w es = some w') : Reach N allowed w' := by
  induction es generalizing w with
  | nil => injection h with h; subst h; exact hw
  | cons e es ih =>
    unfold play at h
    split at h
    · rename_i he
      split at h
      · rename_i w1 hs
        exact ih (.step hw ((enabled_iff _ _).1 he) (fun t g c e' => ha t g c (by rw [e']; exact List.mem_cons_self)) hs)
          (fun t g c hm => ha t g c (List.mem_cons_of_mem _ hm)) h
      · cases h
    · cases h

/-- Thread 0 gets and gives back a block, which is then free; then both threads ask for that size: thread 0
under `g`, thread 1 under `g'`, and they take turns. -/
def duel (g g' : Guard) : List Ev :=
  [.call 0 .store (.get 20), .go 0 1, .go 0 1, .go 0 1, .go 0 1, .go 0 1, .go 0 1, .go 0 1,
   .call 0 .store (.put 1), .go 0 2, .go 0 2, .go 0 2, .go 0 2,
   .call 0 g (.get 20), .call 1 g' (.get 20),
   .go 0 2, .go 0 2, .go 0 2, .go 0 2, .go 1 2, .go 1 2, .go 1 2, .go 1 2,
   .go 0 2, .go 1 2]

end StoreMT

/-- Outside the store: a thread that obtains a scratch field while another one constructs an ordinary field (whose constructor calls
the pool without any lock) may get the same memory. After this schedule both have read the top of the stack of
free blocks, the same block, and neither has removed it yet. -/
theorem C68_constructor_gets_same_block :
    ∃ w, Reach 2 (fun g => g = .store ∨ g = .bare) w ∧
      w.threads = [(.store, .pop 20 22 1), (.bare, .pop 20 22 1)] := by
  have h : (play (World.init 2) (duel .store .bare)).map (·.threads) = some [(.store, .pop 20 22 1), (.bare, .pop 20 22 1)] := by
    decide +kernel
  obtain ⟨w, h1, h2⟩ := Option.map_eq_some_iff.1 h
  refine ⟨w, play_reach .init ?_ h1, h2⟩
  intro t g c hm
  simp [duel] at hm
  rcases hm with h | h | h | h <;> simp [h]

/-- The same between the store and `add_consumer`, which hold different mutexes. -/
theorem C68_consumer_gets_same_block :
    ∃ w, Reach 2 (fun g => g = .store ∨ g = .exec) w ∧
      w.threads = [(.store, .pop 20 22 1), (.exec, .pop 20 22 1)] := by
  have h : (play (World.init 2) (duel .store .exec)).map (·.threads) = some [(.store, .pop 20 22 1), (.exec, .pop 20 22 1)] := by
    decide +kernel
  obtain ⟨w, h1, h2⟩ := Option.map_eq_some_iff.1 h
  refine ⟨w, play_reach .init ?_ h1, h2⟩
  intro t g c hm
  simp [duel] at hm
  rcases hm with h | h | h | h <;> simp [h]

/-- Non-vacuity: with the store's mutex the second thread waits: in the same schedule up to its first statement, that statement is not
enabled; and two threads that finish hold different blocks. -/
example : (∃ w, Reach 2 (· = .store) w ∧ w.threads = [(.store, .pop 20 22 1), (.store, .enter (.get 20))] ∧
      ¬ w.Enabled (.go 1 2)) ∧
    ∃ w, Reach 2 (· = .store) w ∧ Quiet w ∧ w.held = [(2, 20), (1, 20)] ∧
      w.log = [.got 0 20 1, .gave 0 1, .got 0 20 1, .got 1 20 2] := by
  have ha : ∀ n t g c, Ev.call t g c ∈ (duel .store .store).take n → g = .store := by
    intro n t g c hm
    have := List.mem_of_mem_take hm
    simp [duel] at this
    rcases this with h | h | h | h <;> simp [h]
  constructor
  · have h : (play (World.init 2) ((duel .store .store).take 19)).map (fun w => (w.threads, enabled w (.go 1 2))) =
        some ([(.store, .top 20 22), (.store, .enter (.get 20))], false) := by decide +kernel
    have h : (play (World.init 2) ((duel .store .store).take 19 ++ [.go 0 2])).map (fun w => (w.threads, enabled w (.go 1 2))) =
        some ([(.store, .pop 20 22 1), (.store, .enter (.get 20))], false) := by decide +kernel
    obtain ⟨w, h1, h2⟩ := Option.map_eq_some_iff.1 h
    injection h2 with h2 h3
    refine ⟨w, play_reach .init ?_ h1, h2, fun he => ?_⟩
    · intro t g c hm
      rcases List.mem_append.1 hm with hm | hm
      · exact ha _ _ _ _ hm
      · simp at hm
    · rw [(enabled_iff _ _).2 he] at h3
      cases h3
  · let es : List Ev := (duel .store .store).take 19 ++ [.go 0 2, .go 0 2, .go 0 2, .go 1 2, .go 1 2, .go 1 2, .go 1 2, .go 1 2, .go 1 2, .go 1 2]
    have h : (play (World.init 2) es).map (fun w => (w.threads, w.held, w.log)) =
        some ([(.store, .idle), (.store, .idle)], [(2, 20), (1, 20)], [.got 0 20 1, .gave 0 1, .got 0 20 1, .got 1 20 2]) := by
      decide +kernel
    obtain ⟨w, h1, h2⟩ := Option.map_eq_some_iff.1 h
    injection h2 with h2 h3
    injection h3 with h3 h4
    refine ⟨w, play_reach .init ?_ h1, ?_, h3, h4⟩
    · intro t g c hm
      rcases List.mem_append.1 hm with hm | hm
      · exact ha _ _ _ _ hm
      · simp at hm
    · intro x hx
      rw [h2] at hx
      simp at hx
      rw [hx]

end SpatialOps
