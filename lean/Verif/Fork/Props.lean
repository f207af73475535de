import Verif.Threads.Props
import Verif.Fork.Hang
import Verif.Fork.Sort

/-!
# Property theorems for batches of jobs: C74

A program hands batches of jobs to a pool and calls `wait()` after each batch. The
jobs read and write shared memory access by access, in every possible interleaving.
`(Sys.start (create n made) m).run push prog ms = some s` says that the program, on a
pool of `n` threads of which the system granted `made`, can be in state `s` after the
moves `ms` of client, workers and system.
-/

namespace SpatialOps
open Threads Threads.Pool Fork
variable {V L : Type}

/-- C74. Fork and join. If no job writes a cell that another job of its batch reads or
writes, then at the moment `wait()` has returned from batch number `b` the memory is
exactly what running the jobs of the batches so far one after another makes of it.
For every schedule, scheduling policy, number of threads and program. -/
theorem C74_fork_join {push : Push Task} (hp : Keeps push) {prog : Prog V L} (hr : RaceFree prog) {n made : Nat}
    {m : Nat → V} {ms : List Move} {s : Sys V L}
    (h : (Sys.start (create n made) m).run push prog ms = some s) {b : Nat} (hpc : s.pc = .call b 0) :
    Seq (prog.take b).flatten m s.mem := by
  obtain ⟨acc, wr, hW, hD⟩ := hr
  obtain ⟨cnt, M, i⟩ := inv_run hp hW hD (inv_start push prog acc wr n made m) h
  have hseq := i.seq
  rw [hpc] at hseq
  have e : s.mem = M := by
    funext c
    by_cases hc : ∀ k, (job prog (batch s.pc, k)).isSome → ¬ wr (batch s.pc, k) c
    · exact i.rest c hc
    · have hc' : ∃ k, (job prog (batch s.pc, k)).isSome ∧ wr (batch s.pc, k) c := by
        by_contra hno
        exact hc fun k hk hw => hno ⟨k, hk, hw⟩
      obtain ⟨k, hk, hw⟩ := hc'
      obtain ⟨j, hj⟩ := Option.isSome_iff_exists.1 hk
      refine i.fresh k j hj (fun hst => ?_) c ((hW _ _ hj).1 c hw)
      have F := facts hp i.reach i.nodup
      have := (i.sched _ _).1 ((F.sched _).2 (Or.inl hst))
      rw [hpc] at this
      change (_ ∧ b < b) ∨ (_ ∧ k < 0) at this
      omega
  rw [e]
  exact hseq

/-- C74. In particular the program as a whole, run on the pool, leaves the memory that
it leaves when its jobs are run one after another, and no other. -/
theorem C74_same_result {push : Push Task} (hp : Keeps push) {prog : Prog V L} (hr : RaceFree prog) {n made : Nat}
    {m mEnd : Nat → V} (hseq : Seq prog.flatten m mEnd) {ms : List Move} {s : Sys V L}
    (h : (Sys.start (create n made) m).run push prog ms = some s) (hpc : s.pc = .call prog.length 0) :
    s.mem = mEnd := by
  have := C74_fork_join hp hr h hpc
  rw [List.take_length] at this
  exact seq_det this hseq

/-- C74. And it does get there. If the jobs run one after another all return, then on
a pool with at least one thread the number of moves is bounded, apart from spurious
wake-ups, each of which can cost four more; and as long as the program is not over
some thread can move. -/
theorem C74_comes_to_an_end {push : Push Task} (hp : Keeps push) {prog : Prog V L} (hr : RaceFree prog) {n made : Nat}
    (hn : 1 ≤ n) (hm : 1 ≤ made) {m mEnd : Nat → V} (hseq : Seq prog.flatten m mEnd) :
    ∃ N, ∀ (ms : List Move) (s : Sys V L), (Sys.start (create n made) m).run push prog ms = some s →
      ms.countP proper ≤ N + 4 * ms.countP (fun mv => !proper mv) ∧
      (s.pc ≠ .call prog.length 0 → ∃ mv s', proper mv = true ∧ s.step push prog mv = some s') := by
  obtain ⟨acc, wr, hW, hD⟩ := hr
  obtain ⟨lens, hl⟩ := lens_exist hW hD hseq
  refine ⟨_, fun ms s h => ⟨todo_run hp hW hD hl (inv_start push prog acc wr n made m) h, fun he => ?_⟩⟩
  obtain ⟨cnt, M, i⟩ := inv_run hp hW hD (inv_start push prog acc wr n made m) h
  exact not_stuck hp hn hm i he

/-- C74. The merge sort example, on a pool created with its threads: for every number
of elements `2^exponent`, every initial content, every total preorder, every
implementation of `std::inplace_merge` and every schedule, when the program has ended
the array is sorted, contains what it contained, equal elements are in their original
order, and nothing outside the array has changed. -/
theorem C74_merge_sort {push : Push Task} (hp : Keeps push) {le : V → V → Bool}
    (trans : ∀ a b c, le a b → le b c → le a c) (total : ∀ a b, le a b || le b a)
    {merge : Nat → Nat → Job V L} (hm : InplaceMerge le merge) {exponent n made : Nat} {m : Nat → V}
    {ms : List Move} {s : Sys V L}
    (h : (Sys.start (create n made) m).run push (sortProg merge exponent) ms = some s)
    (hpc : s.pc = .call exponent 0) :
    (cells s.mem 0 (2 ^ exponent)).Pairwise (fun a b => le a b) ∧
    (cells s.mem 0 (2 ^ exponent)).Perm (cells m 0 (2 ^ exponent)) ∧
    (∀ l : List V, l.Pairwise (fun a b => le a b) → l.Sublist (cells m 0 (2 ^ exponent)) →
      l.Sublist (cells s.mem 0 (2 ^ exponent))) ∧
    ∀ c, 2 ^ exponent ≤ c → s.mem c = m c := by
  obtain ⟨M, q1, q2, q3⟩ := sort_seq trans total hm exponent m (Nat.le_refl exponent)
  have e : s.mem = M := seq_det (C74_fork_join hp (sort_raceFree hm exponent) h hpc) q1
  have hc := q2 0 (Nat.pow_pos (by omega))
  rw [Nat.zero_mul] at hc
  rw [e, hc]
  exact ⟨List.pairwise_mergeSort trans total _, List.mergeSort_perm _ _,
    fun l h1 h2 => List.sublist_mergeSort trans total h1 h2, q3⟩

/-- C74. And the merge sort example, on a pool created with at least one thread, ends,
although `std::inplace_merge` is only known to return on sorted halves. -/
theorem C74_merge_sort_ends {push : Push Task} (hp : Keeps push) {le : V → V → Bool}
    (trans : ∀ a b c, le a b → le b c → le a c) (total : ∀ a b, le a b || le b a)
    {merge : Nat → Nat → Job V L} (hm : InplaceMerge le merge) (exponent : Nat) {n made : Nat}
    (hn : 1 ≤ n) (hmade : 1 ≤ made) (m : Nat → V) :
    ∃ N, ∀ (ms : List Move) (s : Sys V L),
      (Sys.start (create n made) m).run push (sortProg merge exponent) ms = some s →
      ms.countP proper ≤ N + 4 * ms.countP (fun mv => !proper mv) ∧
      (s.pc ≠ .call exponent 0 → ∃ mv s', proper mv = true ∧ s.step push (sortProg merge exponent) mv = some s') := by
  have hlen : (sortProg merge exponent).length = exponent := by unfold sortProg; simp
  obtain ⟨M, q1, _, _⟩ := sort_seq trans total hm exponent m (Nat.le_refl exponent)
  rw [List.take_of_length_le (by omega)] at q1
  have := C74_comes_to_an_end hp (sort_raceFree hm exponent) hn hmade q1
  rw [hlen] at this
  exact this

/-- C74. The precondition of `std::inplace_merge` is met at every call: both halves of
the partition are sorted as long as the job waits in the queue, and once a worker has
it, it has come as far as it would have come alone on a memory whose halves are
sorted, and its cells are as they would be then. -/
theorem C74_merge_precondition {push : Push Task} (hp : Keeps push) {le : V → V → Bool}
    (trans : ∀ a b c, le a b → le b c → le a c) (total : ∀ a b, le a b || le b a)
    {merge : Nat → Nat → Job V L} (hm : InplaceMerge le merge) {exponent n made : Nat} {m : Nat → V}
    {ms : List Move} {s : Sys V L}
    (h : (Sys.start (create n made) m).run push (sortProg merge exponent) ms = some s) {b k : Nat} :
    ((b, k) ∈ s.pool.queue →
      (cells s.mem (k * 2 ^ (b + 1)) (2 ^ b)).Pairwise (fun a b => le a b) ∧
      (cells s.mem (k * 2 ^ (b + 1) + 2 ^ b) (2 ^ b)).Pairwise (fun a b => le a b)) ∧
    ∀ i : Nat, s.pool.workers[i]? = some (.running (b, k)) →
      ∃ (M m1 : Nat → V) (n : Nat) (l : L),
        (cells M (k * 2 ^ (b + 1)) (2 ^ b)).Pairwise (fun a b => le a b) ∧
        (cells M (k * 2 ^ (b + 1) + 2 ^ b) (2 ^ b)).Pairwise (fun a b => le a b) ∧
        s.loc i = some l ∧
        Steps (merge (k * 2 ^ (b + 1)) (2 ^ (b + 1))) n (merge (k * 2 ^ (b + 1)) (2 ^ (b + 1))).init M l m1 ∧
        cells s.mem (k * 2 ^ (b + 1)) (2 ^ (b + 1)) = cells m1 (k * 2 ^ (b + 1)) (2 ^ (b + 1)) := by
  have hW := sort_within hm exponent
  have hD : ∀ b k k' c, (job (sortProg merge exponent) (b, k)).isSome →
      (job (sortProg merge exponent) (b, k')).isSome → part (b, k) c → part (b, k') c → k = k' :=
    fun _ _ _ _ _ _ h1 h2 => part_disjoint h1 h2
  obtain ⟨cnt, M, I⟩ := inv_run hp hW hD (inv_start push _ part part n made m) h
  have F := facts hp I.reach I.nodup
  have h2 : 2 ^ (b + 1) = 2 ^ b + 2 ^ b := by rw [Nat.pow_succ]; omega
  refine ⟨fun hq => ?_, fun i hi => ?_⟩
  · have hns := F.fresh _ hq
    have hsch := (F.sched _).2 (Or.inr hq)
    have hnf : (b, k) ∉ s.pool.finished := fun hf => hns ((F.start _).2 (Or.inl hf))
    obtain ⟨hb, hjs⟩ := I.present hsch hnf
    obtain ⟨j, hj⟩ := Option.isSome_iff_exists.1 hjs
    obtain ⟨q1, q2, _⟩ := sort_job hj
    have hb' : b = batch s.pc := hb
    have hseq := I.seq
    rw [← hb'] at hseq
    have hf := I.fresh k j (by rw [← hb']; exact hj) (by rw [← hb']; exact hns)
    rw [← hb'] at hf
    have hh := halves_sorted trans total hm q1 q2 hseq
    rw [cells_congr (m' := M) (pos := k * 2 ^ (b + 1)) (len := 2 ^ b) fun c h1 h3 => hf c ⟨h1, by dsimp only; omega⟩,
      cells_congr (m' := M) (pos := k * 2 ^ (b + 1) + 2 ^ b) (len := 2 ^ b) fun c h1 h3 => hf c ⟨by dsimp only; omega, by dsimp only; omega⟩]
    exact hh
  · have hst := (F.start _).2 (Or.inr ⟨i, hi⟩)
    have hsch := (F.sched _).2 (Or.inl hst)
    have hnf := F.over _ _ hi
    obtain ⟨hb, hjs⟩ := I.present hsch hnf
    obtain ⟨j, hj⟩ := Option.isSome_iff_exists.1 hjs
    obtain ⟨q1, q2, rfl⟩ := sort_job hj
    have hb' : b = batch s.pc := hb
    have hseq := I.seq
    rw [← hb'] at hseq
    have hh := halves_sorted trans total hm q1 q2 hseq
    obtain ⟨l, m1, r1, r2, r3⟩ := I.runs i k _ (by rw [← hb']; exact hi) (by rw [← hb']; exact hj)
    rw [← hb'] at r3
    exact ⟨M, m1, _, l, hh.1, hh.2, r1, r2, cells_congr fun c h1 h3 => (r3 c ⟨h1, h3⟩).symm⟩

/-- C74, what fails. The example as it is written never sorts anything: it creates the
pool without threads and then resizes it to five, which leaves the limit on active
workers at zero. Whatever the schedule, no job is ever started, the memory never
changes, and the first `wait()` never returns. The same holds for every program whose
first batch is not empty. -/
theorem C74_example_hangs {push : Push Task} (hp : Keeps push) {js : List (Job V L)} {rest : Prog V L}
    (hjs : js ≠ []) {made : Nat} {m : Nat → V} {ms : List Move} {s : Sys V L}
    (h : (Sys.start (examplePool made) m).run push (js :: rest) ms = some s) :
    s.pool.started = [] ∧ s.mem = m ∧ (s.pc = .inWait 0 ∨ ∃ k, s.pc = .call 0 k) := by
  have h0 : 0 < size (js :: rest) 0 := by
    cases js with
    | nil => exact absurd rfl hjs
    | cons j js => simp [size]
  have hh := hung_run hp h0 (hung_start push _ made m) h
  refine ⟨(hung_queue hp hh).1, hh.mem, ?_⟩
  have hz := hh.zero
  cases hpc : s.pc with
  | call b k =>
    rw [hpc] at hz
    change b = 0 at hz
    subst hz
    exact Or.inr ⟨k, rfl⟩
  | inWait b =>
    rw [hpc] at hz
    change b = 0 at hz
    subst hz
    exact Or.inl rfl

/-- `x := x + 1` on cell 0, as a read and a write. -/
def Fork.incr : Job Nat (Nat × Nat) :=
  ⟨(0, 0), fun l => if l.1 = 0 then .read 0 fun v => (1, v) else if l.1 = 1 then .write 0 (l.2 + 1) (2, 0) else .ret⟩

/-- C74, the condition is needed. Two jobs of one batch that both increment a cell can
leave it at 1, while in any order one after another they leave it at 2. -/
theorem C74_race_loses_update :
    (∃ ms s, (Sys.start (create 2 2) (fun _ => 0)).run fifoPush [[incr, incr]] ms = some s ∧
      s.pc = .call 1 0 ∧ s.mem 0 = 1) ∧
    ∀ m', Seq [incr, incr] (fun _ => 0) m' → m' 0 = 2 := by
  refine ⟨?_, fun m' h => ?_⟩
  · have e : ((Sys.start (create 2 2) (fun _ => 0)).run fifoPush [[incr, incr]]
        [.schedule none, .schedule none, .wait, .fetch 0, .fetch 1, .work 0, .work 1, .work 0, .work 1,
          .finish 0, .fetch 0, .finish 1, .fetch 1, .clientResume, .ret]).map (fun s => (s.pc, s.mem 0)) = some (.call 1 0, 1) := by
      decide +kernel
    obtain ⟨s, h1, h2⟩ := Option.map_eq_some_iff.1 e
    injection h2 with h2 h3
    exact ⟨_, s, h1, h2, h3⟩
  have step : ∀ m : Nat → Nat, Solo incr m 2 (fun d => if d = 0 then m 0 + 1 else m d) := fun m =>
    ⟨(2, 0), .write (v := m 0 + 1) (.read .refl rfl) rfl, rfl⟩
  have := seq_det h (.cons (step _) (.cons (step _) .nil))
  rw [this]
  rfl

/-! ## Examples -/

/-- A schedule of the merge sort of four elements on two threads. -/
def Fork.exampleMoves : List Move :=
  [.schedule none, .fetch 0, .schedule none, .wait, .work 0, .fetch 1, .work 1, .work 0, .work 1, .work 0,
    .work 1, .work 0, .work 1, .finish 1, .finish 0, .fetch 0, .fetch 1, .clientResume, .ret, .schedule (some 1), .resume 1, .wait,
    .work 1, .work 1, .work 1, .work 1, .work 1, .work 1, .work 1, .work 1, .finish 1, .fetch 1, .clientResume, .ret]

/-- Initial contents for the examples. -/
def Fork.exampleMem : Nat → Nat := fun c => [4, 3, 1, 2, 9][c]?.getD 0

/-- The hypotheses of `C74_fork_join`, `C74_same_result`, `C74_merge_sort` and
`C74_merge_precondition` are met by a run that sorts four numbers on two threads,
whose two first merges interleave. -/
example : ((Sys.start (create 2 2) exampleMem).run fifoPush (sortProg (bufMerge Nat.ble) 2) exampleMoves).map
    (fun s => (s.pc, cells s.mem 0 5)) = some (.call 2 0, [1, 2, 3, 4, 9]) := by
  decide +kernel

example : Keeps (fifoPush (T := Task)) ∧ InplaceMerge Nat.ble (bufMerge Nat.ble) ∧
    RaceFree (sortProg (bufMerge Nat.ble) 2) ∧
    (∀ a b c : Nat, Nat.ble a b → Nat.ble b c → Nat.ble a c) ∧ (∀ a b : Nat, Nat.ble a b || Nat.ble b a) := by
  refine ⟨(C34_policies fun _ => 0).1, bufMerge_ok _, sort_raceFree (bufMerge_ok _) 2, fun a b c h1 h2 => ?_, fun a b => ?_⟩
  · simp only [Nat.ble_eq] at *; omega
  · simp only [Bool.or_eq_true, Nat.ble_eq]; omega

/-- In the middle of that run one merge waits in the queue and the other one has
begun, as in `C74_merge_precondition`. -/
example : ((Sys.start (create 2 2) exampleMem).run fifoPush (sortProg (bufMerge Nat.ble) 2)
      (exampleMoves.take 5)).map (fun s => (s.pool.queue, s.pool.workers[0]?)) =
    some ([(0, 1)], some (.running (0, 0))) := by
  decide +kernel

/-- `C74_comes_to_an_end` applies to it: one after another the three merges return. -/
example : ∃ mEnd, Seq (sortProg (bufMerge Nat.ble) 2).flatten exampleMem mEnd := by
  have trans : ∀ a b c : Nat, Nat.ble a b → Nat.ble b c → Nat.ble a c := fun a b c h1 h2 => by
    simp only [Nat.ble_eq] at *; omega
  have total : ∀ a b : Nat, Nat.ble a b || Nat.ble b a := fun a b => by
    simp only [Bool.or_eq_true, Nat.ble_eq]; omega
  obtain ⟨M, q, _⟩ := sort_seq trans total (bufMerge_ok _) 2 exampleMem (Nat.le_refl 2)
  exact ⟨M, q⟩

/-- The program as written, on its pool: all five workers look for work and go to
sleep, the client waits. -/
example : ((Sys.start (examplePool 5) exampleMem).run fifoPush (sortProg (bufMerge Nat.ble) 2)
      [.fetch 0, .schedule (some 0), .fetch 1, .resume 0, .fetch 2, .schedule (some 1), .fetch 3, .wait,
        .resume 1, .fetch 4]).map
      (fun s => (s.pc, s.pool.queue, s.pool.workers)) =
    some (.inWait 0, [(0, 0), (0, 1)], List.replicate 5 .waiting) := by
  decide +kernel

end SpatialOps
