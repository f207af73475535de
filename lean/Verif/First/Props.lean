import Verif.First.Lemmas
import Mathlib.Data.List.Nodup
import Mathlib.Data.List.Perm.Subperm

/-!
# C96: The library's pools may be used by several threads at once, from the first use on

Threads call `resize_pool`, `get_pool_size`, `set_pool_capacity` and `get_pool_capacity` (and with them everything that asks for the
number of threads) without having prepared anything. The full property: under every schedule the calls return and do what they
would if made one after the other; the pool is created and registered exactly once and no warning is printed; no call waits for
ever; and no two threads race for a variable. The last two parts do not hold of the first use (`C96_race_on_first_use`,
`C96_warning_on_first_use`), so the theorem about the results has the suffix `_partial`: it takes the unguarded accesses to a
`bool` to happen one at a time, which the language does not promise. A program that makes one call before it starts its threads
has no race and no warning (`C96_prepared`).
-/

namespace SpatialOps

open Threads (Push)
open Sync (Mgr Steps Any)
open First

variable {T : Type}

/-- C96, results. At any time, under any schedule: the calls made so far, in the order in which they held the registry's mutex, have
returned what they return when made one after the other by one thread, and the pools are as they are then, as is the registry
except for pools whose first `self()` has not returned yet. Each thread's calls are among them in the order of its program. Missing
from the full property: that nothing races, which is false for the first use (`C96_race_on_first_use`). -/
theorem C96_serial_partial {push : Push T} {nt : Nat} {progs : List (List Call)} {s : St T}
    (h : Steps (St.step push nt) Any (St.start progs) s) :
    (∃ m, Serial push nt s.log m ∧ m.pools = s.mgr.pools ∧ ∀ id, (∀ i, ¬ s.inSelf i id) → m.reg id = s.mgr.reg id) ∧
    (∀ (i : Nat) (t : Thr), s.threads[i]? = some t → progs[i]? = some (s.made i ++ t.todo)) := by
  have hv := inv_reach h
  refine ⟨⟨full nt s.mgr, serial_reach h, rfl, fun id hid => ?_⟩, (ordered_reach h).2⟩
  cases hr : s.mgr.reg id with
  | some r => simp [full, hr]
  | none =>
    cases hp : s.mgr.pools id with
    | none => simp [full, hr, hp]
    | some p =>
      exfalso
      obtain ⟨i, pc, c, r, h1, h2, h3⟩ := owned_reach h id (by simp [hp]) hr
      refine hid i ⟨pc, c, r, h1, h2, ?_⟩
      rcases h3 with rfl | rfl | rfl <;> decide

/-- C96, values. No call is answered with "does not exist": `set_pool_capacity` returns the number in effect, the questions return a
number of threads, whatever the other threads do meanwhile. -/
theorem C96_answers {push : Push T} {nt : Nat} {progs : List (List Call)} {s : St T}
    (h : Steps (St.step push nt) Any (St.start progs) s) {i : Nat} {c : Call} {v : Int} (hc : (i, c, v) ∈ s.log) : c.Answered v :=
  serial_answered (serial_reach h) _ hc

/-- C96, at the end. When all threads are through, registry and pools are what the calls leave when made one after the other. -/
theorem C96_final {push : Push T} {nt : Nat} {progs : List (List Call)} {s : St T}
    (h : Steps (St.step push nt) Any (St.start progs) s) (ht : s.through) :
    Serial push nt s.log s.mgr ∧ ∀ i p, progs[i]? = some p → s.made i = p := by
  obtain ⟨⟨m, h1, h2, h3⟩, h4⟩ := C96_serial_partial h
  have e : m = s.mgr := by
    obtain ⟨r, p⟩ := m
    have h5 : r = s.mgr.reg := by
      funext id
      refine h3 id fun i hi => ?_
      obtain ⟨pc, c, r, h6, -⟩ := hi
      have := ht _ (List.mem_of_getElem? h6)
      simp at this
    subst h5
    dsimp only at h2
    subst h2
    rfl
  refine ⟨e ▸ h1, fun i p hp => ?_⟩
  have hl := (ordered_reach h).1
  have hi : i < s.threads.length := by rw [hl]; exact (List.getElem?_eq_some_iff.1 hp).1
  obtain ⟨t, ht'⟩ : ∃ t, s.threads[i]? = some t := ⟨_, List.getElem?_eq_getElem hi⟩
  have h5 := h4 i t ht'
  rw [hp, ht t (List.mem_of_getElem? ht'), List.append_nil, Option.some.injEq] at h5
  exact h5.symm

/-- C96, registration. However many threads are the first to use a pool, it is registered by one of them: of the attempts the first
succeeds and the others, at most one for each other thread, are refused with a warning. -/
theorem C96_registered_once {push : Push T} {nt : Nat} {progs : List (List Call)} {s : St T}
    (h : Steps (St.step push nt) Any (St.start progs) s) (id : Nat) :
    (s.mgr.reg id = none ∧ s.registrations id = []) ∨
    (s.mgr.reg id ≠ none ∧ ∃ k, k < progs.length ∧ s.registrations id = true :: List.replicate k false) := by
  have hr := regs_reach h
  refine (hr.results id).imp_right fun ⟨h1, k, h2⟩ => ⟨h1, k, ?_, h2⟩
  have h3 : (s.registrations id).length = k + 1 := by simp [h2]
  have h4 : (s.inserts.filter (·.2.1 = id)).length = k + 1 := by rw [← h3, St.registrations, List.length_map]
  have h5 : ((s.inserts.filter (·.2.1 = id)).map (·.1)).Nodup := by
    refine List.Nodup.map_on (fun a ha b hb hab => ?_) ((hr.once.of_map _).filter _)
    simp only [List.mem_filter, decide_eq_true_eq] at ha hb
    exact List.inj_on_of_nodup_map hr.once ha.1 hb.1 (by rw [hab, ha.2, hb.2])
  have h6 : (s.inserts.filter (·.2.1 = id)).map (·.1) ⊆ List.range progs.length := by
    intro x hx
    obtain ⟨e, he, rfl⟩ := List.mem_map.1 hx
    rw [List.mem_range, ← (ordered_reach h).1]
    exact hr.lt e (List.mem_filter.1 he).1
  have h7 := (List.subperm_of_subset h5 h6).length_le
  simp only [List.length_map, List.length_range] at h7
  omega

/-- C96, progress. As long as a thread has calls to make, one of them can make a step at once, and altogether the threads make at most
eight steps for each call: every thread gets through. -/
theorem C96_ends {push : Push T} {nt : Nat} {progs : List (List Call)} :
    (∀ s : St T, Steps (St.step push nt) Any (St.start progs) s → ¬ s.through →
      ∃ i, ∀ made, ∃ s', s.step push nt (.thread i made) = some s') ∧
    ∀ (as : List (Move T)) (s : St T), Sync.runs (St.step push nt) (St.start progs) as = some s →
      (as.filter Move.ofThread).length ≤ 8 * (progs.map List.length).sum := by
  refine ⟨fun s h ht => ?_, fun as s h => ?_⟩
  · obtain ⟨i, pc, c, r, h1, h2⟩ := go_on (nt := nt) (inv_reach h) ht
    refine ⟨i, fun made => ?_⟩
    obtain ⟨s', h3⟩ := h2 made
    exact ⟨s', by simp only [St.step, h1]; exact h3⟩
  · have h1 := left_runs as h
    have h2 := left_start (T := T) progs
    omega

/-- C96, prepared use. If one thread has made a call about a pool before the others start, then from there on, under every schedule, no
two threads race for the pool's `init_`, and the pool stays registered once: no warning is ever printed. -/
theorem C96_prepared {push : Push T} {nt k : Nat} {progs : List (List Call)} {s s' : St T}
    (h : Steps (St.step push nt) (Move.only k) (St.start progs) s) {c : Call} {v : Int} (hc : (k, c, v) ∈ s.log)
    (h' : Steps (St.step push nt) Any s s') : ¬ s'.Race c.pool ∧ s'.registrations c.pool = [true] := by
  have hsolo : Solo k s ∧ Steps (St.step push nt) Any (St.start progs) s := by
    clear hc h'
    induction h with
    | init => exact ⟨solo_start k progs, .init⟩
    | step _ h2 h3 ih => exact ⟨solo_step h2 ih.1 h3, ih.2.step trivial h3⟩
  have hu := solo_used hsolo.1 hc rfl
  have hreg : s.registrations c.pool = [true] := by
    have hr := regs_reach hsolo.2
    rcases hr.results c.pool with ⟨h1, -⟩ | ⟨-, n, h1⟩
    · exact absurd h1 ((inv_reach hsolo.2).init _ hu.1)
    · have h2 : ((s.inserts.filter (·.2.1 = c.pool)).map fun e => (e.1, e.2.1)).Nodup := (hr.once.sublist (List.filter_sublist.map _))
      have h3 : (s.inserts.filter (·.2.1 = c.pool)).length = n + 1 := by
        have := congrArg List.length h1
        simpa [St.registrations] using this
      have h4 : ∀ x ∈ (s.inserts.filter (·.2.1 = c.pool)).map fun e => (e.1, e.2.1), x = (k, c.pool) := by
        intro x hx
        obtain ⟨e, he, rfl⟩ := List.mem_map.1 hx
        simp only [List.mem_filter, decide_eq_true_eq] at he
        rw [hsolo.1.alone e he.1, he.2]
      have h5 := List.eq_replicate_iff.2 ⟨rfl, h4⟩
      rw [h5, List.length_map, h3] at h2
      have := List.nodup_replicate.1 h2
      obtain rfl : n = 0 := by omega
      exact h1
  have key : Used s' c.pool ∧ s'.registrations c.pool = [true] := by
    induction h' with
    | init => exact ⟨hu, hreg⟩
    | step _ _ h3 ih =>
      obtain ⟨h4, h5⟩ := used_step ih.1 h3
      exact ⟨h4, h5.trans ih.2⟩
  refine ⟨?_, key.2⟩
  rintro ⟨i, j, c1, c2, r1, r2, -, h1, -, h2, -⟩
  exact (key.1.2 i _ c1 r1 h2 h1).2.2 rfl

/-- C96, what fails. Two threads ask for the capacity of a pool nobody has used: a schedule leads to one of them writing `init_` while the
other one reads it. -/
theorem C96_race_on_first_use : ∃ s : St Nat,
    Steps (St.step Threads.fifoPush 2) Any (St.start [[.capacity 0], [.capacity 0]]) s ∧ s.Race 0 :=
  ⟨_, Steps.runs .init [.thread 0 2, .thread 0 2, .thread 1 2, .thread 0 2, .thread 0 2, .thread 0 2] (fun _ _ => trivial) rfl,
    0, 1, .capacity 0, .capacity 0, [], [], by decide, rfl, rfl, rfl, .inl rfl⟩

/-- C96, what fails. Two threads that do nothing but ask for the capacity can be told that they attempt to register a pool that already
exists. -/
theorem C96_warning_on_first_use : ∃ s : St Nat,
    Steps (St.step Threads.fifoPush 2) Any (St.start [[.capacity 0], [.capacity 0]]) s ∧ s.through ∧
    s.log = [(1, .capacity 0, 2), (0, .capacity 0, 2)] ∧ s.registrations 0 = [true, false] :=
  ⟨_, Steps.runs .init [.thread 0 2, .thread 0 2, .thread 1 2, .thread 0 2, .thread 1 2, .thread 0 2, .thread 0 2, .thread 1 2,
      .thread 1 2, .thread 1 2, .thread 1 2, .thread 1 2, .thread 0 2, .thread 0 2, .thread 0 2] (fun _ _ => trivial) rfl,
    by simp [St.through, St.goto, St.start], rfl, rfl⟩

/-- Two threads, two pools: the second thread sets the capacity of a pool between the first thread's test of `init_` and its attempt to
register the pool, which does not undo it. -/
example : ∃ s : St Nat,
    Steps (St.step Threads.fifoPush 2) Any
      (St.start [[.capacity 0, .setCapacity 1 0], [.setCapacity 0 5, .poolSize 0]]) s ∧ s.through ∧
    s.log = [(1, .setCapacity 0 5, 5), (1, .poolSize 0, 2), (0, .capacity 0, 5), (0, .setCapacity 1 0, 1)] ∧
    s.registrations 0 = [true, false] ∧ s.registrations 1 = [true] ∧ s.mgr.reg 0 = some 5 ∧ s.mgr.reg 1 = some 1 :=
  ⟨_, Steps.runs .init (List.replicate 3 (.thread 0 4) ++ List.replicate 11 (.thread 1 4) ++ List.replicate 12 (.thread 0 4) ++ [.thread 0 4])
      (fun _ _ => trivial) rfl, by simp [St.through, St.goto, St.start], rfl, rfl, rfl, rfl, rfl⟩

/-- The hypotheses of `C96_prepared` are met: the first thread asks, then both go on. -/
example : ∃ s s' : St Nat,
    Steps (St.step Threads.fifoPush 2) (Move.only 0) (St.start [[.capacity 0, .poolSize 0], [.resizePool 0 1]]) s ∧
    (0, .capacity 0, 2) ∈ s.log ∧ Steps (St.step Threads.fifoPush 2) Any s s' ∧ s'.through :=
  ⟨_, _, Steps.runs .init (List.replicate 8 (.thread 0 2)) (by intro a ha; rw [List.eq_of_mem_replicate ha]; rfl) rfl, by decide,
    Steps.runs .init (List.replicate 4 (.thread 1 2) ++ List.replicate 4 (.thread 0 2)) (fun _ _ => trivial) rfl,
    by simp [St.through, St.goto, St.start]⟩

end SpatialOps
