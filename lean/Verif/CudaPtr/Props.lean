import Verif.CudaPtr.Steps

/-!
# C58: the reference-counted GPU pointer
-/

namespace SpatialOps.CudaWorld

/-- C58 (safety). A history that follows the rules runs to its end: no counter is touched after it
was deleted, nothing is freed twice, no call fails. Missing from the full property: assigning a
default-constructed pointer, which `C58_assign_unset_ub` shows to be undefined. -/
theorem _root_.SpatialOps.C58_histories_partial (n : Int) (hn : 0 < n) (os : List Op)
    (h : All Legal (init n) os) : ∃ w', (init n).run os = .ok w' := by
  have key : ∀ (os : List Op) (w : CudaWorld), Inv w w.handles → All Legal w os → ∃ w', w.run os = .ok w' := by
    intro os
    induction os with
    | nil => intro w _ _; exact ⟨w, rfl⟩
    | cons o os ih =>
      intro w I hA
      obtain ⟨w1, hs, S⟩ := step_spec I hA.1
      obtain ⟨w', hr⟩ := ih w1 S.inv (hA.2 w1 hs)
      exact ⟨w', by simp only [run, hs, Outcome.ok_bind]; exact hr⟩
  exact key os _ (inv_init hn) h

/-- C58 (count). `get_refcount()` is the number of pointers in scope that share with this one. -/
theorem _root_.SpatialOps.C58_refcount (n : Int) (hn : 0 < n) (w : CudaWorld) (R : Reach Legal n w)
    (p : CudaPtr) (hp : w.Var p) (hu : ¬ Unset p) : w.refcount p = .ok (w.sharers p : Int) := by
  have I := (inv_reach hn R).1
  rcases I.good p hp with h1 | ⟨c, d, k, hc, hd, hcv, -, -, -⟩
  · subst h1; exact absurd rfl hu
  · unfold refcount
    rw [hc, deref_some hcv]
    have : users w.handles c = w.sharers p := by
      unfold users sharers
      apply List.countP_congr
      intro o ho
      cases o with
      | none => simp
      | some q =>
        simp only [Option.bind_some, beq_iff_eq, eq, Bool.and_eq_true]
        constructor
        · intro hq
          have := I.sameRc p q hp ho (by simp [hc]) (by rw [hc, hq])
          subst this
          exact ⟨rfl, rfl⟩
        · rintro ⟨-, h2⟩
          rw [← I.sameDev p q hp ho (by simp [hd]) h2, hc]
    rw [this]

/-- C58 (no premature release). What a pointer in scope points to is allocated. -/
theorem _root_.SpatialOps.C58_held_is_live (n : Int) (hn : 0 < n) (w : CudaWorld) (R : Reach Legal n w)
    (a : Nat) (h : w.Held a) : w.Live a := (inv_reach hn R).1.held_live h

/-- C58 (release with the last pointer). Whatever is done next, a block that pointers held is freed
exactly if no pointer holds it afterwards. -/
theorem _root_.SpatialOps.C58_freed_with_last (n : Int) (hn : 0 < n) (w w' : CudaWorld)
    (R : Reach Legal n w) (o : Op) (L : Legal w o) (hs : w.step o = .ok w') (a : Nat) (h : w.Held a) :
    w'.Live a ↔ w'.Held a := by
  obtain ⟨w1, hs1, S⟩ := step_spec (inv_reach hn R).1 L
  rw [hs] at hs1
  cases hs1
  exact S.effect.1 a h

/-- C58 (nothing else is freed). A block that no pointer holds stays until it is released by hand. -/
theorem _root_.SpatialOps.C58_raw_untouched (n : Int) (hn : 0 < n) (w w' : CudaWorld)
    (R : Reach Legal n w) (o : Op) (L : Legal w o) (hs : w.step o = .ok w') (a : Nat) (d : Int)
    (hl : (a, d) ∈ w.live) (h : ¬ w.Held a) (ho : ∀ d, o ≠ .releaseRaw (some a) d) :
    (a, d) ∈ w'.live := by
  obtain ⟨w1, hs1, S⟩ := step_spec (inv_reach hn R).1 L
  rw [hs] at hs1
  cases hs1
  exact S.effect.2.1 a d hl h ho

/-- C58 (devices). If raw addresses are handed over with care, every pointer knows the device of its
block, and no block was freed under another device. -/
theorem _root_.SpatialOps.C58_right_device (n : Int) (hn : 0 < n) (w : CudaWorld)
    (R : Reach (fun w o => Legal w o ∧ Careful w o) n w) :
    w.wrongDev = [] ∧ ∀ p a, w.Var p → p.ptr = some a →
      ∃ d, w.deviceId p = .ok d ∧ (a, d) ∈ w.live := by
  have key : Inv w w.handles ∧ DInv w w.handles := by
    induction R with
    | init => exact ⟨inv_init hn, ⟨by simp [init], rfl⟩⟩
    | step _ L hs ih =>
      obtain ⟨w1, hs1, S⟩ := step_spec ih.1 L.1
      rw [hs] at hs1
      cases hs1
      exact ⟨S.inv, S.dinv ih.2 L.2⟩
  refine ⟨key.2.none_lost, fun p a hp ha => ?_⟩
  obtain ⟨d, hd⟩ := key.1.held_live ⟨p, hp, ha⟩
  refine ⟨d, ?_, hd⟩
  have := key.2.right p a d hp ha hd
  simp [deviceId, deref, this]

/-- C58 (one device). On a machine with one device no care is needed. -/
theorem _root_.SpatialOps.C58_one_device (w : CudaWorld) (R : Reach Legal 1 w) :
    w.wrongDev = [] ∧ ∀ p a, w.Var p → p.ptr = some a →
      ∃ d, w.deviceId p = .ok d ∧ (a, d) ∈ w.live := by
  have key : Reach (fun w o => Legal w o ∧ Careful w o) 1 w ∧ ∀ a e, (a, e) ∈ w.live → e = 0 := by
    induction R with
    | init => exact ⟨.init, by simp [init]⟩
    | @step w w' o R L hs ih =>
      obtain ⟨I, hN⟩ := inv_reach (by omega) R
      have hcur : w.cur = 0 := by have := I.curOk; omega
      have C : Careful w o := by
        cases o with
        | assignRaw h a =>
          intro b hb
          obtain ⟨e, he⟩ := (L.2 b hb).1
          refine ⟨by rw [hcur, ← ih.2 b e he]; exact he, fun p hp => ?_⟩
          rcases I.good p (List.mem_of_getElem? (handle_ok.1 hp)) with h1 | ⟨c, d, k, -, hd, -, hdv, hk, -⟩
          · subst h1; exact Or.inl rfl
          · right
            have : k = w.cur := by omega
            simp [deviceId, deref, hd, hdv, this]
        | releaseRaw a d =>
          intro b hb
          obtain ⟨e, he⟩ := (L.2 b hb).1
          have hd : d = 0 := by have := L.1; omega
          rw [hd, ← ih.2 b e he]
          exact he
        | _ => trivial
      refine ⟨ih.1.step ⟨L, C⟩ hs, ?_⟩
      obtain ⟨w1, hs1, S⟩ := step_spec I L
      rw [hs] at hs1
      cases hs1
      intro a e he
      rcases S.effect.2.2 a e he with h1 | h1
      · exact ih.2 a e h1
      · omega
  exact C58_right_device 1 (by omega) w key.1

/-- C58 (a new pointer). `get_shared_pointer` adds one pointer to the new block: alone, on the
requested device. -/
theorem _root_.SpatialOps.C58_get_shared (n : Int) (hn : 0 < n) (w w' : CudaWorld)
    (R : Reach Legal n w) (d : Int) (a : Nat) (L : Legal w (.getShared d (some a)))
    (hs : w.step (.getShared d (some a)) = .ok w') :
    ∃ p, w'.handles = w.handles ++ [some p] ∧ p.ptr = some a ∧ w'.refcount p = .ok 1 ∧
      w'.deviceId p = .ok d ∧ (a, d) ∈ w'.live := by
  have hN := (inv_reach hn R).2
  obtain ⟨hd, -⟩ := L
  simp only [step, getShared, malloc, setDevice] at hs
  rw [Outcome.throwIf_false (by omega), Outcome.ok_bind, Outcome.throwIf_false (not_not.2 hd)] at hs
  simp only [Outcome.ok_bind, Outcome.pure_eq, newInt] at hs
  cases hs
  exact ⟨_, rfl, rfl, by simp [refcount, deref], by simp [deviceId, deref], by simp⟩

/-- C58 (invalid device). Both allocation functions throw for a device that does not exist. -/
theorem _root_.SpatialOps.C58_invalid_device (w : CudaWorld) (d : Int) (hd : w.nDev ≤ d)
    (a : Option Nat) : w.step (.getShared d a) = .throws ∧ w.step (.getRaw d a) = .throws := by
  constructor
  · simp only [step, getShared, malloc, setDevice]
    by_cases h : d > w.nDev
    · rw [Outcome.throwIf_true h]; rfl
    · rw [Outcome.throwIf_false h, Outcome.ok_bind, Outcome.throwIf_true (by omega)]; rfl
  · simp only [step, getRaw]
    rw [Outcome.throwIf_true hd]; rfl

/-- C58 fails for default-constructed pointers: assigning one to a pointer that is not
default-constructed is undefined. -/
theorem _root_.SpatialOps.C58_assign_unset_ub (n : Int) (hn : 0 < n) (w : CudaWorld)
    (R : Reach Legal n w) (h x : Nat) (p q : CudaPtr) (hp : w.handle h = .ok p)
    (hq : w.handle x = .ok q) (hpu : ¬ Unset p) (hqu : Unset q) : w.step (.assign h x) = .ub := by
  have I := (inv_reach hn R).1
  have hq0 : q = nul := by
    rcases I.good q (List.mem_of_getElem? (handle_ok.1 hq)) with h1 | ⟨c, d, k, hc, -⟩
    · exact h1
    · rw [show q.rc = none from hqu] at hc; cases hc
  subst hq0
  have hne : eq p nul ≠ true := by
    rcases I.good p (List.mem_of_getElem? (handle_ok.1 hp)) with h1 | ⟨c, d, k, hc, hd, -⟩
    · subst h1; exact absurd rfl hpu
    · simp [eq, hd]
  obtain ⟨w1, hw1, -⟩ := drop_spec I (handle_ok.1 hp)
  simp only [step, hp, hq, Outcome.ok_bind, assignPtr, if_neg hne, hw1]
  rfl

/-- C58 fails for the host integers: whenever a pointer goes out of scope, two integers have been
newly allocated to which no pointer refers. -/
theorem _root_.SpatialOps.C58_destructor_leaks (n : Int) (hn : 0 < n) (w w' : CudaWorld)
    (R : Reach Legal n w) (h : Nat) (L : Legal w (.destroy h)) (hs : w.step (.destroy h) = .ok w') :
    ∃ c d, c ≠ d ∧ w.cells c = none ∧ w.cells d = none ∧ w'.cells c ≠ none ∧ w'.cells d ≠ none ∧
      ∀ p, w'.Var p → p.rc ≠ some c ∧ p.rc ≠ some d ∧ p.dev ≠ some c ∧ p.dev ≠ some d := by
  have I := (inv_reach hn R).1
  obtain ⟨p, hp⟩ := L
  have hx := handle_ok.1 hp
  obtain ⟨w1, Dr, hrun, -⟩ := assignRaw_spec I hx none (by simp)
  simp only [step, hp, Outcome.ok_bind, hrun, Outcome.pure_eq, List.set_set] at hs
  cases hs
  have hnx := Dr.next
  refine ⟨w1.next, w1.next + 1, by omega, I.fresh _ (by omega), I.fresh _ (by omega), ?_, ?_, ?_⟩
  · show (w1.plus2 w1.cur).cells w1.next ≠ none
    rw [plus2_rc]; simp
  · show (w1.plus2 w1.cur).cells (w1.next + 1) ≠ none
    rw [plus2_dev]; simp
  · intro q hq
    have hq' : some q ∈ w.handles.set h none := hq
    have hq1 : some q ∈ w.handles := by
      rcases mem_set_cases hq' with h1 | h1
      · exact h1
      · cases h1
    rcases I.good q hq1 with h1 | ⟨c, d, k, hc, hd, hcv, hdv, -, -⟩
    · subst h1; simp
    · have h1 := I.lt hcv
      have h2 := I.lt hdv
      rw [hc, hd]
      simp only [ne_eq, Option.some.injEq]
      omega

/-- A detached pointer on device 0 takes a block of device 1 while device 1 is current. -/
def exWrongDevice : List Op := [.unset, .detach 0, .getRaw 1 (some 5), .assignRaw 0 (some 5)]

/-- C58 fails for devices in general: the current device is asked for only after `CudaFree` has
changed it, so the pointer records device 0 for a block of device 1 although device 1 was current,
and frees it under device 0. -/
theorem _root_.SpatialOps.C58_wrong_device_recorded :
    All Legal (init 2) exWrongDevice ∧
    ((init 2).run exWrongDevice.dropLast >>= fun w => .ok w.cur) = .ok 1 ∧
    ((init 2).run exWrongDevice >>= fun w => w.handle 0 >>= fun p => w.deviceId p >>= fun d =>
      .ok (p.ptr, d, w.live)) = .ok (some 5, 0, [(5, 1)]) ∧
    ((init 2).run (exWrongDevice ++ [.destroy 0]) >>= fun w => .ok w.wrongDev) = .ok [(5, 1)] := by
  refine ⟨?_, rfl, rfl, rfl⟩
  refine ⟨trivial, fun w1 h1 => ?_⟩
  cases h1
  refine ⟨⟨nul, rfl⟩, fun w2 h2 => ?_⟩
  cases h2
  refine ⟨⟨by decide, fun a _ => by simp [Live, init, newInt]⟩, fun w3 h3 => ?_⟩
  cases h3
  refine ⟨⟨⟨_, rfl⟩, fun b hb => ?_⟩, fun w4 _ => trivial⟩
  cases hb
  exact ⟨⟨1, by simp⟩, by simp [Held, Var, init, newInt]⟩

/-- C58 needs the rule on raw addresses: one given to two pointers is freed twice, and the second
destructor throws. -/
theorem _root_.SpatialOps.C58_double_wrap_throws :
    (init 1).run [.getRaw 0 (some 5), .unset, .unset, .assignRaw 0 (some 5), .assignRaw 1 (some 5),
      .destroy 0, .destroy 1] = .throws := rfl

/-- Three pointers to one block of device 1, one to a block of device 0. -/
def exShare : List Op :=
  [.getShared 1 (some 7), .copy 0, .unset, .assign 2 1, .getShared 0 (some 9)]

/-- The hypotheses are met: a history that follows the rules, and what the pointers report. -/
example : ((init 2).run exShare >>= fun w => w.handle 1 >>= fun p => w.refcount p >>= fun r =>
    w.deviceId p >>= fun d => .ok (r, d, w.sharers p, w.live)) = .ok (3, 1, 3, [(9, 0), (7, 1)]) := rfl

example : All (fun w o => Legal w o ∧ Careful w o) (init 2) exShare := by
  refine ⟨⟨⟨by decide, fun a _ => by simp [Live, init]⟩, trivial⟩, fun w1 h1 => ?_⟩
  cases h1
  refine ⟨⟨⟨_, rfl⟩, trivial⟩, fun w2 h2 => ?_⟩
  cases h2
  refine ⟨⟨trivial, trivial⟩, fun w3 h3 => ?_⟩
  cases h3
  refine ⟨⟨⟨_, _, rfl, rfl, fun h => by cases h⟩, trivial⟩, fun w4 h4 => ?_⟩
  cases h4
  refine ⟨⟨⟨by decide, fun a ha => ?_⟩, trivial⟩, fun w5 _ => trivial⟩
  cases ha
  simp [Live, init, newInt]

/-- The block goes with the third pointer, not before. -/
example : ((init 2).run (exShare ++ [.destroy 0, .detach 1]) >>= fun w => .ok w.live) = .ok [(9, 0), (7, 1)]
    ∧ ((init 2).run (exShare ++ [.destroy 0, .detach 1, .assign 2 3]) >>= fun w => .ok w.live) = .ok [(9, 0)]
    ∧ ((init 2).run (exShare ++ [.destroy 0, .detach 1, .assign 2 3, .destroy 3, .destroy 2]) >>=
        fun w => .ok w.live) = .ok [] := ⟨rfl, rfl, rfl⟩

/-- A reachable state with a set and an unset pointer, as in `C58_assign_unset_ub`. -/
example : (init 1).run [.getShared 0 (some 7), .unset, .assign 0 1] = .ub := rfl

end SpatialOps.CudaWorld
