import Verif.Sync.Spec
import Verif.Threads.Settle

/-!
# Invariants of the semaphore, the assigner, futures and the registry
-/

namespace SpatialOps.Sync

theorem count_set' {α : Type} [DecidableEq α] {l : List α} {i : Nat} {old : α} (h : l[i]? = some old) (new b : α) :
    (l.set i new).count b + (if old = b then 1 else 0) = l.count b + (if new = b then 1 else 0) := by
  induction l generalizing i with
  | nil => simp at h
  | cons w ws ih =>
    cases i with
    | zero =>
      simp only [List.getElem?_cons_zero, Option.some.injEq] at h
      subst h
      simp only [List.set_cons_zero, List.count_cons, beq_iff_eq]
      omega
    | succ i =>
      simp only [List.getElem?_cons_succ] at h
      have := ih h
      simp only [List.set_cons_succ, List.count_cons]
      omega

/-! ## Semaphore -/

structure SemInv (initial : Int) (s : Sem) : Prop where
  account : s.val = initial + s.posts - s.waiters.count .passed
  wake : 0 < s.waiters.count .asleep → s.val ≤ s.waiters.count .woken

theorem sem_step {initial : Int} {s s' : Sem} {a : SemAct} (hc : SemInv initial s) (h : s.step a = some s') :
    SemInv initial s' := by
  have ha := hc.account
  have hw := hc.wake
  have htp : ∀ v : Int, (v ≤ 0 ∧ Sem.tryPass v = (.asleep, v)) ∨ (0 < v ∧ Sem.tryPass v = (.passed, v - 1)) := by
    intro v
    unfold Sem.tryPass
    split
    · left; exact ⟨by assumption, rfl⟩
    · right; exact ⟨by omega, rfl⟩
  cases a with
  | post who =>
    simp only [Sem.step] at h
    split at h
    · split at h
      · rename_i heq
        injection h with h; subst h
        have c1 := count_set' heq .woken .passed
        have c2 := count_set' heq .woken .woken
        have c3 := count_set' heq .woken .asleep
        have hpos : 0 < s.waiters.count .asleep := List.count_pos_iff.2 (List.mem_of_getElem? heq)
        simp only [reduceCtorEq, if_false, if_true] at c1 c2 c3
        constructor
        · dsimp only; omega
        · dsimp only; intro _; have := hw hpos; omega
      · cases h
    · split at h
      · rename_i hall
        injection h with h; subst h
        constructor
        · dsimp only; omega
        · dsimp only
          intro hpos
          have hm := List.count_pos_iff.1 hpos
          have := List.all_eq_true.1 hall _ hm
          simp at this
      · cases h
  | wait =>
    injection h with h; subst h
    rcases htp s.val with ⟨hv, e⟩ | ⟨hv, e⟩ <;> rw [e]
    · constructor
      · dsimp only; rw [List.count_append]; simp; omega
      · dsimp only; intro _; omega
    · constructor
      · dsimp only; rw [List.count_append]; simp; omega
      · dsimp only
        intro hp
        rw [List.count_append] at hp ⊢
        simp at hp ⊢
        have := hw (by simpa [List.count_pos_iff] using hp)
        omega
  | spurious j =>
    simp only [Sem.step] at h
    split at h
    · rename_i heq
      injection h with h; subst h
      have c1 := count_set' heq .woken .passed
      have c2 := count_set' heq .woken .woken
      have hpos : 0 < s.waiters.count .asleep := List.count_pos_iff.2 (List.mem_of_getElem? heq)
      simp only [reduceCtorEq, if_false, if_true] at c1 c2
      constructor
      · dsimp only; omega
      · dsimp only; intro _; have := hw hpos; omega
    · cases h
  | resume j =>
    simp only [Sem.step] at h
    split at h
    · rename_i heq
      injection h with h; subst h
      rcases htp s.val with ⟨hv, e⟩ | ⟨hv, e⟩ <;> rw [e]
      · have c1 := count_set' heq .asleep .passed
        simp only [reduceCtorEq, if_false] at c1
        constructor
        · dsimp only; omega
        · dsimp only; intro _; omega
      · have c1 := count_set' heq .passed .passed
        have c2 := count_set' heq .passed .asleep
        have c3 := count_set' heq .passed .woken
        simp only [reduceCtorEq, if_false, if_true] at c1 c2 c3
        constructor
        · dsimp only; omega
        · dsimp only; intro hp; have := hw (by omega); omega
    · cases h

theorem sem_reach {initial : Int} {s : Sem} (h : Steps Sem.step Any (Sem.init initial) s) : SemInv initial s := by
  induction h with
  | init => exact ⟨by simp [Sem.init], fun h => by simp [Sem.init] at h⟩
  | step _ _ h3 ih => exact sem_step ih h3

/-! ## Assigner -/

structure AssignInv (n : Nat) (s : Assign) : Prop where
  max : s.max = n
  len : s.tasks.length ≤ n
  full : s.main ≠ .scheduling → s.tasks.length = n
  account : s.val + s.taken = s.tasks.count .posted
  nonneg : 0 ≤ s.val
  taken : s.taken ≤ n
  asleep : s.main = .asleep → s.val = 0
  inloop : s.main = .asleep ∨ s.main = .woken → s.taken < n
  ret : s.main = .returned → s.taken = n
  fresh : s.main = .scheduling → s.taken = 0

theorem assign_pass {n : Nat} {s : Assign} (hc : AssignInv n s) (hf : s.main = .looping ∨ s.main = .woken)
    (ht : s.taken < n) : AssignInv n s.pass := by
  have hm : s.main ≠ .scheduling := by rcases hf with h | h <;> rw [h] <;> decide
  obtain ⟨h1, h2, h3, h4, h5, h6, h7, h8, h9, h10⟩ := hc
  unfold Assign.pass Sem.tryPass
  split
  · rename_i heq
    split at heq
    · exact ⟨h1, h2, fun _ => h3 hm, h4, h5, h6, fun _ => by dsimp only; omega, fun _ => ht,
        fun h => by simp at h, fun h => by simp at h⟩
    · simp at heq
  · rename_i w v heq hne
    split at hne
    · simp only [Prod.mk.injEq] at hne
      exact absurd hne.1.symm (heq · )
    · simp only [Prod.mk.injEq] at hne
      obtain ⟨_, e⟩ := hne
      subst e
      refine ⟨h1, h2, fun _ => h3 hm, ?_, ?_, ?_, fun h => by simp at h, fun h => by simp at h,
        fun h => by simp at h, fun h => by simp at h⟩
      · dsimp only; omega
      · dsimp only; omega
      · dsimp only; omega

theorem assign_step {n : Nat} {s s' : Assign} {a : AssignAct} (hc : AssignInv n s) (h : s.step a = some s') :
    AssignInv n s' := by
  have hc' := hc
  obtain ⟨h1, h2, h3, h4, h5, h6, h7, h8, h9, h10⟩ := hc'
  cases a with
  | schedule =>
    simp only [Assign.step] at h
    split at h
    · rename_i hs
      split at h
      · injection h with h; subst h
        refine ⟨h1, ?_, fun hne => absurd hs hne, ?_, h5, h6, h7, h8, h9, h10⟩
        · simp only [List.length_append, List.length_cons, List.length_nil]; omega
        · simp only [List.count_append]; simpa using h4
      · injection h with h; subst h
        exact ⟨h1, h2, fun _ => by dsimp only; omega, h4, h5, h6, fun h => by simp at h, fun h => by simp at h,
          fun h => by simp at h, fun h => by simp at h⟩
    · cases h
  | write i =>
    simp only [Assign.step] at h
    split at h
    · rename_i heq
      injection h with h; subst h
      have c := count_set' heq .written .posted
      simp only [reduceCtorEq, if_false] at c
      exact ⟨h1, by simpa using h2, by simpa using h3, by dsimp only; omega, h5, h6, h7, h8, h9, h10⟩
    · cases h
  | post i =>
    simp only [Assign.step] at h
    split at h
    · rename_i heq
      injection h with h; subst h
      have c := count_set' heq .posted .posted
      simp only [reduceCtorEq, if_false, if_true] at c
      by_cases ha : s.main = .asleep
      · simp only [ha, if_true]
        refine ⟨h1, by simpa using h2, fun _ => by simpa using h3 (by rw [ha]; decide), by dsimp only; omega,
          by dsimp only; omega, h6, fun h => by simp at h, fun _ => h8 (Or.inl ha), fun h => by simp at h,
          fun h => by simp at h⟩
      · simp only [ha, if_false]
        refine ⟨h1, by simpa using h2, fun h => by simpa using h3 h, by dsimp only; omega,
          by dsimp only; omega, h6, fun h => absurd h ha, h8, h9, h10⟩
    · cases h
  | loop =>
    simp only [Assign.step] at h
    split at h
    · rename_i hl
      split at h
      · injection h with h; subst h
        exact assign_pass hc (Or.inl hl) (by omega)
      · injection h with h; subst h
        exact ⟨h1, h2, fun _ => h3 (by rw [hl]; decide), h4, h5, h6, fun h => by simp at h, fun h => by simp at h,
          fun _ => by dsimp only; omega, fun h => by simp at h⟩
    · cases h
  | spurious =>
    simp only [Assign.step] at h
    split at h
    · rename_i ha
      injection h with h; subst h
      exact ⟨h1, h2, fun _ => h3 (by rw [ha]; decide), h4, h5, h6, fun h => by simp at h,
        fun _ => h8 (Or.inl ha), fun h => by simp at h, fun h => by simp at h⟩
    · cases h
  | resume =>
    simp only [Assign.step] at h
    split at h
    · rename_i ha
      injection h with h; subst h
      exact assign_pass hc (Or.inr ha) (h8 (Or.inr ha))
    · cases h

theorem assign_reach {n : Nat} {s : Assign} (h : Steps Assign.step Any (Assign.init n) s) : AssignInv n s := by
  induction h with
  | init =>
    refine ⟨rfl, Nat.zero_le _, fun h => absurd rfl h, rfl, Int.le_refl _, Nat.zero_le _, ?_, ?_, ?_, fun _ => rfl⟩ <;>
      simp [Assign.init]
  | step _ _ h3 ih => exact assign_step ih h3

/-- Steps left. -/
def taskW : TaskSt → Nat
  | .pending => 3
  | .written => 2
  | .posted => 0

def mainW : MainSt → Nat
  | .scheduling => 3
  | .looping => 2
  | .woken => 1
  | .asleep => 0
  | .returned => 0

/-- 1 if task `i` has written. -/
def Assign.wrote (s : Assign) (i : Nat) : Nat :=
  if s.tasks[i]? = some .written ∨ s.tasks[i]? = some .posted then 1 else 0

/-- 1 if task `i` has posted. -/
def Assign.didPost (s : Assign) (i : Nat) : Nat := if s.tasks[i]? = some .posted then 1 else 0

theorem assign_count {s s' : Assign} {a : AssignAct} (h : s.step a = some s') (i : Nat) :
    s'.wrote i = s.wrote i + (if a = .write i then 1 else 0) ∧
    s'.didPost i = s.didPost i + (if a = .post i then 1 else 0) := by
  have hp : ∀ s : Assign, s.pass.tasks = s.tasks := by
    intro s; unfold Assign.pass; split <;> rfl
  unfold Assign.wrote Assign.didPost
  cases a with
  | schedule =>
    simp only [Assign.step] at h
    split at h
    · split at h
      · injection h with h; subst h
        simp only [List.getElem?_append]
        by_cases hi : i < s.tasks.length
        · simp [hi]
        · rw [if_neg hi]
          have : s.tasks[i]? = none := List.getElem?_eq_none (by omega)
          rw [this]
          by_cases h0 : i - s.tasks.length = 0 <;> simp [h0]
      · injection h with h; subst h; simp
    · cases h
  | write j =>
    simp only [Assign.step] at h
    split at h
    · rename_i hj
      injection h with h; subst h
      have hl : j < s.tasks.length := (List.getElem?_eq_some_iff.1 hj).1
      by_cases hij : j = i
      · subst hij
        have hv := (List.getElem?_eq_some_iff.1 hj).2
        simp [hl, hv]
      · simp [List.getElem?_set_ne hij, hij]
    · cases h
  | post j =>
    simp only [Assign.step] at h
    split at h
    · rename_i hj
      injection h with h; subst h
      have hl : j < s.tasks.length := (List.getElem?_eq_some_iff.1 hj).1
      by_cases hij : j = i
      · subst hij
        have hv := (List.getElem?_eq_some_iff.1 hj).2
        simp [hl, hv]
      · simp [List.getElem?_set_ne hij, hij]
    · cases h
  | loop =>
    simp only [Assign.step] at h
    split at h
    · split at h <;> (injection h with h; subst h; simp [hp])
    · cases h
  | spurious =>
    simp only [Assign.step] at h
    split at h
    · injection h with h; subst h; simp
    · cases h
  | resume =>
    simp only [Assign.step] at h
    split at h
    · injection h with h; subst h; simp [hp]
    · cases h

theorem assign_counts {s s' : Assign} {as : List AssignAct} (h : runs Assign.step s as = some s') (i : Nat) :
    s'.wrote i = s.wrote i + as.count (.write i) ∧ s'.didPost i = s.didPost i + as.count (.post i) := by
  induction as generalizing s with
  | nil => simp only [runs, Option.some.injEq] at h; subst h; simp
  | cons a as ih =>
    simp only [runs] at h
    cases hs : s.step a with
    | none => rw [hs] at h; cases h
    | some s1 =>
      rw [hs] at h
      obtain ⟨h1, h2⟩ := assign_count hs i
      obtain ⟨h3, h4⟩ := ih h
      simp only [List.count_cons, beq_iff_eq]
      omega

def Assign.fuel (s : Assign) : Nat :=
  4 * (s.max - s.tasks.length) + (s.tasks.map taskW).sum + 2 * (s.max - s.taken) + mainW s.main

theorem sum_set {l : List TaskSt} {i : Nat} {old : TaskSt} (h : l[i]? = some old) (new : TaskSt) :
    ((l.set i new).map taskW).sum + taskW old = (l.map taskW).sum + taskW new := by
  induction l generalizing i with
  | nil => simp at h
  | cons w ws ih =>
    cases i with
    | zero =>
      simp only [List.getElem?_cons_zero, Option.some.injEq] at h
      subst h
      simp only [List.set_cons_zero, List.map_cons, List.sum_cons]
      omega
    | succ i =>
      simp only [List.getElem?_cons_succ] at h
      have := ih h
      simp only [List.set_cons_succ, List.map_cons, List.sum_cons]
      omega

theorem fuel_pass {n : Nat} {s : Assign} (hc : AssignInv n s) (hf : s.main = .looping ∨ s.main = .woken)
    (ht : s.taken < n) : s.pass.fuel < s.fuel := by
  have h1 := hc.max
  have hm : 1 ≤ mainW s.main ∧ mainW s.main ≤ 2 := by rcases hf with h | h <;> rw [h] <;> decide
  unfold Assign.pass Sem.tryPass
  by_cases hv : s.val ≤ 0
  · rw [if_pos hv]; unfold Assign.fuel
    have e : mainW .asleep = 0 := rfl
    dsimp only; omega
  · rw [if_neg hv]; unfold Assign.fuel
    have e : mainW .looping = 2 := rfl
    dsimp only; omega

theorem fuel_assign {n : Nat} {s s' : Assign} {a : AssignAct} (hc : AssignInv n s) (hr : a.real)
    (h : s.step a = some s') : s'.fuel < s.fuel := by
  have h1 := hc.max
  cases a with
  | schedule =>
    simp only [Assign.step] at h
    split at h
    · rename_i hs
      split at h
      · injection h with h; subst h
        unfold Assign.fuel
        simp only [List.map_append, List.sum_append, List.length_append, List.map_cons, List.map_nil,
          List.sum_cons, List.sum_nil, List.length_cons, List.length_nil, taskW]
        omega
      · injection h with h; subst h
        unfold Assign.fuel
        simp only [mainW, hs]; omega
    · cases h
  | write i =>
    simp only [Assign.step] at h
    split at h
    · rename_i heq
      injection h with h; subst h
      have := sum_set heq .written
      simp only [taskW] at this
      unfold Assign.fuel
      simp only [List.length_set]
      omega
    · cases h
  | post i =>
    simp only [Assign.step] at h
    split at h
    · rename_i heq
      injection h with h; subst h
      have := sum_set heq .posted
      simp only [taskW] at this
      unfold Assign.fuel
      simp only [List.length_set]
      by_cases ha : s.main = .asleep
      · simp only [ha, if_true, mainW]; omega
      · simp only [ha, if_false]; omega
    · cases h
  | loop =>
    simp only [Assign.step] at h
    split at h
    · rename_i hl
      split at h
      · injection h with h; subst h
        exact fuel_pass hc (Or.inl hl) (by omega)
      · injection h with h; subst h
        unfold Assign.fuel
        simp only [mainW, hl]; omega
    · cases h
  | spurious => exact absurd hr id
  | resume =>
    simp only [Assign.step] at h
    split at h
    · rename_i ha
      injection h with h; subst h
      exact fuel_pass hc (Or.inr ha) (hc.inloop (Or.inr ha))
    · cases h

theorem fuel_runs {n : Nat} {s s' : Assign} {as : List AssignAct} (hc : AssignInv n s)
    (hr : ∀ a ∈ as, AssignAct.real a) (h : runs Assign.step s as = some s') : as.length + s'.fuel ≤ s.fuel := by
  induction as generalizing s with
  | nil => simp only [runs, Option.some.injEq] at h; subst h; simp
  | cons a as ih =>
    simp only [runs] at h
    cases hs : s.step a with
    | none => rw [hs] at h; cases h
    | some s1 =>
      rw [hs] at h
      have h1 := fuel_assign hc (hr a (by simp)) hs
      have h2 := ih (assign_step hc hs) (fun b hb => hr b (by simp [hb])) h
      rw [List.length_cons]; omega

theorem stuck_returned {n : Nat} {s : Assign} (hc : AssignInv n s) (h : s.Stuck) : s.main = .returned := by
  cases hm : s.main with
  | scheduling =>
    have := h .schedule trivial
    simp only [Assign.step, hm, if_true] at this
    split at this <;> cases this
  | looping =>
    have := h .loop trivial
    simp only [Assign.step, hm, if_true] at this
    split at this <;> cases this
  | woken =>
    have := h .resume trivial
    simp [Assign.step, hm] at this
  | returned => rfl
  | asleep =>
    exfalso
    have hlt := hc.inloop (Or.inl hm)
    have hv := hc.asleep hm
    have hac := hc.account
    have hfull := hc.full (by rw [hm]; decide)
    have hall : ∀ t ∈ s.tasks, t = .posted := by
      intro t ht
      obtain ⟨i, hi⟩ := List.getElem?_of_mem ht
      cases t with
      | pending => have := h (.write i) trivial; simp [Assign.step, hi] at this
      | written => have := h (.post i) trivial; simp [Assign.step, hi] at this
      | posted => rfl
    have := List.count_eq_length.2 (fun b hb => (hall b hb).symm)
    omega

/-! ## Futures -/

variable {V : Type}

structure FutureInv (s : Future V) : Prop where
  res : s.ready = true ↔ s.result ≠ none
  asleep : s.ready = true → .asleep ∉ s.waiters
  ret : ∀ w, .returned w ∈ s.waiters → s.ready = true ∧ w = s.result
  calls : s.calls = (match s.task with | .computed v => [v] | _ => s.calls) ∧ s.calls.length ≤ 1
  early : (s.task = .notRun ∨ s.task = .executing ∨ s.task = .checked) → s.calls = [] ∧ s.ready = false
  comp : ∀ v, s.task = .computed v → s.ready = false
  val : ∀ v, s.result = some v → s.calls = [v]

theorem look_ne_asleep {s : Future V} (h : s.ready = true) : s.look ≠ .asleep := by
  unfold Future.look; simp [h]

theorem look_returned {s : Future V} {w : Option V} (h : s.look = .returned w) : s.ready = true ∧ w = s.result := by
  unfold Future.look at h
  split at h
  · rename_i hr
    injection h with h
    exact ⟨hr, h.symm⟩
  · cases h

theorem future_waiters {s : Future V} (hc : FutureInv s) {ws : List (FWait V)}
    (h1 : ∀ w ∈ ws, w ∈ s.waiters ∨ w = .woken ∨ w = s.look) : FutureInv { s with waiters := ws } := by
  refine ⟨hc.res, fun hr hm => ?_, fun w hm => ?_, hc.calls, hc.early, hc.comp, hc.val⟩
  · rcases h1 _ hm with h | h | h
    · exact hc.asleep hr h
    · cases h
    · exact look_ne_asleep hr h.symm
  · rcases h1 _ hm with h | h | h
    · exact hc.ret w h
    · cases h
    · exact look_returned h.symm

theorem future_step {s s' : Future V} {a : FAct V} (hc : FutureInv s) (h : s.step a = some s') : FutureInv s' := by
  have hcalls := hc.calls
  cases a with
  | task v =>
    simp only [Future.step] at h
    split at h
    · rename_i ht
      injection h with h; subst h
      obtain ⟨e1, e2⟩ := hc.early (Or.inl ht)
      exact ⟨hc.res, hc.asleep, hc.ret, ⟨rfl, hcalls.2⟩, fun _ => ⟨e1, e2⟩, fun v hv => (by simp at hv), hc.val⟩
    · rename_i ht
      injection h with h; subst h
      obtain ⟨e1, e2⟩ := hc.early (Or.inr (Or.inl ht))
      refine ⟨hc.res, hc.asleep, hc.ret, ⟨?_, hcalls.2⟩, fun _ => ⟨e1, e2⟩, fun v hv => e2, hc.val⟩
      dsimp only
      cases s.cancelled <;> rfl
    · rename_i ht
      injection h with h; subst h
      obtain ⟨e1, e2⟩ := hc.early (Or.inr (Or.inr ht))
      refine ⟨hc.res, hc.asleep, hc.ret, ⟨by simp [e1], by simp [e1]⟩, fun h => by simp at h, fun _ _ => e2, fun w hw => ?_⟩
      have := hc.val w hw
      rw [e1] at this; cases this
    · rename_i w ht
      injection h with h; subst h
      have e2 := hc.comp w ht
      have e1 : s.calls = [w] := by rw [hcalls.1, ht]
      unfold Future.setValue
      by_cases hcan : s.cancelled = true
      · simp only [e2, hcan, Bool.not_false, Bool.not_true, Bool.and_false, Bool.false_eq_true, if_false]
        have hret : ∀ w, .returned w ∈ s.waiters → False := by
          intro w hw
          have := (hc.ret w hw).1
          rw [e2] at this
          cases this
        refine ⟨by simpa [e2] using hc.res, (fun h => by cases h), fun w hw => (hret w hw).elim, ⟨rfl, hcalls.2⟩, ?_, ?_, hc.val⟩
        · intro h; simp at h
        · intro v hv; simp at hv
      · simp only [Bool.not_eq_true] at hcan
        simp only [e2, hcan, Bool.not_false, Bool.and_self, if_true]
        refine ⟨by simp, fun _ hm => ?_, fun w' hm => ?_, ⟨rfl, hcalls.2⟩, fun h => by simp at h,
          fun v hv => by simp at hv, fun v hv => ?_⟩
        · obtain ⟨x, _, hx⟩ := List.mem_map.1 hm
          cases x <;> simp [wakeF] at hx
        · obtain ⟨x, hx1, hx2⟩ := List.mem_map.1 hm
          cases x with
          | asleep => simp [wakeF] at hx2
          | woken => simp [wakeF] at hx2
          | returned w2 =>
            have := (hc.ret w2 hx1).1
            rw [e2] at this; cases this
        · simp only [Option.some.injEq] at hv
          subst hv
          exact e1
    · rename_i ht
      injection h with h; subst h
      exact ⟨hc.res, hc.asleep, hc.ret, ⟨rfl, hcalls.2⟩, fun h => by simp at h, fun v hv => by simp at hv, hc.val⟩
    · cases h
  | wait =>
    injection h with h; subst h
    refine future_waiters hc (fun w hw => ?_)
    rcases List.mem_append.1 hw with h | h
    · exact Or.inl h
    · exact Or.inr (Or.inr (List.mem_singleton.1 h))
  | spurious j =>
    simp only [Future.step] at h
    split at h
    · injection h with h; subst h
      refine future_waiters hc (fun w hw => ?_)
      rcases List.mem_or_eq_of_mem_set hw with h | h
      · exact Or.inl h
      · exact Or.inr (Or.inl h)
    · cases h
  | resume j =>
    simp only [Future.step] at h
    split at h
    · injection h with h; subst h
      refine future_waiters hc (fun w hw => ?_)
      rcases List.mem_or_eq_of_mem_set hw with h | h
      · exact Or.inl h
      · exact Or.inr (Or.inr h)
    · cases h
  | cancelTest =>
    injection h with h; subst h
    exact ⟨hc.res, hc.asleep, hc.ret, hc.calls, hc.early, hc.comp, hc.val⟩
  | cancelWrite j =>
    simp only [Future.step] at h
    split at h
    · injection h with h; subst h
      exact ⟨hc.res, hc.asleep, hc.ret, hc.calls, hc.early, hc.comp, hc.val⟩
    · cases h

theorem future_reach {g : Bool} {s : Future V} (h : Steps Future.step Any (Future.init g) s) : FutureInv s := by
  induction h with
  | init =>
    refine ⟨by simp [Future.init], fun h => by simp [Future.init] at h, fun w h => by simp [Future.init] at h,
      ⟨rfl, by simp [Future.init]⟩, fun _ => ⟨rfl, rfl⟩, fun _ _ => rfl, fun v h => by simp [Future.init] at h⟩
  | step _ _ h3 ih => exact future_step ih h3

/-- Per step: readiness, value and the cancel flag are permanent, and a future that
is cancelled while not ready stays so. -/
theorem future_mono {s s' : Future V} {a : FAct V} (h : s.step a = some s') :
    (s.ready = true → s'.ready = true ∧ s'.result = s.result) ∧ (s.cancelled = true → s'.cancelled = true) ∧
    (s.cancelled = true → s.ready = false → s'.ready = false) := by
  have triv : ∀ s' : Future V, s'.ready = s.ready → s'.result = s.result → (s.cancelled = true → s'.cancelled = true) →
      (s.ready = true → s'.ready = true ∧ s'.result = s.result) ∧ (s.cancelled = true → s'.cancelled = true) ∧
      (s.cancelled = true → s.ready = false → s'.ready = false) := by
    intro s' h1 h2 h3
    rw [h1, h2]
    exact ⟨fun h => ⟨h, rfl⟩, h3, fun _ h => h⟩
  cases a with
  | task v =>
    simp only [Future.step] at h
    split at h
    · injection h with h; subst h; exact triv _ rfl rfl id
    · injection h with h; subst h; exact triv _ rfl rfl id
    · injection h with h; subst h; exact triv _ rfl rfl id
    · rename_i w ht
      injection h with h; subst h
      unfold Future.setValue
      cases h1 : s.ready <;> cases h2 : s.cancelled <;> simp [h1, h2]
    · injection h with h; subst h; exact triv _ rfl rfl id
    · cases h
  | wait => injection h with h; subst h; exact triv _ rfl rfl id
  | spurious j =>
    simp only [Future.step] at h
    split at h
    · injection h with h; subst h; exact triv _ rfl rfl id
    · cases h
  | resume j =>
    simp only [Future.step] at h
    split at h
    · injection h with h; subst h; exact triv _ rfl rfl id
    · cases h
  | cancelTest => injection h with h; subst h; exact triv _ rfl rfl id
  | cancelWrite j =>
    simp only [Future.step] at h
    split at h
    · injection h with h; subst h
      exact triv _ rfl rfl (fun h => by simp [h])
    · cases h

theorem future_mono_reach {s s' : Future V} {P : FAct V → Prop} (h : Steps Future.step P s s') :
    (s.ready = true → s'.ready = true ∧ s'.result = s.result) ∧ (s.cancelled = true → s'.cancelled = true) ∧
    (s.cancelled = true → s.ready = false → s'.ready = false) := by
  induction h with
  | init => exact ⟨fun h => ⟨h, rfl⟩, id, fun _ h => h⟩
  | step _ _ h3 ih =>
    obtain ⟨a1, a2, a3⟩ := ih
    obtain ⟨b1, b2, b3⟩ := future_mono h3
    refine ⟨fun h => ?_, fun h => b2 (a2 h), fun h1 h2 => b3 (a2 h1) (a3 h1 h2)⟩
    obtain ⟨c1, c2⟩ := a1 h
    obtain ⟨d1, d2⟩ := b1 c1
    exact ⟨d1, d2.trans c2⟩

/-! ## Registry -/

open Threads (Pool Push Act)
variable {T : Type}

theorem upd_same {β : Type} (f : Nat → β) (k : Nat) (v : β) : upd f k v k = v := if_pos rfl
theorem upd_other {β : Type} (f : Nat → β) {k x : Nat} (v : β) (h : x ≠ k) : upd f k v x = f x := if_neg h

/-- Recorded sizes are at least one. -/
theorem reg_pos_step {push : Push T} {m m' : Mgr T} {a : MAct T} (h : m.step push a = some m')
    (hc : ∀ id r, m.reg id = some r → 1 ≤ r) : ∀ id r, m'.reg id = some r → 1 ≤ r := by
  intro id r hr
  cases a with
  | self i n made =>
    injection h with h; subst h
    unfold Mgr.self at hr
    split at hr
    · exact hc id r hr
    · unfold Mgr.insert at hr
      dsimp only at hr
      split at hr
      · dsimp only at hr
        by_cases e : id = i
        · rw [e, upd_same] at hr
          injection hr with hr
          subst hr
          split <;> omega
        · rw [upd_other _ _ e] at hr; exact hc id r hr
      · exact hc id r hr
  | remove i =>
    injection h with h; subst h
    unfold Mgr.remove at hr
    split at hr
    · dsimp only at hr
      by_cases e : id = i
      · rw [e, upd_same] at hr; cases hr
      · rw [upd_other _ _ e] at hr; exact hc id r hr
    · exact hc id r hr
  | resize i n made =>
    injection h with h; subst h
    unfold Mgr.resize at hr
    split at hr
    · exact hc id r hr
    · split at hr
      · exact hc id r hr
      · dsimp only [Mgr.onPool] at hr
        by_cases e : id = i
        · rw [e, upd_same] at hr
          injection hr with hr
          subst hr
          split <;> omega
        · rw [upd_other _ _ e] at hr; exact hc id r hr
  | resizeActive i n =>
    injection h with h; subst h
    unfold Mgr.resizeActive at hr
    split at hr
    · exact hc id r hr
    · exact hc id r hr
  | pool i a =>
    simp only [Mgr.step] at h
    split at h
    · rename_i p hp
      cases hs : p.step push a with
      | none => rw [hs] at h; cases h
      | some p' =>
        rw [hs] at h
        injection h with h; subst h
        exact hc id r hr
    · cases h

/-- The pools of the registry are pools in a reachable state. -/
def PoolsReach (push : Push T) (m : Mgr T) : Prop :=
  ∀ id p, m.pools id = some p → ∃ n made, Threads.Reach push (fun _ _ => True) (Pool.create n made) p

theorem pools_reach_step {push : Push T} {m m' : Mgr T} {a : MAct T} (h : m.step push a = some m')
    (hc : PoolsReach push m) : PoolsReach push m' := by
  have onp : ∀ (i : Nat) (f : Pool T → Pool T) (m : Mgr T), PoolsReach push m →
      (∀ p, ∃ a, p.step push a = some (f p)) → PoolsReach push (m.onPool i f) := by
    intro i f m hc hf id p hp
    unfold Mgr.onPool at hp
    by_cases e : id = i
    · dsimp only at hp
      rw [e, upd_same] at hp
      cases hq : m.pools i with
      | none => rw [hq] at hp; cases hp
      | some q =>
        rw [hq] at hp
        injection hp with hp
        subst hp
        obtain ⟨n, made, hR⟩ := hc i q hq
        obtain ⟨a, ha⟩ := hf q
        exact ⟨n, made, hR.step trivial ha⟩
    · dsimp only at hp
      rw [upd_other _ _ e] at hp
      exact hc id p hp
  cases a with
  | self i n made =>
    injection h with h; subst h
    unfold Mgr.self
    split
    · exact hc
    · intro id p hp
      have hp' : upd m.pools i (some (Pool.create n made)) id = some p := by
        unfold Mgr.insert at hp
        dsimp only at hp
        split at hp <;> exact hp
      by_cases e : id = i
      · rw [e, upd_same] at hp'
        injection hp' with hp'
        subst hp'
        exact ⟨n, made, .init⟩
      · rw [upd_other _ _ e] at hp'; exact hc id p hp'
  | remove i =>
    injection h with h; subst h
    unfold Mgr.remove
    split <;> exact hc
  | resize i n made =>
    injection h with h; subst h
    unfold Mgr.resize
    split
    · exact hc
    · split
      · exact hc
      · exact onp _ _ _ hc (fun p => ⟨.resize _ made, rfl⟩)
  | resizeActive i n =>
    injection h with h; subst h
    unfold Mgr.resizeActive
    split
    · exact hc
    · exact onp _ _ _ hc (fun p => ⟨.resizeActive _, rfl⟩)
  | pool i a =>
    simp only [Mgr.step] at h
    split at h
    · rename_i p hp
      cases hs : p.step push a with
      | none => rw [hs] at h; cases h
      | some p' =>
        rw [hs] at h
        injection h with h; subst h
        intro id q hq
        dsimp only at hq
        by_cases e : id = i
        · rw [e, upd_same] at hq
          injection hq with hq
          subst hq
          obtain ⟨n, made, hR⟩ := hc i p hp
          exact ⟨n, made, hR.step trivial hs⟩
        · rw [upd_other _ _ e] at hq; exact hc id q hq
    · cases h

/-- The recorded size is the pool's target. -/
def RegTarget (m : Mgr T) : Prop :=
  ∀ id, (m.reg id = none ↔ m.pools id = none) ∧
    ∀ r p, m.reg id = some r → m.pools id = some p → p.target = r ∧ p.terminating = false

theorem reg_target_step {push : Push T} {m m' : Mgr T} {a : MAct T} (hv : a.viaRegistry)
    (h : m.step push a = some m') (hc : RegTarget m) : RegTarget m' := by
  cases a with
  | self i n made =>
    injection h with h; subst h
    have hn : 1 ≤ n := hv
    unfold Mgr.self
    cases hp : m.pools i with
    | some p => exact hc
    | none =>
      have hr := (hc i).1.2 hp
      unfold Mgr.insert
      simp only [hr]
      intro id
      by_cases e : id = i
      · subst e
        simp only [upd_same]
        refine ⟨by simp, fun r p hr hp => ?_⟩
        simp only [Option.some.injEq] at hr hp
        subst hr hp
        rw [if_neg (by omega)]
        constructor
        · unfold Pool.create Pool.resizeActive Pool.resize Pool.grow Pool.empty
          simp
        · unfold Pool.create Pool.resizeActive Pool.resize Pool.grow Pool.empty
          simp
      · simp only [upd_other _ _ e]
        exact hc id
  | remove i => exact absurd hv id
  | resize i n made =>
    injection h with h; subst h
    unfold Mgr.resize
    split
    · exact hc
    · rename_i r0 hr0
      split
      · exact hc
      · intro id
        unfold Mgr.onPool
        by_cases e : id = i
        · subst e
          simp only [upd_same]
          obtain ⟨h1, h2⟩ := hc id
          cases hp : m.pools id with
          | none => rw [h1.2 hp] at hr0; cases hr0
          | some p0 =>
            have h3 := h2 r0 p0 hr0 hp
            refine ⟨by simp, fun r p hr hp => ?_⟩
            simp only [Option.some.injEq, Option.map_some] at hr hp
            subst hr hp
            unfold Pool.resize Pool.grow
            rw [if_neg (by simp [h3.2])]
            dsimp only
            have e : (((if n < 1 then 1 else n : Int).toNat : Nat) : Int) = if n < 1 then 1 else n := by
              split <;> omega
            rw [e]
            by_cases hle : p0.wc ≤ (if n < 1 then 1 else n : Int)
            · rw [if_pos hle]; exact ⟨rfl, h3.2⟩
            · rw [if_neg hle]; exact ⟨rfl, h3.2⟩
        · simp only [upd_other _ _ e]
          exact hc id
  | resizeActive i n =>
    injection h with h; subst h
    unfold Mgr.resizeActive
    split
    · exact hc
    · intro id
      unfold Mgr.onPool
      by_cases e : id = i
      · subst e
        simp only [upd_same]
        obtain ⟨h1, h2⟩ := hc id
        cases hp : m.pools id with
        | none => simp [h1.2 hp]
        | some p0 =>
          refine ⟨?_, fun r p hr hp' => ?_⟩
          · rw [h1, hp]; simp
          · simp only [Option.map_some, Option.some.injEq] at hp'
            subst hp'
            exact h2 r p0 hr hp
      · simp only [upd_other _ _ e]
        exact hc id
  | pool i a =>
    simp only [Mgr.step] at h
    split at h
    · rename_i p hp
      cases hs : p.step push a with
      | none => rw [hs] at h; cases h
      | some p' =>
        rw [hs] at h
        injection h with h; subst h
        have key : p'.target = p.target ∧ p'.terminating = p.terminating := by
          cases a with
          | resize n k => exact absurd hv id
          | fail n k => exact absurd hv id
          | terminateAll => exact absurd hv id
          | schedule t who =>
            simp only [Pool.step] at hs
            split at hs
            · split at hs
              · injection hs with hs; subst hs; exact ⟨rfl, rfl⟩
              · cases hs
            · split at hs
              · injection hs with hs; subst hs; exact ⟨rfl, rfl⟩
              · cases hs
          | clear => injection hs with hs; subst hs; exact ⟨rfl, rfl⟩
          | resizeActive n => injection hs with hs; subst hs; exact ⟨rfl, rfl⟩
          | wait k => injection hs with hs; subst hs; exact ⟨rfl, rfl⟩
          | clientSpurious j =>
            simp only [Pool.step] at hs
            split at hs
            · injection hs with hs; subst hs; exact ⟨rfl, rfl⟩
            · cases hs
          | clientResume j =>
            simp only [Pool.step] at hs
            split at hs
            · injection hs with hs; subst hs; exact ⟨rfl, rfl⟩
            · cases hs
          | spurious j =>
            simp only [Pool.step] at hs
            split at hs
            · injection hs with hs; subst hs; exact ⟨rfl, rfl⟩
            · cases hs
          | fetch i => exact ⟨(Threads.worker_step (by trivial) hs).2.1, (Threads.worker_step (by trivial) hs).2.2.1⟩
          | resume i => exact ⟨(Threads.worker_step (by trivial) hs).2.1, (Threads.worker_step (by trivial) hs).2.2.1⟩
          | finish i => exact ⟨(Threads.worker_step (by trivial) hs).2.1, (Threads.worker_step (by trivial) hs).2.2.1⟩
          | exit i => exact ⟨(Threads.worker_step (by trivial) hs).2.1, (Threads.worker_step (by trivial) hs).2.2.1⟩
        intro id
        by_cases e : id = i
        · subst e
          simp only [upd_same]
          obtain ⟨h1, h2⟩ := hc id
          refine ⟨?_, fun r q hr hq => ?_⟩
          · rw [h1, hp]; simp
          · simp only [Option.some.injEq] at hq
            subst hq
            rw [key.1, key.2]
            exact h2 r p hr hp
        · simp only [upd_other _ _ e]
          exact hc id
    · cases h

end SpatialOps.Sync
