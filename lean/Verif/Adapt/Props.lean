import Verif.Adapt.Model
import Mathlib.Tactic.Ring

/-!
# C82: looped tasks
-/

namespace SpatialOps
namespace Adapt

/-- The calls of a task that waits `gap` before each: `t` is when the wait before the first of them began, `i` its number. The
results are those of the function, and no call follows one that returned false. -/
def Spaced (gap : Nat) (f : Nat → Bool) : Nat → Nat → List Call → Prop
  | _, _, [] => True
  | i, t, c :: cs => t + gap ≤ c.begun ∧ c.begun ≤ c.ended ∧ c.result = f i ∧ (cs ≠ [] → c.result = true) ∧
      Spaced gap f (i + 1) c.ended cs

/-- The moment the wait before the next call began. -/
def since (t0 : Nat) (calls : List Call) : Nat := (calls.getLast?.map Call.ended).getD t0

theorem since_append (t0 : Nat) (calls : List Call) (c : Call) : since t0 (calls ++ [c]) = c.ended := by simp [since]

theorem break_eq (c : Bool) (interval : Nat) (h : interval < 2 ^ 32) :
    (Looped.make c interval).breakS * 10 ^ 9 + (Looped.make c interval).breakNs = interval * 10 ^ 6 := by
  have e1 : interval / 1000 * 1000 ≤ interval := Nat.div_mul_le_self _ _
  have e2 : interval - interval / 1000 * 1000 = interval % 1000 := by omega
  have e3 : (interval + (uintSize - (interval / 1000 * 1000) % uintSize)) % uintSize = interval % 1000 := by
    unfold uintSize
    rw [Nat.mod_eq_of_lt (by omega : interval / 1000 * 1000 < 2 ^ 32)]
    omega
  have e4 : interval % 1000 * 1000 % uintSize = interval % 1000 * 1000 := Nat.mod_eq_of_lt (by unfold uintSize; omega)
  have e5 : interval % 1000 * 1000 * 1000 % uintSize = interval % 1000 * 1000 * 1000 := Nat.mod_eq_of_lt (by unfold uintSize; omega)
  simp only [Looped.make]
  rw [e3, e4, e5]
  omega

theorem pauses_iff (c : Bool) (interval : Nat) (h : interval < 2 ^ 32) : (Looped.make c interval).pauses = decide (0 < interval) := by
  have := break_eq c interval h
  unfold Looped.pauses
  generalize (Looped.make c interval).breakS = a at *
  generalize (Looped.make c interval).breakNs = b at *
  by_cases hi : 0 < interval
  · have : 0 < a ∨ 0 < b := by omega
    simpa [hi] using this
  · have : a = 0 ∧ b = 0 := by omega
    simp [this.1, this.2, hi]

theorem spaced_append {gap : Nat} {f : Nat → Bool} {i t : Nat} {cs : List Call} {c : Call} (h : Spaced gap f i t cs)
    (ht : ∀ x ∈ cs, x.result = true) (h1 : since t cs + gap ≤ c.begun) (h2 : c.begun ≤ c.ended) (h3 : c.result = f (i + cs.length)) :
    Spaced gap f i t (cs ++ [c]) := by
  induction cs generalizing i t with
  | nil => exact ⟨h1, h2, h3, fun h => absurd rfl h, trivial⟩
  | cons d ds ih =>
    obtain ⟨a1, a2, a3, a4, a5⟩ := h
    refine ⟨a1, a2, a3, fun _ => ht d (by simp), ih a5 (fun x hx => ht x (by simp [hx])) ?_ ?_⟩
    · cases ds with
      | nil => simpa [since] using h1
      | cons e es =>
        have : since t (d :: e :: es) = since d.ended (e :: es) := by simp [since, List.getLast?_cons]
        rwa [this] at h1
    · rw [h3, List.length_cons]
      congr 1
      omega

/-- What holds at each place of the program. -/
structure Inv (gap : Nat) (f : Nat → Bool) (t0 k : Nat) (s : St) : Prop where
  spaced : Spaced gap f 0 t0 s.calls
  past : since t0 s.calls ≤ s.now
  goes : s.pc ≠ .done → (∀ c ∈ s.calls, c.result = true) ∧ ∀ i < s.calls.length, f i = true
  entered : s.pc = .entered → s.calls = [] ∧ k = 0
  sleeping : ∀ xt, s.pc = .sleeping xt → since t0 s.calls + gap ≤ xt.1 * 10 ^ 9 + xt.2 ∧ k ≤ 3 * s.calls.length + 1
  yielding : s.pc = .yielding → gap = 0 ∧ k ≤ 3 * s.calls.length + 1
  calling : s.pc = .calling → since t0 s.calls + gap ≤ s.now ∧ k ≤ 3 * s.calls.length + 2
  inside : ∀ b, s.pc = .inside b → since t0 s.calls + gap ≤ b ∧ b ≤ s.now ∧ k ≤ 3 * s.calls.length + 3
  done : s.pc = .done → ∃ n, f n = false ∧ (∀ i < n, f i = true) ∧ s.calls.length = n + 1 ∧ k ≤ 3 * (n + 1) + 1

theorem wake_ge (l : Looped) (now : Nat) :
    (l.wake now).1 * 10 ^ 9 + (l.wake now).2 = now + (l.breakS * 10 ^ 9 + l.breakNs) := by
  simp only [Looped.wake]
  omega

theorem inv {interval : Nat} (hi : interval < 2 ^ 32) {f : Nat → Bool} {t0 k : Nat} {s : St}
    (h : Run (.make true interval) f ⟨t0, .entered, []⟩ k s) : Inv (interval * 10 ^ 6) f t0 k s := by
  induction h with
  | start => constructor <;> simp [Spaced, since]
  | @pass k s dt _ ih =>
    obtain ⟨a, b, c, d, e, f', g, i, j⟩ := ih
    refine ⟨a, by simp only; omega, c, d, e, f', fun h => ?_, fun x h => ?_, j⟩
    · have := g h
      simp only
      omega
    · have := i x h
      simp only
      omega
  | @act k s s' _ hs ih =>
    have hb := break_eq true interval hi
    have hp := pauses_iff true interval hi
    have hw := wake_ge (.make true interval) s.now
    rw [hb] at hw
    obtain ⟨a, b, c, d, e, f', g, i, j⟩ := ih
    cases hs with
    | empty _ h => exact absurd h (by simp [Looped.make])
    | enter h _ =>
      obtain ⟨hc, hk⟩ := d h
      have c' := c (by rw [h]; simp)
      unfold Looped.pause
      by_cases h0 : 0 < interval
      · rw [hp, decide_eq_true h0, if_pos rfl]
        refine ⟨a, b, fun _ => c', by simp, fun xt hx => ?_, by simp, by simp, by simp, by simp⟩
        simp only [Pc.sleeping.injEq] at hx
        subst hx
        simp only
        omega
      · rw [hp, decide_eq_false h0, if_neg (by simp)]
        refine ⟨a, b, fun _ => c', by simp, by simp, by simp, fun _ => ?_, by simp, by simp⟩
        simp only
        omega
    | @awake xt h h1 =>
      have := e xt h
      refine ⟨a, b, fun _ => c (by rw [h]; simp), by simp, by simp, by simp, fun _ => ?_, by simp, by simp⟩
      simp only
      omega
    | yielded h =>
      have := f' h
      refine ⟨a, b, fun _ => c (by rw [h]; simp), by simp, by simp, by simp, fun _ => ?_, by simp, by simp⟩
      simp only
      omega
    | call h =>
      have := g h
      refine ⟨a, b, fun _ => c (by rw [h]; simp), by simp, by simp, by simp, by simp, fun x hx => ?_, by simp⟩
      simp only [Pc.inside.injEq] at hx
      subst hx
      simp only
      omega
    | @again bg h hf =>
      obtain ⟨i1, i2, i3⟩ := i bg h
      obtain ⟨c1, c2⟩ := c (by rw [h]; simp)
      have sp : Spaced (interval * 10 ^ 6) f 0 t0 (s.calls ++ [⟨bg, s.now, true⟩]) :=
        spaced_append a c1 i1 i2 (by simpa using hf.symm)
      have go : (∀ x ∈ s.calls ++ [⟨bg, s.now, true⟩], x.result = true) ∧
          ∀ j < (s.calls ++ [(⟨bg, s.now, true⟩ : Call)]).length, f j = true := by
        constructor
        · intro x hx
          rw [List.mem_append, List.mem_singleton] at hx
          rcases hx with hx | rfl
          · exact c1 x hx
          · rfl
        · intro j hj
          rw [List.length_append, List.length_singleton] at hj
          rcases Nat.lt_succ_iff_lt_or_eq.mp hj with hj | rfl
          · exact c2 j hj
          · exact hf
      unfold Looped.pause
      by_cases h0 : 0 < interval
      · rw [hp, decide_eq_true h0, if_pos rfl]
        refine ⟨sp, by rw [since_append], fun _ => go, by simp, fun xt hx => ?_, by simp, by simp, by simp, by simp⟩
        simp only [Pc.sleeping.injEq] at hx
        subst hx
        rw [since_append]
        simp only [List.length_append, List.length_singleton]
        omega
      · rw [hp, decide_eq_false h0, if_neg (by simp)]
        refine ⟨sp, by rw [since_append], fun _ => go, by simp, by simp, fun _ => ?_, by simp, by simp, by simp⟩
        simp only [List.length_append, List.length_singleton]
        omega
    | @finish bg h hf =>
      obtain ⟨i1, i2, i3⟩ := i bg h
      obtain ⟨c1, c2⟩ := c (by rw [h]; simp)
      have sp : Spaced (interval * 10 ^ 6) f 0 t0 (s.calls ++ [⟨bg, s.now, false⟩]) :=
        spaced_append a c1 i1 i2 (by simpa using hf.symm)
      refine ⟨sp, by rw [since_append], by simp, by simp, by simp, by simp, by simp, by simp, fun _ => ?_⟩
      exact ⟨s.calls.length, hf, c2, by simp, by omega⟩

/-- C82 (calls). A looped task with a function and any interval, in milliseconds: before each call, the first included, at
least the interval passes since the task began or the call before returned; the calls return what the function returns, and there
is none after the first that returned false. The task ends just when that one has returned. -/
theorem _root_.SpatialOps.C82_calls (interval : Nat) (hi : interval < 2 ^ 32) (f : Nat → Bool) (t0 k : Nat) (s : St)
    (h : Run (.make true interval) f ⟨t0, .entered, []⟩ k s) :
    Spaced (interval * 10 ^ 6) f 0 t0 s.calls ∧
    (s.pc = .done ↔ ∃ n, f n = false ∧ (∀ i < n, f i = true) ∧ s.calls.length = n + 1) := by
  have hv := inv hi h
  refine ⟨hv.spaced, fun hd => ?_, fun ⟨n, h1, _, h3⟩ => ?_⟩
  · obtain ⟨n, h1, h2, h3, -⟩ := hv.done hd
    exact ⟨n, h1, h2, h3⟩
  · by_contra hd
    have := (hv.goes hd).2 n (by omega)
    rw [h1] at this
    cases this

/-- C82 (the task ends). If some call of the function returns false, the task ends: it can always go on, if only after some
time, until it has ended, and it makes no more than three steps for each call up to the first that returns false, and one. -/
theorem _root_.SpatialOps.C82_ends (interval : Nat) (hi : interval < 2 ^ 32) (f : Nat → Bool) (n : Nat) (hf : f n = false) (t0 k : Nat)
    (s : St) (h : Run (.make true interval) f ⟨t0, .entered, []⟩ k s) :
    k ≤ 3 * (n + 1) + 1 ∧ s.calls.length ≤ n + 1 ∧ (s.pc ≠ .done → ∃ dt s', Act (.make true interval) f { s with now := s.now + dt } s') := by
  have hv := inv hi h
  have key : s.pc ≠ .done → s.calls.length ≤ n := by
    intro hd
    by_contra hc
    have := (hv.goes hd).2 n (by omega)
    rw [hf] at this
    cases this
  have act : s.pc ≠ .done → ∃ dt s', Act (.make true interval) f { s with now := s.now + dt } s' := by
    intro hd
    cases hpc : s.pc with
    | entered => exact ⟨0, _, .enter rfl rfl⟩
    | sleeping xt => exact ⟨xt.1 * 10 ^ 9 + xt.2, _, .awake rfl (by simp)⟩
    | yielding => exact ⟨0, _, .yielded rfl⟩
    | calling => exact ⟨0, _, .call rfl⟩
    | inside b =>
      cases hr : f s.calls.length with
      | true => exact ⟨0, _, .again rfl hr⟩
      | false => exact ⟨0, _, .finish rfl hr⟩
    | done => exact absurd hpc hd
  refine ⟨?_, ?_, act⟩
  · cases hpc : s.pc with
    | entered => have := hv.entered hpc; omega
    | sleeping xt => have := hv.sleeping xt hpc; have := key (by rw [hpc]; simp); omega
    | yielding => have := hv.yielding hpc; have := key (by rw [hpc]; simp); omega
    | calling => have := hv.calling hpc; have := key (by rw [hpc]; simp); omega
    | inside b => have := hv.inside b hpc; have := key (by rw [hpc]; simp); omega
    | done =>
      obtain ⟨n', h1, h2, h3, h4⟩ := hv.done hpc
      have : n' ≤ n := by
        by_contra hc
        have := h2 n (by omega)
        rw [hf] at this
        cases this
      omega
  · by_cases hpc : s.pc = .done
    · obtain ⟨n', h1, h2, h3, h4⟩ := hv.done hpc
      have : n' ≤ n := by
        by_contra hc
        have := h2 n (by omega)
        rw [hf] at this
        cases this
      omega
    · have := key hpc
      omega

/-- C82 (the thread is engaged). A task whose function never returns false never ends. -/
theorem _root_.SpatialOps.C82_engaged (interval : Nat) (hi : interval < 2 ^ 32) (f : Nat → Bool) (hf : ∀ n, f n = true) (t0 k : Nat) (s : St)
    (h : Run (.make true interval) f ⟨t0, .entered, []⟩ k s) : s.pc ≠ .done := by
  intro hd
  obtain ⟨n, h1, -⟩ := (inv hi h).done hd
  rw [hf n] at h1
  cases h1

/-- C82 (no function). A task without a function ends in one step, without a call. -/
theorem _root_.SpatialOps.C82_empty (interval : Nat) (f : Nat → Bool) (t0 k : Nat) (s : St)
    (h : Run (.make false interval) f ⟨t0, .entered, []⟩ k s) :
    s.calls = [] ∧ (k = 0 ∧ s.pc = .entered ∧ (∃ s', Act (.make false interval) f s s') ∨ k = 1 ∧ s.pc = .done) := by
  induction h with
  | start => exact ⟨rfl, .inl ⟨rfl, rfl, _, .empty rfl rfl⟩⟩
  | pass dt _ ih =>
    obtain ⟨h1, h2⟩ := ih
    refine ⟨h1, h2.imp (fun ⟨a, b, _⟩ => ⟨a, b, _, .empty b rfl⟩) id⟩
  | act _ hs ih =>
    obtain ⟨h1, ⟨rfl, h2, -⟩ | ⟨rfl, h2⟩⟩ := ih
    · cases hs with
      | empty => exact ⟨h1, .inr ⟨rfl, rfl⟩⟩
      | enter _ h => exact absurd h (by simp [Looped.make])
      | awake h => rw [h2] at h; cases h
      | yielded h => rw [h2] at h; cases h
      | call h => rw [h2] at h; cases h
      | again h => rw [h2] at h; cases h
      | finish h => rw [h2] at h; cases h
    · cases hs with
      | empty h => rw [h2] at h; cases h
      | enter h => rw [h2] at h; cases h
      | awake h => rw [h2] at h; cases h
      | yielded h => rw [h2] at h; cases h
      | call h => rw [h2] at h; cases h
      | again h => rw [h2] at h; cases h
      | finish h => rw [h2] at h; cases h

/-- Non-vacuity: with an interval of 1500 ms and a function that returns true once, a run that calls it twice, 1.5 s and 4 s after
the task began, the second call 2.4 s after the first returned. -/
example : ∃ k s, Run (.make true 1500) (fun k => k == 0) ⟨7 * 10 ^ 8, .entered, []⟩ k s ∧ s.pc = .done ∧
    s.calls = [⟨2200000000, 2300000000, true⟩, ⟨4700000000, 4800000000, false⟩] :=
  ⟨_, _, .act (.pass 100000000 (.act (.act (.pass 2400000000 (.act (.pass 100000000 (.act (.act (.pass 1500000000 (.act .start
    (.enter rfl rfl))) (.awake rfl (by decide))) (.call rfl))) (.again rfl rfl))) (.awake rfl (by decide))) (.call rfl)))
    (.finish rfl rfl), rfl, rfl⟩

end Adapt
end SpatialOps
