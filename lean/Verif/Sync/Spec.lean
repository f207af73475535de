import Verif.Sync.Model
import Verif.Threads.Spec

/-!
# Specification vocabulary
-/

namespace SpatialOps.Sync

/-- States reached from `s0` by actions satisfying `P`. -/
inductive Steps {S A : Type} (step : S → A → Option S) (P : A → Prop) (s0 : S) : S → Prop
  | init : Steps step P s0 s0
  | step {s s' : S} {a : A} : Steps step P s0 s → P a → step s a = some s' → Steps step P s0 s'

/-- Run a list of actions. -/
def runs {S A : Type} (step : S → A → Option S) (s : S) : List A → Option S
  | [] => some s
  | a :: as => (step s a).bind fun s' => runs step s' as

theorem Steps.runs {S A : Type} {step : S → A → Option S} {P : A → Prop} {s0 s s' : S} (h : Steps step P s0 s)
    (as : List A) (hP : ∀ a ∈ as, P a) (hr : Sync.runs step s as = some s') : Steps step P s0 s' := by
  induction as generalizing s with
  | nil => simp only [Sync.runs, Option.some.injEq] at hr; subst hr; exact h
  | cons a as ih =>
    simp only [Sync.runs] at hr
    cases hs : step s a with
    | none => rw [hs] at hr; cases hr
    | some s1 =>
      rw [hs] at hr
      exact ih (h.step (hP a (by simp)) hs) (fun b hb => hP b (by simp [hb])) hr

/-- Any action. -/
abbrev Any {A : Type} : A → Prop := fun _ => True

/-- Number of threads that have passed the semaphore. -/
def Sem.passed (s : Sem) : Nat := s.waiters.count .passed

/-- Actions of the assigning thread and of the partition tasks; spurious wake-ups
excluded. -/
def AssignAct.real : AssignAct → Prop
  | .spurious => False
  | _ => True

/-- Nothing can happen any more. -/
def Assign.Stuck (s : Assign) : Prop := ∀ a : AssignAct, a.real → s.step a = none

/-- What a registry history may contain so that the recorded size stays the pool's
target: the pool is resized through the registry only, no task throws and it is not
shut down. -/
def MAct.viaRegistry {T : Type} : MAct T → Prop
  | .self _ n _ => 1 ≤ n
  | .remove _ => False
  | .pool _ (.resize _ _) => False
  | .pool _ (.fail _ _) => False
  | .pool _ .terminateAll => False
  | _ => True

end SpatialOps.Sync
