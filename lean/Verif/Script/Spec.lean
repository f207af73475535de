import Verif.Script.Model
import Verif.Shutdown.Spec

/-!
# Specification vocabulary for programs that use one thread pool
-/

namespace SpatialOps.Script
open Threads Shutdown
variable {T : Type}

/-- The tasks a program hands over, in order. -/
def tasks : List (Stmt T) → List T
  | [] => []
  | .schedule t :: r => t :: tasks r
  | _ :: r => tasks r

/-- States the program reaches from `s0` by moves satisfying `P` (`fun _ => True`: any). -/
inductive Reaches [DecidableEq T] (push : Push T) (throws : T → Bool) (P : Move T → Prop) (s0 : St T) : St T → Prop
  | init : Reaches push throws P s0 s0
  | step {s s' : St T} {mv : Move T} : Reaches push throws P s0 s → P mv → s.step push throws mv = some s' →
      Reaches push throws P s0 s'

/-- The system is able to replace a worker ended by a task that throws. -/
def Granted : Move T → Prop
  | .world (.fail _ made) => 1 ≤ made
  | _ => True

/-- All moves but spurious wake-ups. -/
def Own : Move T → Prop
  | .world (.spurious _) | .world (.clientSpurious _) => False
  | .world (.fail _ made) => 1 ≤ made
  | _ => True

/-- The program never makes the pool of `n` threads smaller, never sets its limit to zero, and waits only for futures of tasks
handed over before (`seen`) that do not throw. -/
def Sound (throws : T → Bool) : Nat → List T → List (Stmt T) → Prop
  | _, _, [] => True
  | n, seen, .schedule t :: r => Sound throws n (t :: seen) r
  | n, seen, .resize m :: r => n ≤ m ∧ Sound throws m seen r
  | n, seen, .resizeActive m :: r => 1 ≤ m ∧ Sound throws n seen r
  | n, seen, .await t :: r => t ∈ seen ∧ throws t = false ∧ Sound throws n seen r
  | n, seen, _ :: r => Sound throws n seen r

/-- The call hands no task over, waits for none by its future, and creates no thread. -/
def Quiet : Stmt T → Prop
  | .schedule _ | .await _ => False
  | .resize n => n = 0
  | _ => True

/-- The program has come to its end: the destructor of the pool has returned. -/
def Ended (s : St T) : Prop := s.sys.phase = .done

end SpatialOps.Script
