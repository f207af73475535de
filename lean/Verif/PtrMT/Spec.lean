import Verif.PtrMT.Model

/-!
# Specification for field pointers used by several threads
-/

namespace SpatialOps
namespace PtrMT

open World

/-- The counters an operation in progress works on. -/
def uses : Pc → List Nat
  | .idle => []
  | .incRead _ q _ | .incWrite _ q _ _ => [q.c]
  | .decRead p n | .decWrite p _ n | .test p n | .restore p n | .delete p n => p.c :: n.toList.map (·.q.c)

/-- The handle variable holds a handle. -/
def Alive (w : World) (h : Nat) (p : Hdl) : Prop := w.handles[h]? = some (some p)

/-- An operation that works on counter `c` is in progress. -/
def Busy (w : World) (c : Nat) : Prop := ∃ pc ∈ w.threads, c ∈ uses pc

/-- Thread `t` exists and is in no operation. -/
def Idle (w : World) (t : Nat) : Prop := w.threads[t]? = some .idle

/-- What the client must respect. Fields are wrapped once; a thread does one thing at a time; only handles that are
alive are used, and no handle is assigned to itself; and, the point of it: an operation is only started when no
operation on a handle to the same field is in progress. -/
def Apart (w : World) : Ev → Prop
  | .new f _ => f ∉ w.wrapped.map Prod.fst
  | .copy t g => Idle w t ∧ ∃ q, Alive w g q ∧ ¬ Busy w q.c
  | .destroy t h => Idle w t ∧ ∃ p, Alive w h p ∧ ¬ Busy w p.c
  | .assign t h g => Idle w t ∧ h ≠ g ∧ ∃ p q, Alive w h p ∧ Alive w g q ∧ ¬ Busy w p.c ∧ ¬ Busy w q.c
  | .go _ => True

/-- The same without the last condition. -/
def Sane (w : World) : Ev → Prop
  | .new f _ => f ∉ w.wrapped.map Prod.fst
  | .copy t g => Idle w t ∧ ∃ q, Alive w g q
  | .destroy t h => Idle w t ∧ ∃ p, Alive w h p
  | .assign t h g => Idle w t ∧ h ≠ g ∧ ∃ p q, Alive w h p ∧ Alive w g q
  | .go _ => True

/-- Every event of the schedule is as the client must respect (`ok`), where it happens. -/
def Respects (ok : World → Ev → Prop) (w : World) : List Ev → Prop
  | [] => True
  | e :: es => ok w e ∧ match w.step e with
    | .ok w' => Respects ok w' es
    | _ => True

/-- Some handle to field `f` is alive. -/
def Referenced (w : World) (f : Nat) : Prop := ∃ p, some p ∈ w.handles ∧ p.f = f

/-- No operation on a handle to field `f` is in progress. -/
def Settled (w : World) (f : Nat) : Prop := ∀ pc ∈ w.threads, ∀ c ∈ uses pc, ∀ b, w.wrapped[c]? ≠ some (f, b)

/-- The claim: a field that some handle refers to has not been released; a field that no handle refers to, with no operation in progress,
has been deleted exactly once and given back to the store exactly once if it came from there. -/
def ReleasedExactlyOnce (w : World) : Prop :=
  ∀ f b, (f, b) ∈ w.wrapped →
    (Referenced w f → w.deleted.count f = 0 ∧ w.restored.count f = 0) ∧
    (¬ Referenced w f → Settled w f → w.deleted.count f = 1 ∧ w.restored.count f = if b then 1 else 0)

end PtrMT
end SpatialOps
