import Verif.Ptr.Model

/-!
# Specification for reference-counted field pointers
-/

namespace SpatialOps.PtrWorld

/-- Some alive handle refers to field `f`. -/
def Referenced (w : PtrWorld) (f : Nat) : Prop := ∃ p, some p ∈ w.handles ∧ p.f = some f

/-- The claim: every field ever wrapped is alive and unreleased while some handle
refers to it, and otherwise has been deleted exactly once and, if it came from
the store, returned to the store exactly once. -/
def ReleasedExactlyOnce (w : PtrWorld) : Prop :=
  ∀ f b, (f, b) ∈ w.wrapped →
    (w.Referenced f → w.deleted.count f = 0 ∧ w.restored.count f = 0) ∧
    (¬ w.Referenced f → w.deleted.count f = 1 ∧ w.restored.count f = if b then 1 else 0)

/-- The handle is alive. -/
def Alive (w : PtrWorld) (h : Nat) : Prop := ∃ p, w.handles[h]? = some (some p)

/-- The handle is alive and not null. -/
def NonNull (w : PtrWorld) (h : Nat) : Prop := ∃ p c, w.handles[h]? = some (some p) ∧ p.count = some c

/-- The handle is the only one referring to its field (by the observer's count of
handles). -/
def Sole (w : PtrWorld) (h : Nat) : Prop :=
  ∃ p f, w.handles[h]? = some (some p) ∧ p.f = some f ∧
    w.handles.countP (fun o => decide (∃ q, o = some q ∧ q.f = some f)) = 1

/-- The histories the partial theorem covers: wrap only fields not already
wrapped; read only alive handles; never copy from a null handle; no
self-assignment of the only handle to a field; `detach` only a null handle or
the only handle to a field. -/
def Legal (w : PtrWorld) : Op → Prop
  | .new f _ => f ∉ w.wrapped.map Prod.fst
  | .dflt => True
  | .copy g => w.NonNull g
  | .assign h g => w.Alive h ∧ w.NonNull g ∧ ¬ (h = g ∧ w.Sole h)
  | .assignField h f => w.Alive h ∧ f ∉ w.wrapped.map Prod.fst
  | .detach h => w.Alive h ∧ (w.NonNull h → w.Sole h)
  | .destroy h => w.Alive h

/-- Every operation of the history is legal where it is applied. -/
def LegalRun (w : PtrWorld) : List Op → Prop
  | [] => True
  | o :: os => w.Legal o ∧
    match w.step o with
    | .ok w' => w'.LegalRun os
    | _ => True

end SpatialOps.PtrWorld
