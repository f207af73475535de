import Verif.CudaPtr.Model

/-!
# Specification for the reference-counted GPU pointer (C58)
-/

namespace SpatialOps.CudaWorld

/-- `p` is the value of a pointer variable in scope. -/
def Var (w : CudaWorld) (p : CudaPtr) : Prop := some p ∈ w.handles

/-- Address `a` is allocated on a device. -/
def Live (w : CudaWorld) (a : Nat) : Prop := ∃ d, (a, d) ∈ w.live

/-- Some pointer variable in scope points to `a`. -/
def Held (w : CudaWorld) (a : Nat) : Prop := ∃ p, w.Var p ∧ p.ptr = some a

/-- A default-constructed pointer that was never assigned to or detached. -/
def Unset (p : CudaPtr) : Prop := p.rc = none

/-- Number of variables in scope that `operator==` equates with `p`. -/
def sharers (w : CudaWorld) (p : CudaPtr) : Nat :=
  w.handles.countP (fun o => match o with | some q => eq p q | none => false)

/-- Rules the client follows: variables used are in scope; devices exist; an unset pointer is only
assigned to an unset one; a raw address handed to a pointer, or released by hand, is allocated and
belongs to no pointer. `cudaMalloc` returns an address that is not allocated. -/
def Legal (w : CudaWorld) : Op → Prop
  | .unset => True
  | .getShared d fresh => (0 ≤ d ∧ d < w.nDev) ∧ ∀ a, fresh = some a → ¬ w.Live a
  | .copy x => ∃ q, w.handle x = .ok q
  | .assign h x => ∃ p q, w.handle h = .ok p ∧ w.handle x = .ok q ∧ (Unset q → Unset p)
  | .assignRaw h a => (∃ p, w.handle h = .ok p) ∧ ∀ b, a = some b → w.Live b ∧ ¬ w.Held b
  | .detach h => ∃ p, w.handle h = .ok p
  | .destroy h => ∃ p, w.handle h = .ok p
  | .getRaw d fresh => (0 ≤ d ∧ d < w.nDev) ∧ ∀ a, fresh = some a → ¬ w.Live a
  | .releaseRaw a d => (0 ≤ d ∧ d < w.nDev) ∧ ∀ b, a = some b → w.Live b ∧ ¬ w.Held b
  | .setDevice d => 0 ≤ d ∧ d < w.nDev

/-- Devices are respected: a raw address is handed to a pointer while the address's own device is
current, and the pointer so far had no device or that same one; it is released by hand under its
own device. -/
def Careful (w : CudaWorld) : Op → Prop
  | .assignRaw h a => ∀ b, a = some b → (b, w.cur) ∈ w.live ∧
      ∀ p, w.handle h = .ok p → Unset p ∨ w.deviceId p = .ok w.cur
  | .releaseRaw a d => ∀ b, a = some b → (b, d) ∈ w.live
  | _ => True

/-- States reached from the start of a program on `n` devices by operations satisfying `P`. -/
inductive Reach (P : CudaWorld → Op → Prop) (n : Int) : CudaWorld → Prop where
  | init : Reach P n (init n)
  | step {w w' o} : Reach P n w → P w o → w.step o = .ok w' → Reach P n w'

/-- Every operation of the history satisfies `P` in the state in which it is executed. -/
def All (P : CudaWorld → Op → Prop) (w : CudaWorld) : List Op → Prop
  | [] => True
  | o :: os => P w o ∧ ∀ w', w.step o = .ok w' → All P w' os

end SpatialOps.CudaWorld
