import Verif.DevMem.Model

/-!
# Specification vocabulary for device memory
-/

namespace SpatialOps
namespace DevMem

/-- What is assumed of the client and of the allocator: new blocks are at addresses not in use, and copies stay inside
blocks. -/
def Legal (w : DevMem) : Op → Prop
  | .getRaw _ _ fresh => ∀ b ∈ w.live, b.addr ≠ fresh
  | .copyTo a src K => K < w.nDev → w.inside a src.length = true
  | .copyFrom a n K => K < w.nDev → w.inside a n = true
  | .copyPeer dst dK src sK n => dK < w.nDev → sK < w.nDev → w.inside dst n = true ∧ w.inside src n = true
  | .memset a _ n K => K < w.nDev → w.inside a n = true
  | _ => True

/-- Every call of the history is legal when it is made. -/
def AllLegal (w : DevMem) : List Op → Prop
  | [] => True
  | o :: os => w.Legal o ∧ ∀ r, w.step o = .ok r → r.1.AllLegal os

/-- The state after a legal history on a machine with `n` devices. -/
def Reach (n : Nat) (total : Nat → Nat) (w : DevMem) : Prop :=
  ∃ bytes os, (init n total bytes).AllLegal os ∧ (init n total bytes).run os = .ok w

/-- `s` describes the memory of device `d`: its size, what is allocated, what is free. -/
def Describes (w : DevMem) (d : Nat) (s : MemStats) : Prop :=
  s.t = w.total d ∧ s.inuse = w.used d ∧ s.f + s.inuse = s.t

/-- The call may change the bytes of block `a`. -/
def Touches (a : Nat) : Op → Prop
  | .release b _ => b = a
  | .copyTo b _ _ => b = a
  | .copyPeer b _ _ _ _ => b = a
  | .memset b _ _ _ => b = a
  | _ => False

end DevMem
end SpatialOps
