import Verif.MaskMem.Model
import Verif.Mask.Spec

/-!
# Specification vocabulary for mask memory
-/

namespace SpatialOps
namespace MaskWorld

/-- Mask `h` exists. -/
def Alive (w : MaskWorld) (h : Nat) : Prop := ∃ m, w.masks[h]? = some (some m)

/-- What is assumed of the client and the allocators: operations use existing masks, masks are
built on windows that hold their ghosts, with points in that region, GPU masks have no
points and are never destroyed, and allocators return memory that is not in use. -/
def Legal (w : MaskWorld) : Op → Prop
  | .create points win g mt _ fresh =>
    GhostedFits win g ∧ (∀ p ∈ points, InGhosted win g p) ∧ (mt = .gpu → points = []) ∧
    ∀ k, fresh ∉ w.pool.addrs k
  | .copy h => w.Alive h
  | .addConsumer h _ _ fresh => w.Alive h ∧ ∀ k, fresh ∉ w.pool.addrs k
  | .removeConsumers h => w.Alive h
  | .destroy h => ∃ m, w.masks[h]? = some (some m) ∧ ¬ (m.built = true ∧ m.memType = .gpu)

/-- Every operation of the history is legal where it is applied. -/
def LegalRun (cuda : Bool) (w : MaskWorld) : List Op → Prop
  | [] => True
  | o :: os => w.Legal o ∧
    match w.step cuda o with
    | .ok r => r.1.LegalRun cuda os
    | _ => True

/-- Every block handed out is held by exactly one mask, which exists; the pool's own account
agrees; nothing was given back wrongly. -/
structure Accounted (w : MaskWorld) : Prop where
  owner_alive : ∀ k a h, (a, h) ∈ w.own k → w.Alive h
  pool_agrees : ∀ k, (w.pool.held k).Perm ((w.own k).map Prod.fst)
  one_owner : ∀ k, ((w.own k).map Prod.fst).Nodup
  no_misput : w.misput = []

/-- `m` and `m'` were built from the same points on the same window with the same ghosts. -/
def SameMask (m m' : BitMask) : Prop :=
  m.points = m'.points ∧ m.window = m'.window ∧ m.ghosts = m'.ghosts

/-- Block `b` of memory type `k` is still held by a mask equal to `m`. -/
def StillHeld (w : MaskWorld) (m : BitMask) (k : MemKind) (b : Nat) : Prop :=
  ∃ h m', (b, h) ∈ w.own k ∧ w.masks[h]? = some (some m') ∧ SameMask m m'

/-- All memory the mask refers to is still held by a mask equal to it: neither the mask it was
copied from was destroyed, nor were its consumers removed since. -/
def Current (w : MaskWorld) (m : BitMask) : Prop :=
  (∀ b, m.bits = some b → w.StillHeld m .cpu b) ∧ (∀ b, m.ext = some b → w.StillHeld m .gpu b) ∧
  ∀ c ∈ m.consumers, w.StillHeld m .gpu c.2

/-- Legal, and consumers are added only through masks that refer to memory still held. -/
def Careful (cuda : Bool) (w : MaskWorld) : List Op → Prop
  | [] => True
  | o :: os => w.Legal o ∧ (∀ h mt dev fresh m, o = .addConsumer h mt dev fresh → w.masks[h]? = some (some m) → w.Current m) ∧
    match w.step cuda o with
    | .ok r => r.1.Careful cuda os
    | _ => True

/-- The mask that has block `b` as its words. -/
def readAs (w : MaskWorld) (m : BitMask) (b : Nat) : BitField := ⟨m.window, m.ghosts, m.size, w.mem b⟩

/-- Block `b` shows the mask `m`: testing an index of its region on these words tells whether
the index is one of the points. -/
def Shows (w : MaskWorld) (m : BitMask) (b : Nat) : Prop :=
  ∀ p, InGhosted m.window m.ghosts p → (w.readAs m b).query p = .ok (decide (p ∈ m.points))

end MaskWorld
end SpatialOps
