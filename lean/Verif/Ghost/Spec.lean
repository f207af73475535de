import Verif.Ghost.Model
import Verif.Index.Spec

/-!
# Specification vocabulary for ghost descriptors
-/

namespace SpatialOps.GhostData

/-- All six counts are non-negative. -/
def Valid (g : GhostData) : Prop := IntVec.Le 0 g.minus ∧ IntVec.Le 0 g.plus

/-- All six counts are at least `GHOST_MAX`. -/
def AllHuge (g : GhostData) : Prop :=
  IntVec.Le ⟨ghostMax, ghostMax, ghostMax⟩ g.minus ∧ IntVec.Le ⟨ghostMax, ghostMax, ghostMax⟩ g.plus

/-- The descriptor's infinite status is what its counts say. -/
def FlagOk (g : GhostData) : Prop := g.isInf = true ↔ g.AllHuge

/-- Componentwise order. -/
def Le (a b : GhostData) : Prop := IntVec.Le a.minus b.minus ∧ IntVec.Le a.plus b.plus

instance (g : GhostData) : Decidable g.Valid := by unfold Valid; infer_instance
instance (g : GhostData) : Decidable g.AllHuge := by unfold AllHuge; infer_instance
instance (a b : GhostData) : Decidable (Le a b) := by unfold Le; infer_instance

/-- What a client can do to a ghost descriptor, given other descriptors. -/
inductive Op where
  | setMinus (v : IntVec)
  | setPlus (v : IntVec)
  | add (g : GhostData)
  | sub (g : GhostData)
  | minWith (g : GhostData)
  | assign (g : GhostData)

/-- Applying one operation. -/
def step (g : GhostData) : Op → Outcome GhostData
  | .setMinus v => .ok (g.setMinus v)
  | .setPlus v => .ok (g.setPlus v)
  | .add h => g.addAssign h
  | .sub h => g.subAssign h
  | .minWith h => GhostData.min g h
  | .assign h => h.copy

/-- Applying a history. -/
def run (g : GhostData) : List Op → Outcome GhostData
  | [] => .ok g
  | o :: os => g.step o >>= fun g' => g'.run os

/-- The restriction under which the flag is maintained: operands are themselves
consistent and non-negative, a finite sum stays finite, and nothing is subtracted
from an infinite descriptor (except nothing at all). -/
def OpSafe (g : GhostData) : Op → Prop
  | .add h => h.FlagOk ∧ (g.isInf = false → h.isInf = false →
      ¬ AllHuge ⟨g.minus + h.minus, g.plus + h.plus, false⟩)
  | .sub h => h.Valid ∧ g.isInf = false
  | .assign h => h.FlagOk
  | _ => True

/-- Every operation of the history is safe in the state it is applied to. -/
def RunSafe (g : GhostData) : List Op → Prop
  | [] => True
  | o :: os => g.OpSafe o ∧
    match g.step o with
    | .ok g' => g'.RunSafe os
    | _ => True

instance (g : GhostData) : Decidable g.FlagOk := by unfold FlagOk; infer_instance
instance (g : GhostData) (o : Op) : Decidable (g.OpSafe o) := by
  cases o <;> unfold OpSafe <;> infer_instance
instance decRunSafe : (os : List Op) → (g : GhostData) → Decidable (g.RunSafe os)
  | [], _ => isTrue trivial
  | o :: os, g => by
    unfold RunSafe
    have := decRunSafe os
    cases g.step o <;> infer_instance

end SpatialOps.GhostData
