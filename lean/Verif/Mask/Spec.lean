import Verif.Mask.Model
import Verif.Ghost.Spec

/-!
# Specification vocabulary for masks
-/

namespace SpatialOps

/-- `p` (relative to the interior) lies in the interior `w` grown by ghosts `g`. -/
def InGhosted (w : Window) (g : GhostData) (p : IntVec) : Prop :=
  IntVec.Le (-g.minus) p ∧ IntVec.Lt p (w.extent + g.plus)

/-- The interior `w` grown by the ghosts `g` lies inside the block. -/
def GhostedFits (w : Window) (g : GhostData) : Prop :=
  IntVec.Lt 0 w.npts ∧ IntVec.Le 0 (w.offset - g.minus) ∧
  IntVec.Le (w.offset + w.extent + g.plus) w.npts ∧ g.Valid

instance (w : Window) (g : GhostData) (p : IntVec) : Decidable (InGhosted w g p) := by
  unfold InGhosted; infer_instance
instance (w : Window) (g : GhostData) : Decidable (GhostedFits w g) := by
  unfold GhostedFits; infer_instance

end SpatialOps
