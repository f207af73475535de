import Verif.Mach.Model
import Verif.Iter.Spec

/-!
# Specification vocabulary for machine integers
-/

namespace SpatialOps

/-- The largest `int`. -/
def intMax : Int := 2147483647

/-- All three components are `int` values. -/
def IntVec.IsInt (v : IntVec) : Prop := Mach.Fit v.x ∧ Mach.Fit v.y ∧ Mach.Fit v.z

instance (v : IntVec) : Decidable v.IsInt := by unfold IntVec.IsInt; infer_instance

/-- A block of these dimensions has at most `intMax` cells. -/
def IntVec.CountFits (d : IntVec) : Prop := d.x * d.y * d.z ≤ intMax

instance (v : IntVec) : Decidable v.CountFits := by unfold IntVec.CountFits; infer_instance

/-- The flat position one past the last cell of the window, where a mask
iterator ends, is an `int`. (It can exceed the number of cells of the block.) -/
def Window.EndFits (w : Window) : Prop :=
  fortranPos w.npts w.offset + w.npts.x * w.npts.y * w.extent.z ≤ intMax

instance (w : Window) : Decidable w.EndFits := by unfold Window.EndFits; infer_instance

end SpatialOps
