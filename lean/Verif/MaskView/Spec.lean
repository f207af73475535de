import Verif.MaskView.Model
import Verif.Mask.Spec
import Verif.Iter.Spec
import Verif.Geometry.Spec

/-!
# Specification vocabulary for views of masks
-/

namespace SpatialOps.MaskView

/-- A field as the library makes them: its window lies in its allocation, is not empty, and is the
interior grown by the valid ghosts. -/
structure GoodField (f : FieldGeo) : Prop where
  fits : f.window.Fits
  grown : f.GrownBy f.validGhosts
  valid : f.validGhosts.Valid
  all : f.ghosts.Valid

/-- The window moved by the sum of the shifts and enlarged by the sum of the modifications. -/
def shifted (w : Window) (rs : List (IntVec × IntVec)) : Window :=
  ⟨w.npts, w.offset + (rs.map Prod.snd).sum, w.extent + (rs.map Prod.fst).sum⟩

/-- The window lies in its block and does not begin at its end. -/
def Inside (w : Window) : Prop := w.Fits ∧ IntVec.Lt w.offset w.npts

instance (w : Window) : Decidable (Inside w) := by unfold Inside; infer_instance

end SpatialOps.MaskView
