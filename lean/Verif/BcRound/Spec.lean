import Verif.BcRound.Model
import Verif.Bc.Spec
import Verif.Round.Spec

/-!
# Specification of boundary conditions in floating point
-/

namespace SpatialOps
namespace BcRound

open Nebo Stencil Bc Round

/-- The cells of the field are counted from its first interior cell, as they are after construction: its ghosts are all valid. -/
structure Aligned (f : FieldObj) : Prop where
  offset : f.geo.interior.offset = origin f.geo
  block : f.geo.interior.npts = f.geo.window.npts
  fits : f.geo.interior.Fits

/-- The error allowed to the operator at a cell with a boundary condition: five roundings of the value `v`, and of the
contribution `part` of the other cell twice. -/
def bcBound {K : Type} [Field K] [LinearOrder K] (u v part : K) : K := grow u 5 * (|v| + 2 * |part|)

end BcRound
end SpatialOps
