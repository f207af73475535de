import Verif.Geometry.Model
import Verif.Ghost.Spec

/-!
# Specification vocabulary for field geometry
-/

namespace SpatialOps

/-- Per-direction description of a correctly laid out field with `n` requested
interior points, `gm`/`gp` ghosts, and `extra` boundary cells (`0` without a
boundary): an active direction is `gm` ghosts, then `n + extra` interior points,
then `gp` ghosts; an inactive direction is a single point. -/
structure Layout1 (n gm gp extra : Int) (allocated intOfs intExt : Int) : Prop where
  active : 1 < n → intOfs = gm ∧ intExt = n + extra ∧ allocated = gm + (n + extra) + gp
  inactive : ¬ 1 < n → intOfs = 0 ∧ intExt = 1 ∧ allocated = 1

/-- `extra` cells in a direction: present only with a boundary there. -/
def extraCells (bc : Bool) (extra : Int) : Int := if bc then extra else 0

/-- The window of `f` is its interior grown by the ghosts `g`. -/
def FieldGeo.GrownBy (f : FieldGeo) (g : GhostData) : Prop :=
  f.window.npts = f.interior.npts ∧
  f.window.offset = f.interior.offset - g.minus ∧
  f.window.extent = f.interior.extent + g.minus + g.plus

end SpatialOps
