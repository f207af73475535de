import Verif.Stencil.Model
import Verif.Nebo.Spec

/-!
# Specification of the staggered mesh

Where the values of each field type lie, and what an operator should do to a function that
is affine in the coordinates.
-/

namespace SpatialOps
namespace Stencil

/-- The values of the field type lie on the low faces of the mesh cells in this direction
(otherwise half way between them). The volumes of an x-volume field are centred on the x
faces of the scalar volumes; taking the d-faces of a volume moves half a cell in
direction d. -/
def staggered : FieldType → Dir → Bool
  | .sVol, _ => false
  | .sSurfX, d => d == .x
  | .sSurfY, d => d == .y
  | .sSurfZ, d => d == .z
  | .xVol, d => d == .x
  | .xSurfX, _ => false
  | .xSurfY, d => d == .x || d == .y
  | .xSurfZ, d => d == .x || d == .z
  | .yVol, d => d == .y
  | .ySurfX, d => d == .x || d == .y
  | .ySurfY, _ => false
  | .ySurfZ, d => d == .y || d == .z
  | .zVol, d => d == .z
  | .zSurfX, d => d == .x || d == .z
  | .zSurfY, d => d == .y || d == .z
  | .zSurfZ, _ => false
  | .singleValue, _ => false

/-- The component of a vector in a direction. -/
def comp (c : IntVec) : Dir → Int
  | .x => c.x
  | .y => c.y
  | .z => c.z

section
variable {K : Type} [Field K]

/-- The coordinate, in direction `d`, of the value of a field of type `f` at mesh cell `c`
with spacing `h`. -/
def position (h : Dir → K) (f : FieldType) (c : IntVec) (d : Dir) : K :=
  if staggered f d then h d * (comp c d : K) else h d * ((comp c d : K) + 1 / 2)

/-- The function `a0 + ax x + ay y + az z`. -/
def affine (a0 : K) (a : Dir → K) (p : Dir → K) : K := a0 + a .x * p .x + a .y * p .y + a .z * p .z

/-- The two field types lie at different places in direction `d` only. -/
def OnlyDirection (src dest : FieldType) (d : Dir) : Prop :=
  ∀ d', staggered src d' ≠ staggered dest d' ↔ d' = d

/-- What an operator must give, at mesh cell `c` of its destination, for a source holding the
affine function: interpolants and filters give the function at the destination's own
coordinate; gradient and divergence give its derivative in the one direction in which source
and destination differ; the directional gradients its derivative in their direction. -/
def Exact (h : Dir → K) (a0 : K) (a : Dir → K) (r : Reg) (c : IntVec) (result : K) : Prop :=
  match r.op with
  | .interpolant | .filter | .interpolantD _ => result = affine a0 a (position h r.dest c)
  | .gradient | .divergence => ∃ d, OnlyDirection r.src r.dest d ∧ result = a d
  | .gradientD d => result = a d

end

end Stencil
end SpatialOps
