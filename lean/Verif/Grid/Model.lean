import Verif.Stencil.Model
import Verif.Iter.Loop

/-!
# Model of coordinate fields

structured/Grid.h and structured/Grid.cpp. `double` arithmetic is exact arithmetic in a field
`K`; a vector of three doubles is a function of the direction, so the constructor's
`assert( length.size() == 3 )` (Grid.cpp:43) is not representable.
-/

namespace SpatialOps
namespace Stencil

open Nebo

section
variable {K : Type} [Field K]

/-- `shift<DirT,FieldT>()`, Grid.cpp:30-36. -/
def shift (d : Dir) (t : FieldType) : K := 1 / 2 * ((1 + indexStagger t d : Int) : K)

/-- `Grid`, Grid.h:37-41: the number of points and the spacing. -/
structure Grid (K : Type) where
  npts : IntVec
  length : Dir → K
  spacing : Dir → K

/-- `Grid(npts, length)`, Grid.cpp:38-47. -/
def Grid.make (npts : IntVec) (length : Dir → K) : Grid K :=
  ⟨npts, length, fun d => length d / ((extract npts d : Int) : K)⟩

end

/-- The values taken by `i` in `for(i=0; i<hi; ++i)`, Grid.cpp:81-83. -/
def upTo (hi : Int) : List Int := (List.range hi.toNat).map fun k : Nat => (k : Int)

/-- The values taken by `ix` in the three nested loops of `set_coord`, in order,
Grid.cpp:80-83. -/
def loopIndices (hi : IntVec) : List IntVec :=
  (upTo hi.z).flatMap fun k => (upTo hi.y).flatMap fun j => (upTo hi.x).map fun i => ⟨i, j, k⟩

section
variable {K : Type} [Field K]

/-- The body of the loops of `set_coord`: store through the iterator and advance it,
Grid.cpp:84-85. -/
def coordBody (base : Option Nat) (size : Int) (h offset : K) (d : Dir) (ixOffset : Int) (ix : IntVec)
    (s : Mem K × It) : Outcome (Mem K × It) := do
  let m ← store base size s.2 (h * ((extract ix d - ixOffset : Int) : K) + offset) s.1
  return (m, s.2.inc)

/-- `Grid::set_coord<CoordT>(f)` for a field of type `t`, Grid.cpp:65-90. -/
def Grid.setCoord (g : Grid K) (d : Dir) (t : FieldType) (f : FieldObj) (m : Mem K) : Outcome (Mem K) := do
  let b ← f.beginM
  let r ← foldO (coordBody b.base f.geo.window.globNpts (g.spacing d) (shift d t * g.spacing d) d
    (extract f.geo.interior.offset d)) (loopIndices f.geo.window.extent) (m, b.it)
  return r.1

end
end Stencil
end SpatialOps
