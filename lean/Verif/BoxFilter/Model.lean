import Verif.Grid.Model

/-!
# Model of the box filters

NeboStencilBuilder.h defines one collection of points for each choice of directions. The operator that
`build_stencils` registers uses the three-dimensional one; the others are for users who build the operator themselves, as
structured/stencil/test/test_filter.cpp and test/FilterTest.cpp do.
-/

namespace SpatialOps
namespace BoxFilter

open Nebo Stencil

/-- The box filter collections, NeboStencilBuilder.h:358-405. -/
inductive Box where
  | xyz | xy | xz | yz | x | y | z
  deriving DecidableEq, Repr

/-- Their points, NeboStencilBuilder.h:358-405. -/
def Box.pts : Box → Pts IntVec
  | .xyz => box3D
  | .xy => box2DXY
  | .xz => box2DXZ
  | .yz => box2DYZ
  | .x => box1DX
  | .y => box1DY
  | .z => box1DZ

section
variable {K : Type} [Field K]

/-- `operator()` of `NeboAverageStencilBuilder<Box::StPtCollection,FieldT,FieldT>`, NeboStencilBuilder.h:336-355. -/
def filter (b : Box) (arg : Expr K .num) : Expr K .num :=
  .bin (s := .num) (t := .num) (fun a b : K => a * b) (.sumStencil b.pts arg) (.scalar (t := .num) (1 / (len b.pts : K)))

/-- `apply_to_field`, NeboStencilBuilder.h:328-330. -/
def applyToField (b : Box) (src dest : FieldObj) (m : Mem K) : Outcome (Mem K) := assign dest (filter b (.field src)) m

/-- The choice of the filter by the dimensions of the mesh, test_filter.cpp:30-51 and test/FilterTest.cpp:135-156. -/
def choose (n : IntVec) : Option Box :=
  if n.x > 1 ∧ n.y > 1 ∧ n.z > 1 then some .xyz
  else if n.x > 1 ∧ n.y > 1 then some .xy
  else if n.x > 1 ∧ n.z > 1 then some .xz
  else if n.y > 1 ∧ n.z > 1 then some .yz
  else if n.x > 1 then some .x
  else if n.y > 1 then some .y
  else if n.z > 1 then some .z
  else none

/-- The fields of `run_test`, test_filter.cpp:17-25, with the block `b` of memory. -/
def newField (n : IntVec) (b : Nat) : Outcome FieldObj := do
  let g ← GhostData.makeUniform 1
  let bc := BcInfo.build false false false FieldType.sVol.bcExtra
  let w ← getWindowWithGhost n g bc
  let geo ← FieldGeo.ctor false w bc g
  return ⟨geo, some b, none, true, .localRam, 0, false, [], [], false, w.globNpts⟩

/-- `run_test<DirT>( dim )` up to the comparison, test_filter.cpp:12-51, with edges of length `L`: the fields `f` and `fbar`
and the memory. -/
def runTest (d : Dir) (n : IntVec) (L : Dir → K) (blk blk' : Nat) (m : Mem K) : Outcome (FieldObj × FieldObj × Mem K) := do
  let f ← newField n blk
  let fbar ← newField n blk'
  let m ← (Grid.make n L).setCoord d .sVol f m
  match choose n with
  | some b => do
    let m ← applyToField b f fbar m
    return (f, fbar, m)
  | none => return (f, fbar, m)

end
end BoxFilter
end SpatialOps
