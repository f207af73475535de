import Verif.Conserve.Model
import Verif.Grid.Model
import Verif.NeboRed.Model

/-!
# Model of a study of convergence

structured/stencil/test/test_stencil_helper.h:160-250, on top of the models of fields, grids, assignment, operators, the operator
database and reductions: what a program does that applies an operator to the values of a function on a grid and measures the error.
`double` is exact arithmetic in a field `K`. A build without CUDA. Blocks of memory are numbers and parameters.
-/

namespace SpatialOps
namespace Study

open Nebo Stencil

/-- An expression in the coordinates, such as `sin(x) + cos(y) + sin(z)`: what `FuncEvaluator` assigns,
test_stencil_helper.h:23-156. The functions applied are parameters. -/
inductive Fn (K : Type) where
  | coord (d : Dir)
  | const (v : K)
  | un (g : K → K) (a : Fn K)
  | bin (g : K → K → K) (a b : Fn K)

/-- The Nebo expression in the coordinate fields `X`, as in test_stencil_helper.h:23-58. -/
def Fn.expr {K : Type} (X : Dir → FieldObj) : Fn K → Expr K .num
  | .coord d => .field (X d)
  | .const v => .scalar (t := .num) v
  | .un g a => .un (s := .num) (t := .num) g (a.expr X)
  | .bin g a b => .bin (s := .num) (t := .num) g (a.expr X) (b.expr X)

/-- `FieldT f(get_window_with_ghost(npts,GhostData(1),bc), bc, GhostData(1), NULL)` with
`bc = BoundaryCellInfo::build<FieldT>(bcPlus[0],bcPlus[1],bcPlus[2])`, test_stencil_helper.h:212-221. `b` is the block of memory. -/
def newField (n : IntVec) (plus : Dir → Bool) (t : FieldType) (b : Nat) : Outcome FieldObj := do
  let g ← GhostData.makeUniform 1
  let bc := BcInfo.build (plus .x) (plus .y) (plus .z) t.bcExtra
  let w ← getWindowWithGhost n g bc
  let geo ← FieldGeo.ctor false w bc g
  return ⟨geo, some b, none, true, .localRam, 0, false, [], [], false, w.globNpts⟩

/-- The fields of `apply_stencil`, test_stencil_helper.h:220-221: `src`, `xs`, `ys`, `zs`, `dest`, `xd`, `yd`, `zd`, `destExact`. -/
structure Fields where
  src : FieldObj
  srcCoord : Dir → FieldObj
  dest : FieldObj
  destCoord : Dir → FieldObj
  exact : FieldObj

/-- The fields are built, test_stencil_helper.h:212-221; `blk i` is the memory of the `i`-th of them. -/
def build (n : IntVec) (plus : Dir → Bool) (s d : FieldType) (blk : Nat → Nat) : Outcome Fields := do
  let src ← newField n plus s (blk 0)
  let xs ← newField n plus s (blk 1)
  let ys ← newField n plus s (blk 2)
  let zs ← newField n plus s (blk 3)
  let dest ← newField n plus d (blk 4)
  let xd ← newField n plus d (blk 5)
  let yd ← newField n plus d (blk 6)
  let zd ← newField n plus d (blk 7)
  let exact ← newField n plus d (blk 8)
  return ⟨src, fun | .x => xs | .y => ys | .z => zs, dest, fun | .x => xd | .y => yd | .z => zd, exact⟩

/-- `build_stencils(..., opdb)` on a new database and `opdb.retrieve_operator<OpT>()`, test_stencil_helper.h:232-234. The `i`-th operator
created is at address `i`. -/
def retrieve (t : Option OpType) : Outcome Reg := do
  let p ← (OpDb.run OpDb.new (buildStencils id)).retrieve t (-1)
  match registrations[p]? with
  | some r => .ok r
  | none => .ub

section
variable {K : Type} [Field K]

/-- `grid.set_coord<XDIR>(x); grid.set_coord<YDIR>(y); grid.set_coord<ZDIR>(z);`, test_stencil_helper.h:225-226. -/
def setCoords (g : Grid K) (t : FieldType) (X : Dir → FieldObj) (m : Mem K) : Outcome (Mem K) := do
  let m ← g.setCoord .x t (X .x) m
  let m ← g.setCoord .y t (X .y) m
  g.setCoord .z t (X .z) m

/-- `apply_stencil<OpT,DirT>(npts, length, bcPlus)` up to line 248, test_stencil_helper.h:200-248, for the operator of registration `r`:
the source receives the function `F`, `destExact` the function `G`. Here the lengths may differ from direction to direction. -/
def applyStencil (r : Reg) (n : IntVec) (L : Dir → K) (plus : Dir → Bool) (F G : Fn K) (blk : Nat → Nat) (m : Mem K) :
    Outcome (Fields × Mem K) := do
  let S ← build n plus r.src r.dest blk
  let m ← setCoords (Grid.make n L) r.src S.srcCoord m
  let m ← setCoords (Grid.make n L) r.dest S.destCoord m
  let m ← assign S.src (F.expr S.srcCoord) m
  let m ← assign S.exact (G.expr S.destCoord) m
  let op ← retrieve r.type
  let m ← op.applyToField (spacing (fun d => (extract n d).toNat) L) S.src S.dest m
  return (S, m)

/-- `const FieldT finterior( f.window_without_ghost(), f )`, test_stencil_helper.h:165-166. -/
def interiorOf (f : FieldObj) : Outcome FieldObj := do
  let geo ← FieldGeo.windowCopy false f.geo.interior f.geo
  return { f with geo := geo }

/-- `interior_norm(f1, f2)`, test_stencil_helper.h:160-172; `field_norm` is `nebo_norm`. -/
def interiorNorm (sqrt : K → K) (pow : K → K → K) (two : K) (f1 f2 : FieldObj) (m : Mem K) (trips : Nat) : Option (Outcome K) :=
  match interiorOf f1 >>= fun a => interiorOf f2 >>= fun b => .ok (a, b) with
  | .ok (a, b) =>
    (neboNorm sqrt pow two (.bin (s := .num) (t := .num) (fun x y : K => x - y) (.field a) (.field b)) m trips).bind fun x =>
      (neboNorm sqrt pow two (.field b) m trips).map fun y => x >>= fun x => y >>= fun y => .ok (x / y)
  | .abort => some .abort
  | .throws => some .throws
  | .ub => some .ub

end
end Study
end SpatialOps
