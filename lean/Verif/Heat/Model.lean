import Verif.Conserve.Model
import Verif.Grid.Model

/-!
# Model of the heat equation program

test/heatEqn/tools.h and test/heatEqn/main.cpp, on top of the models of fields, operators, assignment and grids. A build
without CUDA and with one partition. Printing, command line parsing and timing are left out. The arithmetic of `double` is
a parameter, `sin` and `cos` too; `main` is for exact arithmetic in a field `K`. Blocks of memory are numbers: those of the ten
fields and those the field store hands out are parameters.
-/

namespace SpatialOps
namespace Heat

open Nebo Stencil

/-- `SSurfXField`, `SSurfYField`, `SSurfZField`, test/heatEqn/main.cpp:17-19. -/
def faceType : Dir → FieldType
  | .x => .sSurfX
  | .y => .sSurfY
  | .z => .sSurfZ

/-- `GradX`, `GradY`, `GradZ`, test/heatEqn/main.cpp:21-29, as registered by `build_stencils`. -/
def grad (d : Dir) : Reg := ⟨.gradient, .sVol, faceType d, .per d⟩
/-- `InterpX`, `InterpY`, `InterpZ`, test/heatEqn/main.cpp:22-30. -/
def interp (d : Dir) : Reg := ⟨.interpolant, .sVol, faceType d, .half⟩
/-- `DivX`, `DivY`, `DivZ`, test/heatEqn/main.cpp:23-31. -/
def div (d : Dir) : Reg := ⟨.divergence, faceType d, .sVol, .per d⟩

/-- `GhostData ghost(1)`, test/heatEqn/main.cpp:112. -/
def ghost : Outcome GhostData := GhostData.makeUniform 1

/-- A field with memory of its own, `FieldT( get_window_with_ghost(npts,ghost,bc), bc, ghost, NULL )` with
`bc = BoundaryCellInfo::build<FieldT>(true,true,true)`, test/heatEqn/main.cpp:112-140. `b` is the block of memory it
gets. -/
def newField (n : IntVec) (t : FieldType) (b : Nat) : Outcome FieldObj := do
  let g ← ghost
  let bc := BcInfo.build true true true t.bcExtra
  let w ← getWindowWithGhost n g bc
  let geo ← FieldGeo.ctor false w bc g
  return ⟨geo, some b, none, true, .localRam, 0, false, [], [], false, w.globNpts⟩

section
variable {K : Type} [NatCast K] [One K] [Neg K] [Zero K] [Add K] [Sub K] [Mul K] [Div K]

/-- `SpatialFieldStore::get<FieldT>(f)` for a field `f` of type `t`, test/heatEqn/tools.h:24, 49 and
SpatialFieldStore.h:240-263, 441-492: a field like `f` with the block `b`, its elements set to zero. -/
def workField (t : FieldType) (f : FieldObj) (b : Nat) (m : Mem K) : Outcome (FieldObj × Mem K) := do
  let r ← storeGet false f.geo t.bcExtra t.bcExtra
  return (⟨r.1, some b, none, false, f.memType, f.dev, false, [], [], false, r.2⟩,
    fun blk a => if blk = b ∧ 0 ≤ a ∧ a < r.2 then 0 else m blk a)

/-- `calculate_flux`, test/heatEqn/tools.h:10-34, in direction `d`; `work` is the block of the work array. -/
def calculateFlux (h : Dir → K) (d : Dir) (temperature thermCond flux : FieldObj) (work : Nat) (m : Mem K) : Outcome (Mem K) := do
  let tm ← workField (faceType d) flux work m
  let m1 ← (interp d).applyToField h thermCond tm.1 tm.2
  let m2 ← (grad d).applyToField h temperature flux m1
  assign flux (.bin (s := .num) (t := .num) (fun a b : K => a * b)
    (.un (s := .num) (t := .num) (fun a : K => -a) (.field flux)) (.field tm.1)) m2

/-- `calculate_rhs`, test/heatEqn/tools.h:38-54, in direction `d`. -/
def calculateRhs (h : Dir → K) (d : Dir) (flux rhoCp rhs : FieldObj) (work : Nat) (m : Mem K) : Outcome (Mem K) := do
  let tm ← workField .sVol rhs work m
  let m1 ← (div d).applyToField h flux tm.1 tm.2
  assign rhs (.bin (s := .num) (t := .num) (fun a b : K => a - b) (.field rhs)
    (.bin (s := .num) (t := .num) (fun a b : K => a / b) (.field tm.1) (.field rhoCp))) m1

/-- The fields of the program, test/heatEqn/main.cpp:118-140. -/
structure Fields where
  temperature : FieldObj
  thermCond : FieldObj
  rhoCp : FieldObj
  xcoord : FieldObj
  ycoord : FieldObj
  zcoord : FieldObj
  rhs : FieldObj
  flux : Dir → FieldObj

/-- `if( npts[d]>1 ) calculate_flux( ... )`, test/heatEqn/main.cpp:159-161. -/
def fluxIf (h : Dir → K) (n : IntVec) (F : Fields) (work : Nat) (d : Dir) (m : Mem K) : Outcome (Mem K) :=
  if 1 < extract n d then calculateFlux h d F.temperature F.thermCond (F.flux d) work m else .ok m

/-- `if( npts[d]>1 ) calculate_rhs( ... )`, test/heatEqn/main.cpp:164-166. -/
def rhsIf (h : Dir → K) (n : IntVec) (F : Fields) (work : Nat) (d : Dir) (m : Mem K) : Outcome (Mem K) :=
  if 1 < extract n d then calculateRhs h d (F.flux d) F.rhoCp F.rhs work m else .ok m

/-- One trip of the time loop, test/heatEqn/main.cpp:155-174. `work d` is the block of the work array for the flux in
direction `d`, `work' d` for the right-hand side. -/
def timeStep (h : Dir → K) (n : IntVec) (F : Fields) (work work' : Dir → Nat) (m : Mem K) : Outcome (Mem K) := do
  let m ← fluxIf h n F (work .x) .x m
  let m ← fluxIf h n F (work .y) .y m
  let m ← fluxIf h n F (work .z) .z m
  let m ← assign F.rhs (.scalar (t := .num) 0) m
  let m ← rhsIf h n F (work' .x) .x m
  let m ← rhsIf h n F (work' .y) .y m
  rhsIf h n F (work' .z) .z m

/-- The time loop, test/heatEqn/main.cpp:155-174; the work arrays of step `k` are `work k`, `work' k`. -/
def timeLoop (h : Dir → K) (n : IntVec) (F : Fields) (work work' : Nat → Dir → Nat) : Nat → Mem K → Outcome (Mem K)
  | 0, m => .ok m
  | k + 1, m => do
    let m ← timeLoop h n F work work' k m
    timeStep h n F (work k) (work' k) m

/-- The fields are built, test/heatEqn/main.cpp:112-140; `blk i` is the memory of the `i`-th of them. -/
def build (n : IntVec) (blk : Nat → Nat) : Outcome Fields := do
  let temperature ← newField n .sVol (blk 0)
  let thermCond ← newField n .sVol (blk 1)
  let rhoCp ← newField n .sVol (blk 2)
  let xcoord ← newField n .sVol (blk 3)
  let ycoord ← newField n .sVol (blk 4)
  let zcoord ← newField n .sVol (blk 5)
  let rhs ← newField n .sVol (blk 6)
  let fx ← newField n .sSurfX (blk 7)
  let fy ← newField n .sSurfY (blk 8)
  let fz ← newField n .sSurfZ (blk 9)
  return ⟨temperature, thermCond, rhoCp, xcoord, ycoord, zcoord, rhs, fun | .x => fx | .y => fy | .z => fz⟩

end

section
variable {K : Type} [Field K]

/-- Coordinates and initial values, test/heatEqn/main.cpp:126-129, 142-147. -/
def initialise (sin cos : K → K) (n : IntVec) (L : Dir → K) (F : Fields) (m : Mem K) : Outcome (Mem K) := do
  let m ← (Grid.make n L).setCoord .x .sVol F.xcoord m
  let m ← (Grid.make n L).setCoord .y .sVol F.ycoord m
  let m ← (Grid.make n L).setCoord .z .sVol F.zcoord m
  let m ← assign F.temperature (.bin (s := .num) (t := .num) (fun a b : K => a + b)
    (.bin (s := .num) (t := .num) (fun a b : K => a + b) (.un (s := .num) (t := .num) sin (.field F.xcoord))
      (.un (s := .num) (t := .num) cos (.field F.ycoord))) (.un (s := .num) (t := .num) sin (.field F.zcoord))) m
  let m ← assign F.thermCond (.bin (s := .num) (t := .num) (fun a b : K => a + b)
    (.bin (s := .num) (t := .num) (fun a b : K => a + b) (.field F.xcoord) (.field F.ycoord)) (.field F.zcoord)) m
  assign F.rhoCp (.scalar (t := .num) 1) m

/-- `main`, test/heatEqn/main.cpp:44-191: the memory at the end of the time loop and the fields. -/
def main (sin cos : K → K) (n : IntVec) (L : Dir → K) (ntime : Nat) (blk : Nat → Nat) (work work' : Nat → Dir → Nat) (m : Mem K) :
    Outcome (Fields × Mem K) := do
  let F ← build n blk
  let m ← initialise sin cos n L F m
  let m ← timeLoop (spacing (fun d => (extract n d).toNat) L) n F work work' ntime m
  return (F, m)

end
end Heat
end SpatialOps
