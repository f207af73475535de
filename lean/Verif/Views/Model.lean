import Verif.Loops.Model
import Verif.Heat.Model

/-!
# Model of a kernel written with shifted views

test/StencilChainTest.cpp: minus the divergence of a diffusive flux, once with the operators and a field for every
intermediate result (`evaluate_serial_example`), once in a single expression of views of the operands moved by a cell
(`evaluate_chaining_example`). Views are those of `Verif.Loops.Model`. The members `get_minus_coef` and `get_plus_coef` that the
test calls do not exist in NeboStencilBuilder.h at this commit, so that the test does not compile;
`coefs().get_coef(0)` and `coefs().get_coef(1)` stand for them. A build without CUDA and with one partition; timing, printing
and the command line are left out. Blocks of memory are numbers and parameters; what new memory contains is arbitrary.
-/

namespace SpatialOps
namespace Views

open Nebo Stencil

/-- `build_stencil_point(f, stencil_offset)`, test/StencilChainTest.cpp:42-46. -/
def stencilPoint (f : FieldObj) (o : IntVec) : Outcome FieldObj :=
  Loops.part f f.geo.interior.npts (f.geo.interior.offset + o) f.geo.interior.extent

/-- `Field a( window, bc, ghost, NULL )` with `ghost(1)` and `bc = BoundaryCellInfo::build<Field>(false,false,false)`,
test/StencilChainTest.cpp:248-255. -/
def newField (n : IntVec) (b : Nat) : Outcome FieldObj := do
  let g ← GhostData.makeUniform 1
  let bc := BcInfo.build false false false FieldType.sVol.bcExtra
  let w ← getWindowWithGhost n g bc
  let geo ← FieldGeo.ctor false w bc g
  return ⟨geo, some b, none, true, .localRam, 0, false, [], [], false, w.globNpts⟩

/-- `FieldT tmp( w, bc, g, NULL )` with the window, boundaries and ghosts of `phi`, for cells and faces alike,
test/StencilChainTest.cpp:77-88. -/
def tempField (phi : FieldObj) (b : Nat) : Outcome FieldObj := do
  let geo ← FieldGeo.ctor false phi.geo.window phi.geo.bc phi.geo.ghosts
  return ⟨geo, some b, none, true, .localRam, 0, false, [], [], false, phi.geo.window.globNpts⟩

section
variable {K : Type} [Field K]

/-- The product of two expressions, as in test/StencilChainTest.cpp:93, 198-203. -/
def mul (a b : Expr K .num) : Expr K .num := .bin (s := .num) (t := .num) (fun x y : K => x * y) a b
/-- The sum of two expressions, as in test/StencilChainTest.cpp:198-203. -/
def add (a b : Expr K .num) : Expr K .num := .bin (s := .num) (t := .num) (fun x y : K => x + y) a b
/-- The difference of two expressions, as in test/StencilChainTest.cpp:108, 200-202. -/
def sub (a b : Expr K .num) : Expr K .num := .bin (s := .num) (t := .num) (fun x y : K => x - y) a b
/-- The negative of an expression, as in test/StencilChainTest.cpp:108, 198. -/
def neg (a : Expr K .num) : Expr K .num := .un (s := .num) (t := .num) (fun x : K => -x) a

/-- The four statements for direction `d`, test/StencilChainTest.cpp:91-106, with `tmpFace`, `tmpFace2` and `tmp` of that
direction. -/
def serialDir (h : Dir → K) (d : Dir) (phi dCoef face face2 tmp : FieldObj) (m : Mem K) : Outcome (Mem K) := do
  let m ← (Heat.grad d).applyToField h phi face m
  let m ← (Heat.interp d).applyToField h dCoef face2 m
  let m ← assign face (mul (.field face) (.field face2)) m
  (Heat.div d).applyToField h face tmp m

/-- The intermediate fields of one direction, test/StencilChainTest.cpp:80-88. -/
structure Temps where
  face : FieldObj
  face2 : FieldObj
  tmp : FieldObj

/-- The intermediate fields by direction, test/StencilChainTest.cpp:80-88. -/
def Temps.pick (x y z : Temps) : Dir → Temps
  | .x => x
  | .y => y
  | .z => z

/-- The intermediate fields of a direction are built, test/StencilChainTest.cpp:80-88. -/
def temps (phi : FieldObj) (blk : Nat → Nat) : Outcome Temps := do
  let face ← tempField phi (blk 0)
  let face2 ← tempField phi (blk 1)
  let tmp ← tempField phi (blk 2)
  return ⟨face, face2, tmp⟩

/-- The statements timed by `RUN_TEST`, test/StencilChainTest.cpp:90-109. -/
def serialRun (h : Dir → K) (result phi dCoef : FieldObj) (T : Dir → Temps) (m : Mem K) : Outcome (Mem K) := do
  let m ← serialDir h .x phi dCoef (T .x).face (T .x).face2 (T .x).tmp m
  let m ← serialDir h .y phi dCoef (T .y).face (T .y).face2 (T .y).tmp m
  let m ← serialDir h .z phi dCoef (T .z).face (T .z).face2 (T .z).tmp m
  assign result (sub (sub (neg (.field (T .x).tmp)) (.field (T .y).tmp)) (.field (T .z).tmp)) m

/-- `RUN_TEST`: the statements `runs` times, test/StencilChainTest.cpp:23-40. -/
def repeated (body : Mem K → Outcome (Mem K)) : Nat → Mem K → Outcome (Mem K)
  | 0, m => .ok m
  | k + 1, m => repeated body k m >>= body

/-- `evaluate_serial_example`, test/StencilChainTest.cpp:48-111. The mesh spacing is that of `build_stencils`; `blk d` is the memory
of the intermediate fields of direction `d`. -/
def serial (L : Dir → K) (n : IntVec) (result phi dCoef : FieldObj) (blk : Dir → Nat → Nat) (runs : Nat) (m : Mem K) :
    Outcome (Mem K) := do
  let x ← temps phi (blk .x)
  let y ← temps phi (blk .y)
  let z ← temps phi (blk .z)
  repeated (serialRun (spacing (fun d => (extract n d).toNat) L) result phi dCoef (Temps.pick x y z)) runs m

/-- `op->get_minus_coef()` and `op->get_plus_coef()`, test/StencilChainTest.cpp:179-196: the first and the second coefficient. -/
def coefs (h : Dir → K) (r : Reg) : Outcome (K × K) :=
  match r.coef.build h with
  | some cs => do
    let l ← getCoef cs 0
    let u ← getCoef cs 1
    return (l, u)
  | none => .ub

/-- The views `f_xlxl`, `f_xlxh`, `f_xhxl`, `f_xhxh` of an operand for direction `d`, test/StencilChainTest.cpp:153-177. -/
structure Points where
  ll : FieldObj
  lh : FieldObj
  hl : FieldObj
  hh : FieldObj

/-- The four views are made, test/StencilChainTest.cpp:153-177; `neg_X`, `neutral` and `pos_X` are lines 143-149. -/
def points (f : FieldObj) (d : Dir) : Outcome Points := do
  let ll ← stencilPoint f (negate (unitTriplet d))
  let lh ← stencilPoint f ⟨0, 0, 0⟩
  let hl ← stencilPoint f ⟨0, 0, 0⟩
  let hh ← stencilPoint f (unitTriplet d)
  return ⟨ll, lh, hl, hh⟩

/-- The constant times a view, test/StencilChainTest.cpp:198-203. -/
def times (c : K) (f : FieldObj) : Expr K .num := mul (.scalar (t := .num) c) (.field f)

/-- The term of one direction, test/StencilChainTest.cpp:198-203: `g`, `i` and `v` are the coefficients of gradient, interpolant and
divergence, `p` the views of `phi` and `q` those of `dCoef`. -/
def term (g i v : K × K) (p q : Points) : Expr K .num :=
  add (mul (.scalar (t := .num) v.1) (mul (add (times g.1 p.ll) (times g.2 p.hl)) (add (times i.1 q.ll) (times i.2 q.hl))))
    (mul (.scalar (t := .num) v.2) (mul (add (times g.1 p.lh) (times g.2 p.hh)) (add (times i.1 q.lh) (times i.2 q.hh))))

/-- The term of direction `d` with its views and coefficients, test/StencilChainTest.cpp:153-203. -/
def termOf (h : Dir → K) (phi dCoef : FieldObj) (d : Dir) : Outcome (Expr K .num) := do
  let p ← points phi d
  let q ← points dCoef d
  let g ← coefs h (Heat.grad d)
  let i ← coefs h (Heat.interp d)
  let v ← coefs h (Heat.div d)
  return term g i v p q

/-- The statements timed by `RUN_TEST`, test/StencilChainTest.cpp:151-204. -/
def chainedRun (h : Dir → K) (result phi dCoef : FieldObj) (m : Mem K) : Outcome (Mem K) := do
  let r ← stencilPoint result ⟨0, 0, 0⟩
  let x ← termOf h phi dCoef .x
  let y ← termOf h phi dCoef .y
  let z ← termOf h phi dCoef .z
  assign r (sub (sub (neg x) y) z) m

/-- `evaluate_chaining_example`, test/StencilChainTest.cpp:113-206. -/
def chained (L : Dir → K) (n : IntVec) (result phi dCoef : FieldObj) (runs : Nat) (m : Mem K) : Outcome (Mem K) :=
  repeated (chainedRun (spacing (fun d => (extract n d).toNat) L) result phi dCoef) runs m

/-- The fields of `main`, test/StencilChainTest.cpp:252-255. -/
structure Fields where
  a : FieldObj
  b : FieldObj
  cr : FieldObj
  sr : FieldObj

/-- `main`, test/StencilChainTest.cpp:208-286, from the construction of the fields on. What the loop at 257-266 writes into `a` and
`b` is left open: `fill` may give them any contents. -/
def main (L : Dir → K) (n : IntVec) (blk : Nat → Nat) (tmp : Dir → Nat → Nat) (fill : Mem K → Mem K) (runs : Nat) (m : Mem K) :
    Outcome (Fields × Mem K) := do
  let a ← newField n (blk 0)
  let b ← newField n (blk 1)
  let cr ← newField n (blk 2)
  let sr ← newField n (blk 3)
  let m ← serial L n sr a b tmp runs (fill m)
  let m ← chained L n cr a b runs m
  return (⟨a, b, cr, sr⟩, m)

end
end Views
end SpatialOps
