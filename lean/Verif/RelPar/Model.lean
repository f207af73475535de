import Verif.Release.Model
import Verif.NeboGpu.Model

/-!
# Model of thread-parallel and GPU assignment in the release build

What areas NeboPar and NeboGpu model for the debug build, with `NDEBUG`: assertions and the code between
`#ifndef NDEBUG` and `#endif` are gone; exceptions thrown unconditionally stay. Loops are not bounded by anything
but `trips`. Functions that contain no such code (partition of a window among threads, scheduling, the walkers on the device, the
kernel) are those of NeboPar and NeboGpu.
-/

namespace SpatialOps
namespace Rel
open Nebo

/-- `eval()` of a walker followed by `k`, as individual reads: NeboRhs.h:134, 308, NeboMask.h:156,
NeboOperators.h:151-168 (and all others), NeboCond.h:195-197, 418-421, without the checks of
MemoryWindow.h:258-307, 453-480 and BitField.h:86-120. -/
def acts {V : Type} : {t : Ty} → Walk V t → (t.den V → Act V) → Act V
  | _, .const v, k => k v
  | _, .field b n i _, k =>
    match elemAt b n i.current with
    | .ok blk => .read blk i.current k
    | _ => .fail
  | _, .mask bits i _, k =>
    match maskDeref bits i with
    | .ok v => k v
    | _ => .fail
  | _, .un op a, k => acts a fun x => k (op x)
  | _, .bin op a b, k => acts a fun x => acts b fun y => k (op x y)
  | _, .and a b, k => acts a fun x => if x then acts b k else k false
  | _, .or a b, k => acts a fun x => if x then k true else acts b k
  | _, .cond c a b, k => acts c fun x => if x then acts a k else acts b k

/-- The loop `while(!at_end()) { ref() = rhs.eval(); next(); rhs.next(); }`, NeboLhs.h:441-457, as individual
accesses, for at most `trips` trips. -/
def loopActs {V : Type} (base : Option Nat) (size : Int) (e : It) : Nat → It → Walk V .num → Act V
  | trips, i, w =>
    if i.eqOp e then .done
    else match trips with
      | 0 => .fail
      | trips + 1 => acts w fun v =>
        match elemAt base size i.current with
        | .ok blk => .write blk i.current v (loopActs base size e trips i.inc w.next)
        | _ => .fail

/-- `NeboField<SeqWalk>` built on `l` and its `assign`, NeboLhs.h:430-457. -/
def walkActs {V : Type} (l : FieldObj) (w : Walk V .num) (trips : Nat) : Act V :=
  match l.beginM, l.endM with
  | .ok b, .ok e => loopActs b.base l.geo.window.globNpts e.it trips b.it w
  | _, _ => .fail

/-- `resize_ghost`, NeboBasic.h:119-132. -/
def resizeGhost (f : FieldGeo) (minus plus : IntVec) : FieldGeo :=
  reshape f (minus + plus - f.validGhosts.minus - f.validGhosts.plus) (f.validGhosts.minus - minus)

/-- `resize(minus, plus)` of every node: NeboRhs.h:65-69, 220-225, 414-418; NeboMask.h:68-73;
NeboStencils.h:726-731, 942-947, 1145-1149; NeboOperators.h:72-77 and the same in every operator;
NeboCond.h:99-104, 318-323. -/
def resize {V : Type} (m : Mem V) (minus plus : IntVec) : {t : Ty} → Expr V t → Outcome (Expr V t)
  | _, .scalar v => .ok (.scalar v)
  | _, .field f => .ok (.field { f with geo := resizeGhost f.geo minus (plus - f.geo.bc.hasExtra) })
  | _, .single f => do
    let v ← singleValue m f
    return .scalar (t := .num) v
  | _, .mask k => .ok (.mask { k with geo := resizeGhost k.geo minus (plus - k.geo.bc.hasExtra) })
  | _, .maskShift p a => do
    let x ← resize m minus plus a
    return .maskShift p x
  | _, .un op a => do
    let x ← resize m minus plus a
    return .un op x
  | _, .bin op a b => do
    let x ← resize m minus plus a
    let y ← resize m minus plus b
    return .bin op x y
  | _, .and a b => do
    let x ← resize m minus plus a
    let y ← resize m minus plus b
    return .and x y
  | _, .or a b => do
    let x ← resize m minus plus a
    let y ← resize m minus plus b
    return .or x y
  | _, .cond c a b => do
    let x ← resize m minus plus c
    let y ← resize m minus plus a
    let z ← resize m minus plus b
    return .cond x y z
  | _, .stencil pts a => do
    let x ← resize m minus plus a
    return .stencil pts x
  | _, .sumStencil pts a => do
    let x ← resize m minus plus a
    return .sumStencil pts x

/-- The window of one part of a resized field or mask, NeboLhs.h:416-422, NeboRhs.h:281-288,
NeboMask.h:129-137. -/
def partGeo (f : FieldGeo) (split loc : IntVec) : Outcome FieldGeo := do
  let w ← refine f.window split loc
  return windowCopy w f

/-- `init(shift, split, location)` in mode `Resize`: NeboRhs.h:112-116, 281-288, 470-474; NeboMask.h:129-137;
NeboStencils.h:796-801, 1006-1011, 1204-1209; NeboOperators.h:136-141 and the same in every operator;
NeboCond.h:168-173, 391-397. -/
def partInit {V : Type} [Add V] [Mul V] (split loc : IntVec) : {t : Ty} → Expr V t → IntVec → Outcome (Walk V t)
  | _, .scalar v, _ => .ok (.const v)
  | _, .field f, shift => do
    let g ← partGeo f.geo split loc
    fieldWalk false { f with geo := reshape g 0 shift }
  | _, .single _, _ => .abort
  | _, .mask k, shift => do
    let g ← partGeo k.geo split loc
    maskWalk false { k with geo := reshape g 0 shift }
  | _, .maskShift p a, shift => partInit split loc a (shift + p)
  | _, .un op a, shift => do
    let x ← partInit split loc a shift
    return .un op x
  | _, .bin op a b, shift => do
    let x ← partInit split loc a shift
    let y ← partInit split loc b shift
    return .bin op x y
  | _, .and a b, shift => do
    let x ← partInit split loc a shift
    let y ← partInit split loc b shift
    return .and x y
  | _, .or a b, shift => do
    let x ← partInit split loc a shift
    let y ← partInit split loc b shift
    return .or x y
  | _, .cond c a b, shift => do
    let x ← partInit split loc c shift
    let y ← partInit split loc a shift
    let z ← partInit split loc b shift
    return .cond x y z
  | _, .stencil pts a, shift =>
    pts.construct fun pc => do
      let x ← partInit split loc a (shift + pc.1)
      return .bin (s := .num) (t := .num) (· * ·) x (.const (t := .num) pc.2)
  | _, .sumStencil pts a, shift =>
    pts.construct fun p => partInit split loc a (shift + p)

/-- The task scheduled for one location, `NeboField<Resize>::assign`, NeboLhs.h:396-412. -/
def taskActs {V : Type} [Add V] [Mul V] (l : FieldObj) (rhs : Expr V .num) (split loc : IntVec) (trips : Nat) : Act V :=
  match partGeo l.geo split loc, partInit split loc rhs 0 with
  | .ok g, .ok w => walkActs { l with geo := g } w trips
  | _, _ => .fail

/-- `thread_parallel_assign` up to the point where all tasks have been scheduled, NeboLhs.h:171-218. -/
def parallelAssign {V : Type} [Add V] [Mul V] (useGhost : Bool) (lhs : FieldObj) (count : Int)
    (e : Expr V .num) (m : Mem V) (trips : Nat) : Outcome (ParState V) := do
  let pg ← possibleGhosts e
  let rg ← calcValidGhost useGhost lhs.geo.ghosts lhs.geo.bc pg
  let lg ← calcValidLhsGhost rg lhs.geo.bc
  let split := findPartition (resizeGhost lhs.geo lg.minus lg.plus).window.extent count
  let max := partitionCount split
  let rhs ← resize m rg.minus rg.plus e
  return ⟨(locations split max.toNat 0).map fun loc =>
    some (taskActs { lhs with geo := resetValidGhosts lhs.geo (ghostMake lg.minus lg.plus) } rhs split loc trips), 0, max.toNat, m⟩

/-- `gpu_init(minus, plus, shift, deviceIndex)`: NeboRhs.h:77-82, 236-245, 430-435; NeboMask.h:84-93;
NeboStencils.h:740-749, 956-965, 1159-1168 with 229-330, 373-452, 512-578, 608-640; NeboOperators.h:89-101 and the same in
every operator; NeboCond.h:116-129, 335-348. -/
def gpuInit {V : Type} [Add V] [Mul V] (dev : Nat) (minus plus : IntVec) :
    {t : Ty} → Expr V t → IntVec → Outcome (GWalk V t)
  | _, .scalar v, _ => .ok (.const v)
  | _, .field f, shift => do
    let g := resizeGhostAndShift f.geo minus (plus - f.geo.bc.hasExtra) shift
    let p ← f.fieldValuesC true .gpu dev
    return .field p g.window.globNpts (winStart g.window) g.window.npts.x (g.window.npts.x * g.window.npts.y)
  | _, .single f, _ => do
    let p ← f.fieldValuesC true .gpu dev
    return .single p f.geo.window.globNpts
  | _, .mask k, shift =>
    let g := resizeGhostAndShift k.geo minus (plus - k.geo.bc.hasExtra) shift
    .ok (.mask k.bits (winStart g.window) 0 0 g.window.npts.x (g.window.npts.x * g.window.npts.y))
  | _, .maskShift p a, shift => gpuInit dev minus plus a (shift + p)
  | _, .un op a, shift => do
    let x ← gpuInit dev minus plus a shift
    return .un op x
  | _, .bin op a b, shift => do
    let x ← gpuInit dev minus plus a shift
    let y ← gpuInit dev minus plus b shift
    return .bin op x y
  | _, .and a b, shift => do
    let x ← gpuInit dev minus plus a shift
    let y ← gpuInit dev minus plus b shift
    return .and x y
  | _, .or a b, shift => do
    let x ← gpuInit dev minus plus a shift
    let y ← gpuInit dev minus plus b shift
    return .or x y
  | _, .cond c a b, shift => do
    let x ← gpuInit dev minus plus c shift
    let y ← gpuInit dev minus plus a shift
    let z ← gpuInit dev minus plus b shift
    return .cond x y z
  | _, .stencil pts a, shift =>
    pts.gconstruct fun pc => do
      let x ← gpuInit dev minus plus a (shift + pc.1)
      return .bin (s := .num) (t := .num) (· * ·) x (.const (t := .num) pc.2)
  | _, .sumStencil pts a, shift =>
    pts.gconstruct fun p => gpuInit dev minus plus a (shift + p)

/-- `gpu_assign`, NeboLhs.h:239-319: the errors of the launch are not looked at (NeboLhs.h:272-286, 301-313); a launch with an empty
grid starts no thread. `waits` counts the threads, for whoever waits for the stream: this function does not. -/
def gpuAssign {V : Type} [Add V] [Mul V] (useGhost : Bool) (lhs : FieldObj) (e : Expr V .num) (m : Mem V) :
    Outcome (ParState V) := do
  let pg ← possibleGhosts e
  let rg ← calcValidGhost useGhost lhs.geo.ghosts lhs.geo.bc pg
  let lg ← calcValidLhsGhost rg lhs.geo.bc
  let base ← lhs.fieldValuesM true .gpu lhs.dev
  let w ← gpuInit lhs.dev rg.minus rg.plus e 0
  let ts := launchThreads (gridDim lhs.geo.window.extent.x) (gridDim lhs.geo.window.extent.y)
  return ⟨ts.map fun p => some (threadActs base (resetValidGhosts lhs.geo (ghostMake lg.minus lg.plus)).window w p.1 p.2), 0,
    ts.length, m⟩

/-- A program at work: between statements, or in a call of `thread_parallel_assign` (NeboLhs.h:172-226) with the
statements that follow. With each statement comes the choice made by `cpu_assign` (NeboLhs.h:123-134): `none` if the calling
thread does it, `some k` if it is divided into `k` parts. -/
inductive RState (V : Type) where
  | idle (rest : List (Stmt V × Option Int)) (m : Mem V)
  | busy (s : ParState V) (rest : List (Stmt V × Option Int))

/-- The steps of a program: a scratch field is requested and keeps what its memory held (SpatialFieldStore.h:466-474); a
statement done by the calling thread (NeboLhs.h:136-162); the call that schedules the tasks (172-218); a step of a task or of
the wait for them (220, 402-412); the return from the call (222-226). A statement that fails has no step. -/
inductive RStep {V : Type} [Add V] [Mul V] (trips : Nat) : RState V → RState V → Prop where
  | scratch {blk npts c rest m} : RStep trips (.idle ((.scratch blk npts, c) :: rest) m) (.idle rest m)
  | assign {l e rest m m'} : Rel.assign l e m trips = some (.ok m') →
      RStep trips (.idle ((.assign l e, none) :: rest) m) (.idle rest m')
  | interior {l e rest m m'} : interiorAssign l e m trips = some (.ok m') →
      RStep trips (.idle ((.interior l e, none) :: rest) m) (.idle rest m')
  | assignPar {l e k rest m s} : parallelAssign true l k e m trips = .ok s →
      RStep trips (.idle ((.assign l e, some k) :: rest) m) (.busy s rest)
  | interiorPar {l e k rest m s} : parallelAssign false l k e m trips = .ok s →
      RStep trips (.idle ((.interior l e, some k) :: rest) m) (.busy s rest)
  | work {s s' rest} : ParStep s s' → RStep trips (.busy s rest) (.busy s' rest)
  | join {s rest} : s.waits = 0 → RStep trips (.busy s rest) (.idle rest s.mem)

end Rel
end SpatialOps
