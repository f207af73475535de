import Verif.NeboPar.Model

/-!
# Model of Nebo assignment on a GPU

The `GPUWalk` mode of the expression nodes, the kernel and its launch
(NeboLhs.h:239-319, 461-535), and the choice between CPU and GPU (NeboLhs.h:66-120).
Every CUDA thread is a sequence of individual memory accesses; threads of a kernel are
interleaved in every way; `cudaStreamSynchronize` waits for all of them. Masks are
taken to be present on the device with the same bits. CUDA errors other than an
invalid launch are not modelled.
-/

namespace SpatialOps
namespace Nebo

/-- Trees in mode `GPUWalk`: scalar NeboRhs.h:139-157; field NeboRhs.h:314-345, with
`cur` the offset of `current_` from the base pointer; single value NeboRhs.h:500-530
(a scalar once `start` has read it); mask NeboMask.h:163-220; operators
NeboOperators.h:172-200 (and all others); NeboCond.h:201-240, 426-460. Stencil nodes
only forward. -/
inductive GWalk (V : Type) : Ty → Type where
  | const {t : Ty} (v : t.den V) : GWalk V t
  | single (base : Option Nat) (size : Int) : GWalk V .num
  | field (base : Option Nat) (size cur xLength step : Int) : GWalk V .num
  | mask (bits : BitField) (offset bit block xLength step : Int) : GWalk V .bool
  | un {s t : Ty} (op : s.den V → t.den V) (a : GWalk V s) : GWalk V t
  | bin {s t : Ty} (op : s.den V → s.den V → t.den V) (a b : GWalk V s) : GWalk V t
  | and (a b : GWalk V .bool) : GWalk V .bool
  | or (a b : GWalk V .bool) : GWalk V .bool
  | cond (test : GWalk V .bool) (a b : GWalk V .num) : GWalk V .num

/-- `update_positions`, NeboMask.h:197-207: the new bit and block position. -/
def gpuBits (bit block : Int) : Int × Int :=
  if bit < 0 ∨ 32 ≤ bit then
    ((block * 32 + bit).tmod 32, (block * 32 + bit).tdiv 32)
  else (bit, block)

/-- `start(x, y)` followed by `k`: NeboRhs.h:149, 330-332, 521; NeboMask.h:181-185;
NeboOperators.h:180-184 and the same in every operator; NeboCond.h:216-218, 439-441. -/
def GWalk.startActs {V : Type} (x y : Int) : {t : Ty} → GWalk V t → (GWalk V t → Act V) → Act V
  | _, .const v, k => k (.const v)
  | _, .single b n, k =>
    match elemAt b n 0 with
    | .ok blk => .read blk 0 fun v => k (.const (t := .num) v)
    | _ => .fail
  | _, .field b n cur xl st, k => k (.field b n (cur + (x + y * xl)) xl st)
  | _, .mask bits off _ block xl st, k =>
    k (.mask bits off (gpuBits (off + x + y * xl) block).1 (gpuBits (off + x + y * xl) block).2 xl st)
  | _, .un op a, k => a.startActs x y fun a' => k (.un op a')
  | _, .bin op a b, k => a.startActs x y fun a' => b.startActs x y fun b' => k (.bin op a' b')
  | _, .and a b, k => a.startActs x y fun a' => b.startActs x y fun b' => k (.and a' b')
  | _, .or a b, k => a.startActs x y fun a' => b.startActs x y fun b' => k (.or a' b')
  | _, .cond c a b, k => c.startActs x y fun c' => a.startActs x y fun a' => b.startActs x y fun b' =>
      k (.cond c' a' b')

/-- `next()`: NeboRhs.h:151, 334, 523; NeboMask.h:187-191; NeboOperators.h:186-190 and the same
in every operator; NeboCond.h:220, 443-445. -/
def GWalk.next {V : Type} : {t : Ty} → GWalk V t → GWalk V t
  | _, .const v => .const v
  | _, .single b n => .single b n
  | _, .field b n cur xl st => .field b n (cur + st) xl st
  | _, .mask bits off bit block xl st =>
    .mask bits off (gpuBits (bit + st) block).1 (gpuBits (bit + st) block).2 xl st
  | _, .un op a => .un op a.next
  | _, .bin op a b => .bin op a.next b.next
  | _, .and a b => .and a.next b.next
  | _, .or a b => .or a.next b.next
  | _, .cond c a b => .cond c.next a.next b.next

/-- `eval()` followed by `k`: NeboRhs.h:153, 336, 525; NeboMask.h:193-195;
NeboOperators.h:192-194 and the same in every operator; NeboCond.h:222-226, 447-449. -/
def GWalk.acts {V : Type} : {t : Ty} → GWalk V t → (t.den V → Act V) → Act V
  | _, .const v, k => k v
  | _, .single _ _, _ => .fail
  | _, .field b n cur _ _, k =>
    match elemAt b n cur with
    | .ok blk => .read blk cur k
    | _ => .fail
  | _, .mask bits _ bit block _ _, k =>
    if 0 ≤ block ∧ block < bits.size ∧ 0 ≤ bit ∧ bit < 32 then
      k (decide (bits.words block &&& ((1 : BitVec 32) <<< bit.toNat) ≠ 0)) else .fail
  | _, .un op a, k => a.acts fun x => k (op x)
  | _, .bin op a b, k => a.acts fun x => b.acts fun y => k (op x y)
  | _, .and a b, k => a.acts fun x => if x then b.acts k else k false
  | _, .or a b, k => a.acts fun x => if x then k true else b.acts k
  | _, .cond c a b, k => c.acts fun x => if x then a.acts k else b.acts k

/-- Offset of the first cell of a window from the base pointer: initialiser of
`current_`, NeboLhs.h:468-471, NeboRhs.h:322-325, NeboMask.h:172-174. -/
def winStart (w : Window) : Int :=
  w.offset.x + w.npts.x * (w.offset.y + w.npts.y * w.offset.z)

/-- `ConstructExpr` and `SumConstructExpr` for the GPU, NeboStencils.h:229-330, 373-452, 512-578,
608-640: the walkers of the points are added up, earlier points first. -/
def Pts.gconstruct {V α : Type} [Add V] (f : α → Outcome (GWalk V .num)) : Pts α → Outcome (GWalk V .num)
  | .one a => f a
  | .more e a => do
    let x ← e.gconstruct f
    let y ← f a
    return .bin (s := .num) (t := .num) (· + ·) x y

/-- `gpu_init(minus, plus, shift, deviceIndex)`: NeboRhs.h:77-82, 236-245, 430-435;
NeboMask.h:84-93; NeboStencils.h:740-749, 956-965, 1159-1168 with 229-330, 373-452, 512-578,
608-640; NeboOperators.h:89-101 and the same in every operator; NeboCond.h:116-129,
335-348. -/
def Expr.gpuInit {V : Type} [Add V] [Mul V] (dev : Nat) (minus plus : IntVec) :
    {t : Ty} → Expr V t → IntVec → Outcome (GWalk V t)
  | _, .scalar v, _ => .ok (.const v)
  | _, .field f, shift => do
    let g ← resizeGhostAndShift f.geo minus (plus - f.geo.bc.hasExtra) shift
    let p ← f.fieldValuesC true .gpu dev
    return .field p g.window.globNpts (winStart g.window) g.window.npts.x (g.window.npts.x * g.window.npts.y)
  | _, .single f, _ => do
    let p ← f.fieldValuesC true .gpu dev
    return .single p f.geo.window.globNpts
  | _, .mask k, shift => do
    let g ← resizeGhostAndShift k.geo minus (plus - k.geo.bc.hasExtra) shift
    return .mask k.bits (winStart g.window) 0 0 g.window.npts.x (g.window.npts.x * g.window.npts.y)
  | _, .maskShift p a, shift => a.gpuInit dev minus plus (shift + p)
  | _, .un op a, shift => do
    let x ← a.gpuInit dev minus plus shift
    return .un op x
  | _, .bin op a b, shift => do
    let x ← a.gpuInit dev minus plus shift
    let y ← b.gpuInit dev minus plus shift
    return .bin op x y
  | _, .and a b, shift => do
    let x ← a.gpuInit dev minus plus shift
    let y ← b.gpuInit dev minus plus shift
    return .and x y
  | _, .or a b, shift => do
    let x ← a.gpuInit dev minus plus shift
    let y ← b.gpuInit dev minus plus shift
    return .or x y
  | _, .cond c a b, shift => do
    let x ← c.gpuInit dev minus plus shift
    let y ← a.gpuInit dev minus plus shift
    let z ← b.gpuInit dev minus plus shift
    return .cond x y z
  | _, .stencil pts a, shift =>
    pts.gconstruct fun pc => do
      let x ← a.gpuInit dev minus plus (shift + pc.1)
      return .bin (s := .num) (t := .num) (· * ·) x (.const (t := .num) pc.2)
  | _, .sumStencil pts a, shift =>
    pts.gconstruct fun p => a.gpuInit dev minus plus (shift + p)

/-- The loop of a thread, NeboLhs.h:491-497, once `start` has been called: `z` is
location_, `cur` the offset of current_. `fuel` bounds the trips. -/
def threadLoop {V : Type} (base : Option Nat) (size : Int) (valid : Bool) (zExtent step : Int) :
    Nat → Int → Int → GWalk V .num → Act V
  | fuel, z, cur, w =>
    if zExtent ≤ z then .done
    else match fuel with
      | 0 => .fail
      | fuel + 1 =>
        if valid then
          w.acts fun v =>
            match elemAt base size cur with
            | .ok blk => .write blk cur v (threadLoop base size valid zExtent step fuel (z + 1) (cur + step) w.next)
            | _ => .fail
        else threadLoop base size valid zExtent step fuel (z + 1) (cur + step) w.next

/-- `NeboField<GPUWalk>::assign` for the thread with `ii = x`, `jj = y`,
NeboLhs.h:482-516. `base` is the destination's device pointer, `win` its window. -/
def threadActs {V : Type} (base : Option Nat) (win : Window) (w : GWalk V .num) (x y : Int) : Act V :=
  let valid := decide (x < win.extent.x ∧ 0 ≤ x ∧ y < win.extent.y ∧ 0 ≤ y)
  let cur := if valid then winStart win + (x + y * win.npts.x) else winStart win
  w.startActs x y fun w' =>
    threadLoop base win.globNpts valid win.extent.z (win.npts.x * win.npts.y) win.extent.z.toNat 0 cur w'

/-- `gDimX`, `gDimY`: number of thread blocks in a direction, NeboLhs.h:262-266. -/
def gridDim (extent : Int) : Int := extent.tdiv 16 + (if 0 < extent.tmod 16 then 1 else 0)

/-- The values `(ii, jj)` of the threads of the launch: `blockIdx * blockDim + threadIdx`
over a grid of 16x16 blocks, NeboLhs.h:268-270, 288-299, 483-485. -/
def launchThreads (gx gy : Int) : List (Int × Int) :=
  (List.range gy.toNat).flatMap fun (by_ : Nat) => (List.range gx.toNat).flatMap fun (bx : Nat) =>
    (List.range 16).flatMap fun (ty : Nat) => (List.range 16).map fun (tx : Nat) =>
      ((bx : Int) * 16 + tx, (by_ : Int) * 16 + ty)

/-- `gpu_assign`, NeboLhs.h:239-319: the grid is computed from the window the field has
before its ghosts are reset. A launch with an empty grid is an error, reported by the
check after the call. The threads are the tasks; the synchronisation after the call waits
for each of them. -/
def gpuAssign {V : Type} [Add V] [Mul V] (useGhost : Bool) (lhs : FieldObj) (e : Expr V .num) (m : Mem V) :
    Outcome (ParState V) := do
  let pg ← e.possibleGhosts
  let rg ← calcValidGhost useGhost lhs.geo.ghosts lhs.geo.bc pg
  let lg ← calcValidLhsGhost rg lhs.geo.bc
  let gx := gridDim lhs.geo.window.extent.x
  let gy := gridDim lhs.geo.window.extent.y
  let g ← GhostData.make lg.minus lg.plus
  let geo ← lhs.geo.resetValidGhosts g
  let base ← lhs.fieldValuesM true .gpu lhs.dev
  let w ← e.gpuInit lhs.dev rg.minus rg.plus 0
  Outcome.throwIf (gx ≤ 0 ∨ gy ≤ 0)
  let ts := launchThreads gx gy
  return ⟨ts.map fun p => some (threadActs base geo.window w p.1 p.2), 0, ts.length, m⟩

/-- `cpu_ready()`: NeboRhs.h:73, 228-230, 422-424; NeboStencils.h:734, 950, 1153; NeboOperators.h:81-83
and the same in every operator; NeboCond.h:108-110, 327-329. -/
def Expr.cpuReady {V : Type} : {t : Ty} → Expr V t → Outcome Bool
  | _, .scalar _ => .ok true
  | _, .field f | _, .single f => f.findConsumer true .localRam 0
  | _, .mask _ => .ok true
  | _, .maskShift _ a => a.cpuReady
  | _, .un _ a => a.cpuReady
  | _, .bin _ a b | _, .and a b | _, .or a b => do
    let x ← a.cpuReady
    if x then b.cpuReady else return false
  | _, .cond c a b => do
    let x ← c.cpuReady
    let y ← (if x then a.cpuReady else return false : Outcome Bool)
    if y then b.cpuReady else return false
  | _, .stencil _ a => a.cpuReady
  | _, .sumStencil _ a => a.cpuReady

/-- `gpu_ready(deviceIndex)`: NeboRhs.h:75, 232-234, 426-428; NeboStencils.h:736-738, 952-954, 1155-1157;
NeboOperators.h:85-87 and the same in every operator; NeboCond.h:112-114, 331-333. -/
def Expr.gpuReady {V : Type} (dev : Nat) : {t : Ty} → Expr V t → Outcome Bool
  | _, .scalar _ => .ok true
  | _, .field f | _, .single f => f.findConsumer true .gpu dev
  | _, .mask _ => .ok true
  | _, .maskShift _ a => a.gpuReady dev
  | _, .un _ a => a.gpuReady dev
  | _, .bin _ a b | _, .and a b | _, .or a b => do
    let x ← a.gpuReady dev
    if x then b.gpuReady dev else return false
  | _, .cond c a b => do
    let x ← c.gpuReady dev
    let y ← (if x then a.gpuReady dev else return false : Outcome Bool)
    if y then b.gpuReady dev else return false
  | _, .stencil _ a => a.gpuReady dev
  | _, .sumStencil _ a => a.gpuReady dev

/-- Where an assignment runs in a CUDA build, NeboLhs.h:71-114. -/
inductive Backend where
  | cpu
  | gpu
  deriving DecidableEq, Repr

/-- `assign`, NeboLhs.h:66-120: the choice of the backend; everything else is refused. -/
def chooseBackend {V : Type} (lhs : FieldObj) (e : Expr V .num) : Outcome Backend :=
  if lhs.memType = .gpu then do
    let r ← e.gpuReady lhs.dev
    if r then return .gpu else .throws
  else if lhs.memType = .localRam then do
    let r ← e.cpuReady
    if r then return .cpu else .throws
  else .throws

end Nebo
end SpatialOps
