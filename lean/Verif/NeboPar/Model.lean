import Verif.Nebo.Model

/-!
# Model of thread-parallel Nebo assignment

spatialops/NeboLhs.h:171-226 and 384-427, the `Resize` mode of the expression nodes,
and the partition functions of NeboBasic.h:158-191. A worker task is a sequence of
individual memory accesses (`Act`), so that accesses of different tasks can be
interleaved in every way; memory is sequentially consistent. The order in which C++
evaluates the operands of an operator is unspecified; here it is left to right.
-/

namespace SpatialOps
namespace Nebo

/-- `nebo_find_partition`, NeboBasic.h:158-170. -/
def findPartition (extent : IntVec) (count : Int) : IntVec :=
  if count ≤ extent.z then ⟨1, 1, count⟩
  else if count ≤ extent.y then ⟨1, count, 1⟩
  else if count ≤ extent.x then ⟨count, 1, 1⟩
  else ⟨1, 1, 1⟩

/-- `nebo_partition_count`, NeboBasic.h:172-174. -/
def partitionCount (split : IntVec) : Int := split.x * split.y * split.z

/-- `nebo_next_partition`, NeboBasic.h:176-191. -/
def nextPartition (current split : IntVec) : IntVec :=
  if current.z < split.z - 1 then ⟨current.x, current.y, 1 + current.z⟩
  else if current.y < split.y - 1 then ⟨current.x, 1 + current.y, 0⟩
  else ⟨1 + current.x, 0, 0⟩

/-- The locations visited by the scheduling loop, `k` trips from `loc`,
NeboLhs.h:204-218. -/
def locations (split : IntVec) : Nat → IntVec → List IntVec
  | 0, _ => []
  | k + 1, loc => loc :: locations split k (nextPartition loc split)

/-- What a task still has to do: individual reads and writes of field memory, as
performed by the loop of NeboLhs.h:441-444. `fail` is an exception, a failed assertion
or undefined behaviour inside the task. -/
inductive Act (V : Type) where
  | done
  | fail
  | read (b : Nat) (a : Int) (k : V → Act V)
  | write (b : Nat) (a : Int) (v : V) (k : Act V)

/-- `eval()` of a walker followed by `k`, as individual reads: NeboRhs.h:134, 308,
NeboMask.h:156, NeboOperators.h:151-168 (and all others; AndOp 12017, OrOp 12397),
NeboCond.h:195-197, 418-421. Mask bits are never written by an assignment and are
read on the spot. -/
def Walk.acts {V : Type} : {t : Ty} → Walk V t → (t.den V → Act V) → Act V
  | _, .const v, k => k v
  | _, .field b n i _, k =>
    match i.deref with
    | .ok a =>
      match elemAt b n a with
      | .ok blk => .read blk a k
      | _ => .fail
    | _ => .fail
  | _, .mask bits i _, k =>
    match i.deref bits.words with
    | .ok v => if i.block < bits.size then k v else .fail
    | _ => .fail
  | _, .un op a, k => a.acts fun x => k (op x)
  | _, .bin op a b, k => a.acts fun x => b.acts fun y => k (op x y)
  | _, .and a b, k => a.acts fun x => if x then b.acts k else k false
  | _, .or a b, k => a.acts fun x => if x then k true else b.acts k
  | _, .cond c a b, k => c.acts fun x => if x then a.acts k else b.acts k

/-- The loop `while(!at_end()) { ref() = rhs.eval(); next(); rhs.next(); }`,
NeboLhs.h:441-457, as individual accesses. `fuel` bounds the trips. -/
def loopActs {V : Type} (base : Option Nat) (size : Int) : Nat → It → It → Walk V .num → Act V
  | fuel, i, e, w =>
    if i.eqOp e then .done
    else match fuel with
      | 0 => .fail
      | fuel + 1 => w.acts fun v =>
        match i.deref with
        | .ok a =>
          match elemAt base size a with
          | .ok blk => .write blk a v (loopActs base size fuel i.inc e w.next)
          | _ => .fail
        | _ => .fail

/-- `NeboField<SeqWalk>` built on `l` and its `assign`, NeboLhs.h:430-457. -/
def walkActs {V : Type} (l : FieldObj) (w : Walk V .num) : Act V :=
  match l.beginM, l.endM with
  | .ok b, .ok e => loopActs b.base l.geo.window.globNpts l.geo.window.localNpts.toNat b.it e.it w
  | _, _ => .fail

/-- `resize(minus, plus)` of every node, giving the tree in mode `Resize`:
NeboRhs.h:65-69 (scalar), 220-225 (field), 414-418 (single value: read now);
NeboMask.h:68-73; NeboStencils.h:726-731, 942-947, 1145-1149; NeboOperators.h:72-77 and
the same in every operator; NeboCond.h:99-104, 318-323. -/
def Expr.resize {V : Type} (m : Mem V) (minus plus : IntVec) : {t : Ty} → Expr V t → Outcome (Expr V t)
  | _, .scalar v => .ok (.scalar v)
  | _, .field f => do
    let g ← resizeGhost f.geo minus (plus - f.geo.bc.hasExtra)
    return .field { f with geo := g }
  | _, .single f => do
    let v ← singleValue m f
    return .scalar (t := .num) v
  | _, .mask k => do
    let g ← resizeGhost k.geo minus (plus - k.geo.bc.hasExtra)
    return .mask { k with geo := g }
  | _, .maskShift p a => do
    let x ← a.resize m minus plus
    return .maskShift p x
  | _, .un op a => do
    let x ← a.resize m minus plus
    return .un op x
  | _, .bin op a b => do
    let x ← a.resize m minus plus
    let y ← b.resize m minus plus
    return .bin op x y
  | _, .and a b => do
    let x ← a.resize m minus plus
    let y ← b.resize m minus plus
    return .and x y
  | _, .or a b => do
    let x ← a.resize m minus plus
    let y ← b.resize m minus plus
    return .or x y
  | _, .cond c a b => do
    let x ← c.resize m minus plus
    let y ← a.resize m minus plus
    let z ← b.resize m minus plus
    return .cond x y z
  | _, .stencil pts a => do
    let x ← a.resize m minus plus
    return .stencil pts x
  | _, .sumStencil pts a => do
    let x ← a.resize m minus plus
    return .sumStencil pts x

/-- The window of one part of a resized field or mask: `FieldType(window.refine(split,
location), field_)`, NeboLhs.h:416-422, NeboRhs.h:281-288, NeboMask.h:129-137. -/
def partGeo (f : FieldGeo) (split loc : IntVec) : Outcome FieldGeo := do
  let w ← f.window.refine split loc
  f.windowCopy false w

/-- `init(shift, split, location)` in mode `Resize`: NeboRhs.h:112-116, 281-288, 470-474;
NeboMask.h:129-137; NeboStencils.h:796-801, 1006-1011, 1204-1209; NeboOperators.h:136-141
and the same in every operator; NeboCond.h:168-173, 391-397. A single-value leaf no
longer occurs (it became a scalar). -/
def Expr.partInit {V : Type} [Add V] [Mul V] (split loc : IntVec) :
    {t : Ty} → Expr V t → IntVec → Outcome (Walk V t)
  | _, .scalar v, _ => .ok (.const v)
  | _, .field f, shift => do
    let g ← partGeo f.geo split loc
    let h ← shiftWindow g shift
    fieldWalk false { f with geo := h }
  | _, .single _, _ => .abort
  | _, .mask k, shift => do
    let g ← partGeo k.geo split loc
    let h ← shiftWindow g shift
    maskWalk false { k with geo := h }
  | _, .maskShift p a, shift => a.partInit split loc (shift + p)
  | _, .un op a, shift => do
    let x ← a.partInit split loc shift
    return .un op x
  | _, .bin op a b, shift => do
    let x ← a.partInit split loc shift
    let y ← b.partInit split loc shift
    return .bin op x y
  | _, .and a b, shift => do
    let x ← a.partInit split loc shift
    let y ← b.partInit split loc shift
    return .and x y
  | _, .or a b, shift => do
    let x ← a.partInit split loc shift
    let y ← b.partInit split loc shift
    return .or x y
  | _, .cond c a b, shift => do
    let x ← c.partInit split loc shift
    let y ← a.partInit split loc shift
    let z ← b.partInit split loc shift
    return .cond x y z
  | _, .stencil pts a, shift =>
    pts.construct fun pc => do
      let x ← a.partInit split loc (shift + pc.1)
      return .bin (s := .num) (t := .num) (· * ·) x (.const (t := .num) pc.2)
  | _, .sumStencil pts a, shift =>
    pts.construct fun p => a.partInit split loc (shift + p)

/-- The task scheduled for one location, `NeboField<Resize>::assign`, NeboLhs.h:396-412:
everything up to `semaphore->post()`. -/
def taskActs {V : Type} [Add V] [Mul V] (l : FieldObj) (rhs : Expr V .num) (split loc : IntVec) : Act V :=
  match partGeo l.geo split loc, rhs.partInit split loc 0 with
  | .ok g, .ok w => walkActs { l with geo := g } w
  | _, _ => .fail

/-- State while the tasks run: each task (`none` once it has posted), the value of the
semaphore, how often the assigning thread still has to `wait()`, and the memory
(locals of NeboLhs.h:171-226). -/
structure ParState (V : Type) where
  tasks : List (Option (Act V))
  sem : Nat
  waits : Nat
  mem : Mem V

/-- `thread_parallel_assign` up to the point where all tasks have been scheduled,
NeboLhs.h:171-218. The tasks only start to exist one after the other; letting all of
them run from the start allows more schedules than there are. -/
def parallelAssign {V : Type} [Add V] [Mul V] (useGhost : Bool) (lhs : FieldObj) (count : Int)
    (e : Expr V .num) (m : Mem V) : Outcome (ParState V) := do
  let pg ← e.possibleGhosts
  let rg ← calcValidGhost useGhost lhs.geo.ghosts lhs.geo.bc pg
  let lg ← calcValidLhsGhost rg lhs.geo.bc
  let r ← resizeGhost lhs.geo lg.minus lg.plus
  let split := findPartition r.window.extent count
  let max := partitionCount split
  let g ← GhostData.make lg.minus lg.plus
  let geo ← lhs.geo.resetValidGhosts g
  let rhs ← e.resize m rg.minus rg.plus
  return ⟨(locations split max.toNat 0).map fun loc => some (taskActs { lhs with geo := geo } rhs split loc),
    0, max.toNat, m⟩

/-- One step of the running system, NeboLhs.h:396-412 and 220: some task performs its next
access or posts the semaphore, or the assigning thread returns from one `wait()`. The
assignment returns when `waits = 0`. -/
inductive ParStep {V : Type} : ParState V → ParState V → Prop where
  | read {s : ParState V} {i b a k} : s.tasks[i]? = some (some (.read b a k)) →
      ParStep s { s with tasks := s.tasks.set i (some (k (s.mem b a))) }
  | write {s : ParState V} {i b a v k} : s.tasks[i]? = some (some (.write b a v k)) →
      ParStep s { s with tasks := s.tasks.set i (some k), mem := s.mem.write b a v }
  | post {s : ParState V} {i} : s.tasks[i]? = some (some .done) →
      ParStep s { s with tasks := s.tasks.set i none, sem := s.sem + 1 }
  | wait {s : ParState V} : 0 < s.sem → 0 < s.waits →
      ParStep s { s with sem := s.sem - 1, waits := s.waits - 1 }

end Nebo
end SpatialOps
