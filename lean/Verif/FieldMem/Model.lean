import Verif.Field.Model

/-!
# Model of the contents of fields on several devices

spatialops/structured/SpatialField.h, the parts that move values: `reset_values`, `add_consumer`
and `operator=`, on top of the model of ownership in `Verif.Field.Model`. All memory, of the CPU, of
the devices and of the client, is one array of elements per block, and block numbers are
addresses of one address space. `memset`, `memcpy_to`, `memcpy_from` and `memcpy_peer` of the device
interface are modelled by their effect on the elements; CUDA errors and access outside a
block are not modelled.
-/

namespace SpatialOps

/-- `CDI.memcpy_to`, `memcpy_from`, `memcpy_peer` of `n` elements from block `src` to block `dst`,
CudaMemoryAllocator.cu:372-398. NULL on either side is `ub`. -/
def Mem.memcpy {V : Type} (m : Mem V) (dst src : Option Nat) (n : Int) : Outcome (Mem V) :=
  match dst, src with
  | some d, some s => .ok fun b i => if b = d ∧ 0 ≤ i ∧ i < n then m s i else m b i
  | _, _ => .ub

/-- Store the first `n` elements of block `d`. `CDI.memset` and `CDI.memcpy_to` from client memory,
SpatialField.h:780-785. -/
def Mem.store {V : Type} (m : Mem V) (d : Nat) (n : Int) (v : Int → V) : Mem V :=
  fun b i => if b = d ∧ 0 ≤ i ∧ i < n then v i else m b i

/-- `reset_values(values)`, SpatialField.h:759-798. On a GPU all `allocatedBytes_` are set, from
`values` in memory order; on the CPU (`resetValues`) the cells of the window are, in the order of
iteration. -/
def resetAny {V : Type} (cuda : Bool) (zero : V) (f : FieldObj) (src : Option (Int → V)) (m : Mem V) : Outcome (Mem V) :=
  match f.memType with
  | .localRam => resetValues zero f src m
  | .gpu =>
    if cuda then
      match f.ext, src with
      | some d, none => .ok (m.store d f.alloc fun _ => zero)
      | some d, some v => .ok (m.store d f.alloc v)
      | none, _ => .ub
    else .throws
  | .other => .throws

/-- `operator=(other)`, SpatialField.h:1422-1521. The case of two CPU fields is `assignField`. -/
def assignAny {V : Type} (cuda : Bool) (f other : FieldObj) (m : Mem V) : Outcome (Mem V) := do
  Outcome.throwIf (f.readOnly = true)
  Outcome.throwIf (f.geo.window.neOp other.geo.window = true)
  match f.memType, other.memType with
  | .localRam, .localRam => assignField f other m
  | .localRam, .gpu => if cuda then m.memcpy f.values other.ext f.alloc else .throws
  | .gpu, .localRam => if cuda then m.memcpy f.ext other.values f.alloc else .throws
  | .gpu, .gpu =>
    if cuda then
      if f.dev = other.dev ∧ f.ext = other.ext then .ok m else m.memcpy f.ext other.ext f.alloc
    else .throws
  | _, _ => .throws

/-- The copying done by `add_consumer(mt,dev)` once the memory is there, for a field now in state
`f`. SpatialField.h:958, 987, 1001-1002. -/
def consumerCopy {V : Type} (f : FieldObj) (mt : MemType) (dev : Nat) (m : Mem V) : Outcome (Mem V) :=
  match mt, f.memType with
  | .localRam, .gpu => m.memcpy f.values f.ext f.alloc
  | .gpu, .localRam => m.memcpy (f.consumers.lookup dev) f.values f.alloc
  | .gpu, .gpu => m.memcpy (f.consumers.lookup dev) f.ext f.alloc
  | _, _ => .ok m

/-- All fields of the program and all memory. SpatialField.h:109-133. -/
structure FieldMem (V : Type) where
  fw : FieldWorld
  mem : Mem V

namespace FieldMem

/-- Client operations: life-cycle calls (`src` is the array passed to the constructor), writing one
element through `field_values(mt,dev)`, writing one cell through `operator()`, and assignment.
SpatialField.h:536-1142, 802, 1278, 1422. -/
inductive Op (V : Type) where
  | life (o : FieldWorld.Op) (src : Option (Int → V))
  | write (h : Nat) (mt : MemType) (dev : Nat) (i : Int) (v : V)
  | set (h : Nat) (ijk : IntVec) (v : V)
  | assign (h other : Nat)

/-- A call that changes only memory; an exception leaves everything as it was and is reported in
the flag. SpatialField.h:1426-1438 (exceptions come before any store). -/
def catching {V : Type} (w : FieldMem V) (r : Outcome (Mem V)) : Outcome (FieldMem V × Bool) :=
  match r with
  | .ok m => .ok (⟨w.fw, m⟩, false)
  | .throws => .ok (w, true)
  | .abort => .abort
  | .ub => .ub

/-- What a life-cycle call stores, `w` being the fields before and `w1` after it and `threw` whether it
threw. Constructor SpatialField.h:624-626, `add_consumer` 904-1026; the other calls store nothing. -/
def lifeStores {V : Type} (cuda : Bool) (zero : V) (w w1 : FieldWorld) (threw : Bool) (src : Option (Int → V)) (m : Mem V) :
    FieldWorld.Op → Outcome (Mem V)
  | .create _ _ _ _ user _ _ _ =>
    if threw = true ∨ user.isSome = true then .ok m
    else match w1.fields[w.fields.length]? with
      | some (some f) => resetAny cuda zero f src m
      | _ => .ub
  | .addConsumer h mt dev _ =>
    if threw then .ok m
    else match w.fields[h]?, w1.fields[h]? with
      | some (some f), some (some f1) => if mt = f.memType ∧ dev = f.dev then .ok m else consumerCopy f1 mt dev m
      | _, _ => .ub
  | _ => .ok m

/-- One client operation. SpatialField.h:536-1142, 802-854, 1278-1308, 1422-1521. -/
def step {V : Type} (cuda : Bool) (zero : V) (w : FieldMem V) : Op V → Outcome (FieldMem V × Bool)
  | .life o src => do
    let r ← w.fw.step cuda o
    let m ← lifeStores cuda zero w.fw r.1 r.2 src w.mem o
    return (⟨r.1, m⟩, r.2)
  | .write h mt dev i v => do
    let f ← w.fw.field h
    w.catching do
      let p ← f.fieldValuesM cuda mt dev
      match p with
      | some b => return w.mem.write b i v
      | none => .ub
  | .set h ijk v => do
    let f ← w.fw.field h
    w.catching do
      let (b, a) ← f.callM ijk
      return w.mem.write b a v
  | .assign h other => do
    let f ← w.fw.field h
    let g ← w.fw.field other
    w.catching (assignAny cuda f g w.mem)

/-- A history; exceptions are caught by the client, which goes on. SpatialField.h:536-1521. -/
def run {V : Type} (cuda : Bool) (zero : V) (w : FieldMem V) : List (Op V) → Outcome (FieldMem V)
  | [] => .ok w
  | o :: os => w.step cuda zero o >>= fun r => r.1.run cuda zero os

/-- Before the first field; any contents of memory. SpatialField.h:536. -/
def init {V : Type} (m : Mem V) : FieldMem V := ⟨FieldWorld.init, m⟩

end FieldMem
end SpatialOps
