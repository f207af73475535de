import Verif.Geometry.Model
import Verif.Iter.Loop
import Verif.Pool.Spec

/-!
# Model of SpatialField: storage, ownership, access checks, consumers

spatialops/structured/SpatialField.h. The flag `cuda` is `ENABLE_CUDA`: code
inside `#ifdef ENABLE_CUDA` is present only if it is set. Device memory is
modelled by block numbers only; `memcpy` to and from devices is not modelled
here (no contents), and neither are CUDA errors.
-/

namespace SpatialOps

/-- `MemoryType`, MemoryTypes.h: the two supported values and all others. MemoryTypes.h:17-25. -/
inductive MemType where
  | localRam
  | gpu
  | other
  deriving DecidableEq, Repr

/-- Members of `SpatialField`, SpatialField.h:109-133. `values` is fieldValues_,
`ext` fieldValuesExtDevice_, `consumers` consumerFieldValues_, `mine`
myConsumerFieldValues_, `alloc` allocatedBytes_ divided by the size of an element. Blocks of memory are numbers, NULL is `none`. -/
structure FieldObj where
  geo : FieldGeo
  values : Option Nat
  ext : Option Nat
  built : Bool
  memType : MemType
  dev : Nat
  readOnly : Bool
  consumers : List (Nat × Nat)
  mine : List (Nat × Nat)
  builtCpu : Bool
  alloc : Int
  deriving DecidableEq, Repr

/-- A field iterator: base pointer and position.
`FieldIterator`/`ConstFieldIterator` members, MemoryWindow.h:393-400, 563-570. -/
structure FIt where
  base : Option Nat
  it : It
  deriving DecidableEq, Repr

namespace FieldObj

/-- `begin() const`, SpatialField.h:267-277. -/
def beginC (f : FieldObj) : Outcome FIt := do
  Outcome.throwIf (f.memType ≠ .localRam ∧ f.values = none ∧ f.readOnly = false)
  return ⟨f.values, It.start 0 f.geo.window⟩

/-- `begin()`, SpatialField.h:279-297. -/
def beginM (f : FieldObj) : Outcome FIt := do
  Outcome.throwIf (f.memType ≠ .localRam ∧ f.readOnly = false)
  Outcome.throwIf (f.readOnly = true)
  return ⟨f.values, It.start 0 f.geo.window⟩

/-- `interior_begin() const`, SpatialField.h:302-318. -/
def interiorBeginC (f : FieldObj) : Outcome FIt := do
  Outcome.throwIf (f.geo.disableInterior = true)
  Outcome.throwIf (f.memType ≠ .localRam ∧ f.values = none)
  return ⟨f.values, It.start 0 f.geo.interior⟩

/-- `interior_begin()`, SpatialField.h:320-345. -/
def interiorBeginM (f : FieldObj) : Outcome FIt := do
  Outcome.throwIf (f.geo.disableInterior = true)
  Outcome.throwIf (f.memType ≠ .localRam ∧ f.readOnly = false)
  Outcome.throwIf (f.readOnly = true)
  return ⟨f.values, It.start 0 f.geo.interior⟩

/-- `end() const`, SpatialField.h:1146-1164. -/
def endC (f : FieldObj) : Outcome FIt := do
  Outcome.throwIf (¬ (f.memType = .localRam ∨ f.values ≠ none))
  let i ← It.finish 0 f.geo.window
  return ⟨f.values, i⟩

/-- `end()`, SpatialField.h:1168-1186: readOnly_ is not tested. -/
def endM (f : FieldObj) : Outcome FIt := do
  Outcome.throwIf (f.memType ≠ .localRam)
  let i ← It.finish 0 f.geo.window
  return ⟨f.values, i⟩

/-- `interior_end() const`, SpatialField.h:1190-1211. -/
def interiorEndC (f : FieldObj) : Outcome FIt := do
  Outcome.throwIf (f.geo.disableInterior = true)
  Outcome.throwIf (¬ (f.memType = .localRam ∨ f.values ≠ none))
  let i ← It.finish 0 f.geo.interior
  return ⟨f.values, i⟩

/-- `interior_end()`, SpatialField.h:1215-1245. -/
def interiorEndM (f : FieldObj) : Outcome FIt := do
  Outcome.throwIf (f.geo.disableInterior = true)
  Outcome.throwIf (f.readOnly = true)
  Outcome.throwIf (f.memType ≠ .localRam)
  let i ← It.finish 0 f.geo.interior
  return ⟨f.values, i⟩

/-- `field_values(mtype,dev) const`, SpatialField.h:857-900. The pointer is
returned, possibly NULL for the GPU's own memory. -/
def fieldValuesC (cuda : Bool) (f : FieldObj) (mt : MemType) (dev : Nat) : Outcome (Option Nat) :=
  match mt with
  | .localRam => if f.values = none then .throws else .ok f.values
  | .gpu =>
    if cuda then
      if f.memType = .gpu ∧ dev = f.dev then .ok f.ext
      else match f.consumers.lookup dev with
        | some b => .ok (some b)
        | none => .throws
    else .throws
  | .other => .throws

/-- `field_values(mtype,dev)`, SpatialField.h:802-854. -/
def fieldValuesM (cuda : Bool) (f : FieldObj) (mt : MemType) (dev : Nat) : Outcome (Option Nat) := do
  Outcome.throwIf (f.readOnly = true)
  f.fieldValuesC cuda mt dev

/-- The debug assertions of `operator()`, SpatialField.h:1290-1295 and the const
forms 1318-1323, 1345-1347: compared as `size_t`; negative indices become huge
and fail the first group. -/
def callAsserts (f : FieldObj) (ijk : IntVec) : Prop :=
  (0 ≤ ijk.x ∧ ijk.x < f.geo.window.extent.x ∧ f.geo.window.offset.x ≤ ijk.x) ∧
  (0 ≤ ijk.y ∧ ijk.y < f.geo.window.extent.y ∧ f.geo.window.offset.y ≤ ijk.y) ∧
  (0 ≤ ijk.z ∧ ijk.z < f.geo.window.extent.z ∧ f.geo.window.offset.z ≤ ijk.z)

/-- Decidability of `callAsserts`, SpatialField.h:1290-1295. -/
instance (f : FieldObj) (ijk : IntVec) : Decidable (f.callAsserts ijk) := by
  unfold callAsserts; infer_instance

/-- `operator()(ijk) const` (both const overloads), SpatialField.h:1312-1359: the
block and element referred to. A NULL base is undefined behaviour. -/
def callC (f : FieldObj) (ijk : IntVec) : Outcome (Nat × Int) := do
  Outcome.throwIf (¬ (f.memType = .localRam ∨ f.values ≠ none))
  Outcome.assert (f.callAsserts ijk)
  let a ← f.geo.window.flatIndex ijk
  match f.values with
  | some b => return (b, a)
  | none => .ub

/-- `operator()(ijk)` and `operator()(i,j,k)`, SpatialField.h:1249-1308. -/
def callM (f : FieldObj) (ijk : IntVec) : Outcome (Nat × Int) := do
  Outcome.throwIf (f.readOnly = true)
  Outcome.throwIf (f.memType ≠ .localRam)
  Outcome.assert (f.callAsserts ijk)
  let a ← f.geo.window.flatIndex ijk
  match f.values with
  | some b => return (b, a)
  | none => .ub

/-- `operator[](i)`, SpatialField.h:1363-1387. -/
def subscriptM (f : FieldObj) (i : Int) : Outcome (Nat × Int) := do
  Outcome.throwIf (f.readOnly = true)
  Outcome.throwIf (f.memType ≠ .localRam)
  match f.values with
  | some b => return (b, i)
  | none => .ub

/-- `operator[](i) const`, SpatialField.h:1397-1418. -/
def subscriptC (f : FieldObj) (i : Int) : Outcome (Nat × Int) :=
  if (f.memType ≠ .localRam ∧ f.readOnly = false) ∨ f.values = none then .throws
  else match f.values with
    | some b => .ok (b, i)
    | none => .ub

/-- `has_consumers()`, SpatialField.h:1085-1110: looks only at device 0. -/
def hasConsumers (f : FieldObj) : Outcome Bool :=
  match f.memType with
  | .localRam => .ok (f.consumers.lookup 0).isSome
  | .gpu => .ok f.values.isSome
  | .other => .throws

/-- `find_consumer(mt,dev)`, SpatialField.h:1030-1081. -/
def findConsumer (cuda : Bool) (f : FieldObj) (mt : MemType) (dev : Nat) : Outcome Bool :=
  if mt = f.memType ∧ dev = f.dev then .ok true
  else match mt with
    | .localRam => if cuda ∧ f.memType = .gpu then .ok f.values.isSome else .throws
    | .gpu => if cuda then .ok (f.consumers.lookup dev).isSome else .throws
    | .other => .throws

end FieldObj

/-! ## Contents: `reset_values` and `operator=` (LOCAL_RAM) -/

/-- Memory contents: block and element to value.
The arrays behind `fieldValues_`, SpatialField.h:116. -/
abbrev Mem (V : Type) := Nat → Int → V

/-- Store one element. `*iter = x` through MemoryWindow.h:306. -/
def Mem.write {V : Type} (m : Mem V) (b : Nat) (i : Int) (v : V) : Mem V :=
  fun b' i' => if b' = b ∧ i' = i then v else m b' i'

/-- `reset_values(values)` for LOCAL_RAM, SpatialField.h:759-775. `src` is the
array passed in (`none` for NULL); the state is the memory and how far the
`values` pointer has advanced. -/
def resetValues {V : Type} (zero : V) (f : FieldObj) (src : Option (Int → V)) (m : Mem V) :
    Outcome (Mem V) := do
  let b ← f.beginM
  let e ← f.endM
  match b.base with
  | none => .ub
  | some blk =>
    let r ← forIt (fun i (s : Mem V × Int) => do
        let a ← i.deref
        match src with
        | none => return (s.1.write blk a zero, s.2)
        | some v => return (s.1.write blk a (v s.2), s.2 + 1))
      f.geo.window.localNpts.toNat b.it e.it (m, 0)
    return r.1

/-- `operator=(other)` between LOCAL_RAM fields, SpatialField.h:1422-1471.
`std::copy` over `glob_npts()` elements of two blocks (distinct, so no overlap).
-/
def assignField {V : Type} (f other : FieldObj) (m : Mem V) : Outcome (Mem V) := do
  Outcome.throwIf (f.readOnly = true)
  Outcome.throwIf (f.geo.window.neOp other.geo.window = true)
  Outcome.throwIf (f.memType ≠ .localRam ∨ other.memType ≠ .localRam)
  -- other.field_values() on a const field: throws on NULL
  Outcome.throwIf (other.values = none)
  if f.values = other.values then return m
  else match f.values, other.values with
    | some d, some s =>
      return fun b i => if b = d ∧ 0 ≤ i ∧ i < other.geo.window.globNpts then m s i else m b i
    | _, _ => .ub

/-! ## Life cycle of fields and their memory -/

/-- All fields of the program and the memory handed out by the three sources
(the CPU pool, the GPU pool and raw device allocations). `cpuOwn`, `gpuOwn`,
`rawOwn` are kept by an observer: each block handed out and not yet given back,
with the number of the field whose call obtained it.
SpatialField.h:109-133 (members of every field), MemoryPool.cpp:115-230. -/
structure FieldWorld where
  fields : List (Option FieldObj)
  pool : PoolWorld
  cpuOwn : List (Nat × Nat)
  gpuOwn : List (Nat × Nat)
  rawOwn : List (Nat × Nat)

namespace FieldWorld

/-- No field, no memory handed out; the state before the first SpatialField.h:536 constructor call. -/
def init : FieldWorld := ⟨[], PoolWorld.init, [], [], []⟩

/-- `Pool<T>::self().get(LOCAL_RAM,n)` called by field `h`. SpatialField.h:602, 947, 983, 997. -/
def poolGet (w : FieldWorld) (h n fresh : Nat) : Outcome (FieldWorld × Nat) := do
  let r ← w.pool.pool.get n fresh
  let p ← w.pool.step (.get n fresh)
  return ({ w with pool := p, cpuOwn := (r.addr, h) :: w.cpuOwn }, r.addr)

/-- `Pool<T>::self().put(LOCAL_RAM,p)` called by field `h`. Giving back anything
but a block this very field obtained and has not yet given back (NULL, foreign,
already returned) is reported as `ub`. SpatialField.h:729, 736, 1135. -/
def poolPut (w : FieldWorld) (h : Nat) (p : Option Nat) : Outcome FieldWorld :=
  match p with
  | none => .ub
  | some a =>
    if (a, h) ∈ w.cpuOwn then do
      let q ← w.pool.step (.put a)
      return { w with pool := q, cpuOwn := w.cpuOwn.erase (a, h) }
    else .ub

/-- `Pool<T>::self().put(EXTERNAL_CUDA_GPU,p)` called by field `h`. SpatialField.h:722, 1127. -/
def gpuPut (w : FieldWorld) (h a : Nat) : Outcome FieldWorld :=
  if (a, h) ∈ w.gpuOwn then .ok { w with gpuOwn := w.gpuOwn.erase (a, h) } else .ub

/-- `for(...) put(EXTERNAL_CUDA_GPU, i->second)` over a consumer map.
SpatialField.h:721-723, 1125-1127. -/
def gpuPutAll (w : FieldWorld) (h : Nat) : List (Nat × Nat) → Outcome FieldWorld
  | [] => .ok w
  | c :: cs => w.gpuPut h c.2 >>= fun w' => w'.gpuPutAll h cs

/-- `CUDADeviceInterface::release(p)` called by field `h`. SpatialField.h:742. -/
def rawPut (w : FieldWorld) (h : Nat) (p : Option Nat) : Outcome FieldWorld :=
  match p with
  | none => .ub
  | some a => if (a, h) ∈ w.rawOwn then .ok { w with rawOwn := w.rawOwn.erase (a, h) } else .ub

/-- An alive field variable. Observer: the object a variable of type SpatialField.h:105 denotes. -/
def field (w : FieldWorld) (h : Nat) : Outcome FieldObj :=
  match w.fields[h]? with
  | some (some f) => .ok f
  | _ => .ub

/-- Client operations. `fresh` is the address an allocator would return.
SpatialField.h: constructors 536-712, destructor 717-755, add_consumer 904-1026, remove_consumers 1113-1142. -/
inductive Op where
  /-- `SpatialField(window,bc,ghost,values,mode,mtype,dev)`: `user = none` is
  `InternalStorage`, `some p` is `ExternalStorage` with the client's memory `p`. -/
  | create (single : Bool) (win : Window) (bc : BcInfo) (g : GhostData) (user : Option Nat)
      (mt : MemType) (dev fresh : Nat)
  /-- copy constructor -/
  | copy (h : Nat)
  /-- `SpatialField(window, other)` -/
  | view (single : Bool) (win : Window) (h : Nat)
  | addConsumer (h : Nat) (mt : MemType) (dev fresh : Nat)
  | removeConsumers (h : Nat)
  | destroy (h : Nat)

/-- Result of a call: the world and whether an exception was thrown.
Exceptions as thrown in SpatialField.h:615-621, 962-968, 1006-1024. -/
abbrev Res := Outcome (FieldWorld × Bool)

/-- The main constructor, SpatialField.h:536-627. On an exception no field
exists. `reset_values` runs on internal storage (its `end()` divides by the
extents, see `It.finish`); contents are modelled by `resetValues`. -/
def create (cuda : Bool) (w : FieldWorld) (single : Bool) (win : Window) (bc : BcInfo) (g : GhostData)
    (user : Option Nat) (mt : MemType) (dev fresh : Nat) : Res :=
  match FieldGeo.ctor single win bc g with
  | .throws => .ok (w, true)
  | .abort => .abort
  | .ub => .ub
  | .ok geo =>
    let f : FieldObj := ⟨geo, if mt = .localRam then user else none, if mt = .gpu then user else none,
      user.isNone, mt, dev, false, [], [], false, win.globNpts⟩
    match mt, user with
    | .localRam, none => do
      let (w1, a) ← w.poolGet w.fields.length win.globNpts.toNat fresh
      let f1 := { f with values := some a }
      let _ ← f1.endM
      return ({ w1 with fields := w1.fields ++ [some f1] }, false)
    | .localRam, some _ => .ok ({ w with fields := w.fields ++ [some f] }, false)
    | .gpu, none =>
      if cuda then
        .ok ({ w with
          fields := w.fields ++ [some { f with ext := some fresh }]
          rawOwn := (fresh, w.fields.length) :: w.rawOwn }, false)
      else .ok (w, true)
    | .gpu, some _ =>
      if cuda then .ok ({ w with fields := w.fields ++ [some f] }, false) else .ok (w, true)
    | .other, _ => .ok (w, true)

/-- Copy constructor, SpatialField.h:632-654. -/
def copyOf (f : FieldObj) : FieldObj := { f with built := false, mine := [], builtCpu := false }

/-- `add_consumer`, SpatialField.h:904-1026. The GPU blocks of consumers come
from the pool for every device index. -/
def addConsumer (cuda : Bool) (w : FieldWorld) (h : Nat) (f : FieldObj) (mt : MemType)
    (dev fresh : Nat) : Res :=
  if mt = f.memType ∧ dev = f.dev then .ok (w, false)
  else
    let f := { f with readOnly := true }
    match mt with
    | .localRam =>
      match cuda, f.memType with
      | true, .localRam => .ok ({ w with fields := w.fields.set h (some f) }, false)
      | true, .gpu =>
        if f.values = none then do
          let (w1, a) ← w.poolGet h f.alloc.toNat fresh
          return ({ w1 with fields := w1.fields.set h (some { f with values := some a, builtCpu := true }) }, false)
        else .ok ({ w with fields := w.fields.set h (some f) }, false)
      | _, _ => .ok ({ w with fields := w.fields.set h (some f) }, true)
    | .gpu =>
      if cuda then
        match f.memType with
        | .other => .ok ({ w with fields := w.fields.set h (some f) }, true)
        | _ =>
          if (f.consumers.lookup dev).isNone then
            .ok ({ w with
              fields := w.fields.set h (some { f with
                consumers := (dev, fresh) :: f.consumers, mine := (dev, fresh) :: f.mine })
              gpuOwn := (fresh, h) :: w.gpuOwn }, false)
          else .ok ({ w with fields := w.fields.set h (some f) }, false)
      else .ok ({ w with fields := w.fields.set h (some f) }, true)
    | .other => .ok ({ w with fields := w.fields.set h (some f) }, true)

/-- `remove_consumers`, SpatialField.h:1113-1142. -/
def removeConsumers (cuda : Bool) (w : FieldWorld) (h : Nat) (f : FieldObj) : Res :=
  if cuda ∧ f.readOnly = true then do
    let w1 ← w.gpuPutAll h f.mine
    let f1 := { f with
      readOnly := if f.mine = [] then f.readOnly else false
      consumers := []
      mine := [] }
    if f1.memType = .gpu ∧ f1.builtCpu = true then do
      let w2 ← w1.poolPut h f1.values
      let f2 := { f1 with values := none, readOnly := false, builtCpu := false }
      return ({ w2 with fields := w2.fields.set h (some f2) }, false)
    else .ok ({ w1 with fields := w1.fields.set h (some f1) }, false)
  else .ok (w, false)

/-- `~SpatialField()`, SpatialField.h:717-755. A throwing destructor ends the
program (`abort`). -/
def destroy (cuda : Bool) (w : FieldWorld) (h : Nat) (f : FieldObj) : Res := do
  let w1 ← (if cuda then w.gpuPutAll h f.mine else .ok w : Outcome FieldWorld)
  let w2 ← (if cuda = true ∧ f.builtCpu = true then w1.poolPut h f.values else .ok w1 : Outcome FieldWorld)
  let w3 ← (if f.built then
      match f.memType with
      | .localRam => w2.poolPut h f.values
      | .gpu => if cuda then w2.rawPut h f.ext else .abort
      | .other => .abort
    else .ok w2 : Outcome FieldWorld)
  return ({ w3 with fields := w3.fields.set h none }, false)

/-- One client operation. Dispatches to the definitions above, SpatialField.h:536-1142. -/
def step (cuda : Bool) (w : FieldWorld) : Op → Res
  | .create single win bc g user mt dev fresh => w.create cuda single win bc g user mt dev fresh
  | .copy h => do
    let f ← w.field h
    let _ ← f.geo.copy
    return ({ w with fields := w.fields ++ [some (copyOf f)] }, false)
  | .view single win h => do
    let f ← w.field h
    match FieldGeo.windowCopy single win f.geo with
    | .ok geo => return ({ w with fields := w.fields ++ [some { copyOf f with geo := geo }] }, false)
    | .throws => return (w, true)
    | .abort => .abort
    | .ub => .ub
  | .addConsumer h mt dev fresh => do
    let f ← w.field h
    w.addConsumer cuda h f mt dev fresh
  | .removeConsumers h => do
    let f ← w.field h
    w.removeConsumers cuda h f
  | .destroy h => do
    let f ← w.field h
    w.destroy cuda h f

/-- A history (exceptions are caught by the client, which goes on).
Client program using SpatialField.h:536-1142. -/
def run (cuda : Bool) (w : FieldWorld) : List Op → Outcome FieldWorld
  | [] => .ok w
  | o :: os => w.step cuda o >>= fun r => r.1.run cuda os

end FieldWorld

/-! ## SpatialFieldStore -/

/-- Geometry of `SpatialFieldStore::get_from_window<FieldT>(window,bc,ghost)`,
SpatialFieldStore.h:441-492: the window of the new field and the field geometry;
`npts` is the number of elements requested from the pool and zeroed (debug). -/
def storeFromWindow (single : Bool) (win : Window) (bc : BcInfo) (g : GhostData) :
    Outcome (FieldGeo × Int) := do
  let mw ← Window.make win.extent 0 win.extent
  Outcome.assert win.sanityCheck
  let geo ← FieldGeo.ctor single mw bc g
  return (geo, mw.globNpts)

/-- Geometry of `SpatialFieldStore::get<FieldT>(f)`, SpatialFieldStore.h:240-263.
`extraF`, `extraP` are `BCExtra` of the requested type and of the prototype's. -/
def storeGet (single : Bool) (f : FieldGeo) (extraF extraP : IntVec) : Outcome (FieldGeo × Int) := do
  let g ← f.ghosts.copy
  let bc := BcInfo.buildVec f.bc.isbc extraF
  let inc := bc.isbc * (extraF - extraP)
  let w ← Window.make (f.window.npts + inc) f.window.offset (f.window.extent + inc)
  storeFromWindow single w bc g

end SpatialOps
