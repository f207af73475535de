import Verif.Mask.Model
import Verif.Field.Model
import Verif.DevPool.Spec

/-!
# Model of the memory of masks: ownership, device copies, contents

spatialops/structured/BitField.h:247-727 and SpatialMask.h. The flag `cuda` is
`ENABLE_CUDA`. Memory is one array of 32-bit words per block; CPU and GPU blocks are
numbers of one address space. `memcpy_to`, `memcpy_from`, `memcpy_peer` and `memset` of the
device interface are modelled by their effect on the words; CUDA errors are not modelled. The
pool is that of a CUDA build (`DPool`); in a build without CUDA only its CPU half is used.
-/

namespace SpatialOps

/-- `BitField` with the `points_` of its `SpatialMask`, BitField.h:254-276, SpatialMask.h:93-94.
`bits` is bitValues_, `ext` bitValuesExtDevice_, `consumers` consumerBitValues_, `mine`
myConsumerBitValues_. -/
structure BitMask where
  points : List IntVec
  window : Window
  ghosts : GhostData
  bits : Option Nat
  ext : Option Nat
  built : Bool
  memType : MemType
  dev : Nat
  builtCpu : Bool
  consumers : List (Nat × Nat)
  mine : List (Nat × Nat)

namespace BitMask

/-- `size_`, BitField.h:365. -/
def size (m : BitMask) : Int := roundToInt m.window.globNpts

/-- `BitField(const BitField&)`, BitField.h:407-419. Also used by both copy constructors of
`SpatialMask`, SpatialMask.h:137-171. -/
def copyOf (m : BitMask) : BitMask := { m with built := false, builtCpu := false, mine := [] }

/-- `mask_values(mt,dev)`, BitField.h:690-726. -/
def maskValues (cuda : Bool) (m : BitMask) (mt : MemType) (dev : Nat) : Outcome (Option Nat) :=
  match mt with
  | .localRam => if m.bits = none then .throws else .ok m.bits
  | .gpu =>
    if cuda then
      if m.memType = .gpu ∧ dev = m.dev then .ok m.ext
      else match m.consumers.lookup dev with
        | some b => .ok (some b)
        | none => .throws
    else .throws
  | .other => .throws

/-- `find_consumer(mt,dev)`, BitField.h:609-645. -/
def findConsumer (cuda : Bool) (m : BitMask) (mt : MemType) (dev : Nat) : Outcome Bool :=
  if mt = m.memType ∧ dev = m.dev then .ok true
  else match mt with
    | .localRam => if cuda ∧ m.memType = .gpu then .ok m.bits.isSome else .throws
    | .gpu => if cuda then .ok (m.consumers.lookup dev).isSome else .throws
    | .other => .throws

/-- `has_consumers()`, BitField.h:647-663: looks only at device 0. -/
def hasConsumers (m : BitMask) : Outcome Bool :=
  match m.memType with
  | .localRam => .ok (m.consumers.lookup 0).isSome
  | .gpu => .ok m.bits.isSome
  | .other => .throws

end BitMask

/-- All masks of the program, the pool they use and the words in memory. `own` and `misput`
are kept by an observer: the blocks handed out and not given back, with the number of the
mask that obtained them, and the blocks given back by a mask that did not hold them with
that memory type. BitField.h:254-276 (members of every mask), MemoryPool.h:38-46. -/
structure MaskWorld where
  masks : List (Option BitMask)
  pool : DWorld
  mem : Nat → Int → BitVec 32
  own : MemKind → List (Nat × Nat)
  misput : List (MemKind × Nat)

namespace MaskWorld

/-- Before the first mask; arbitrary words in memory. BitField.h:358. -/
def init (mem : Nat → Int → BitVec 32) : MaskWorld := ⟨[], DWorld.init, mem, fun _ => [], []⟩

/-- `Pool<unsigned int>::self().get(mtype,n)` by mask `h`, BitField.h:368, 371, 538, 564, 578.
Whether pinned memory was obtained makes no difference here. -/
def poolGet (w : MaskWorld) (h : Nat) (k : MemKind) (n fresh : Nat) : Outcome (MaskWorld × Nat) := do
  let r ← w.pool.pool.get k n fresh true
  let p ← w.pool.step (.get k n fresh true)
  return ({ w with pool := p, own := fun k' => if k' = k then (r.addr, h) :: w.own k else w.own k' }, r.addr)

/-- `Pool<unsigned int>::self().put(mtype,p)` by mask `h`, BitField.h:426, 433, 440, 445, 672, 679. The
pool accepts any pointer; the observer notes whether `h` holds it. A NULL pointer is `ub`. -/
def poolPut (w : MaskWorld) (h : Nat) (k : MemKind) (p : Option Nat) : Outcome MaskWorld :=
  match p with
  | none => .ub
  | some a => do
    let q ← w.pool.step (.put k a)
    return { w with
      pool := q
      own := fun k' => if k' = k then (w.own k).erase (a, h) else w.own k'
      misput := if (a, h) ∈ w.own k then w.misput else (k, a) :: w.misput }

/-- `put(EXTERNAL_CUDA_GPU, i->second)` over a consumer map, BitField.h:425-427, 669-672. The map is
ordered by device, the list by time of insertion. -/
def putAll (w : MaskWorld) (h : Nat) : List (Nat × Nat) → Outcome MaskWorld
  | [] => .ok w
  | c :: cs => w.poolPut h .gpu (some c.2) >>= fun w' => w'.putAll h cs

/-- Store the first `n` words of block `b`. `reset_values` and `add_points`, BitField.h:278-297,
342-346. -/
def fill (w : MaskWorld) (b : Nat) (n : Int) (v : Int → BitVec 32) : MaskWorld :=
  { w with mem := fun b' i => if b' = b ∧ 0 ≤ i ∧ i < n then v i else w.mem b' i }

/-- `memcpy_to`, `memcpy_from`, `memcpy_peer` of `bytes_` bytes, BitField.h:542, 568, 582. NULL on
either side is `ub`. -/
def memcpy (w : MaskWorld) (dst src : Option Nat) (n : Int) : Outcome MaskWorld :=
  match dst, src with
  | some d, some s => .ok (w.fill d n (w.mem s))
  | _, _ => .ub

/-- The mask in variable `h`. BitField.h:247. -/
def mask (w : MaskWorld) (h : Nat) : Outcome BitMask :=
  match w.masks[h]? with
  | some (some m) => .ok m
  | _ => .ub

/-- Client operations. BitField.h:358-684. -/
inductive Op where
  | create (points : List IntVec) (win : Window) (g : GhostData) (mt : MemType) (dev fresh : Nat)
  | copy (h : Nat)
  | addConsumer (h : Nat) (mt : MemType) (dev fresh : Nat)
  | removeConsumers (h : Nat)
  | destroy (h : Nat)

/-- The world after a call and whether it threw. BitField.h:383-400, 600-606. -/
abbrev Res := Outcome (MaskWorld × Bool)

/-- Constructor, BitField.h:358-401. The memory comes from the pool in the initialiser list;
if the body then throws, no destructor runs. (Without CUDA `Pool::get` throws for GPU memory,
MemoryPool.cpp:193-199; that it may set `pad_` first is ignored.) -/
def create (cuda : Bool) (w : MaskWorld) (points : List IntVec) (win : Window) (g : GhostData) (mt : MemType)
    (dev fresh : Nat) : Res := do
  let g' ← g.copy
  let m : BitMask := ⟨points, win, g', none, none, true, mt, dev, false, [], []⟩
  match mt with
  | .localRam =>
    let (w1, a) ← w.poolGet w.masks.length .cpu m.size.toNat fresh
    let bf ← BitField.build points win g
    let w2 := w1.fill a m.size bf.words
    return ({ w2 with masks := w2.masks ++ [some { m with bits := some a }] }, false)
  | .gpu =>
    if cuda then
      let (w1, a) ← w.poolGet w.masks.length .gpu m.size.toNat fresh
      let w2 := w1.fill a m.size (fun _ => 0)
      if points = [] then
        return ({ w2 with masks := w2.masks ++ [some { m with ext := some a }] }, false)
      else return ({ w2 with masks := w2.masks ++ [none] }, true)
    else return (w, true)
  | .other => return (w, true)

/-- A GPU mask made available on the CPU, BitField.h:534-544. -/
def cpuConsumer (w : MaskWorld) (h : Nat) (m : BitMask) (fresh : Nat) : Res := do
  let (w1, m1) ← (if m.bits = none then do
      let (w1, a) ← w.poolGet h .cpu m.size.toNat fresh
      return (w1, { m with builtCpu := true, bits := some a })
    else return (w, m) : Outcome (MaskWorld × BitMask))
  let w2 ← w1.memcpy m1.bits m1.ext m1.size
  return ({ w2 with masks := w2.masks.set h (some m1) }, false)

/-- A mask made available on GPU `dev`, BitField.h:559-588. -/
def gpuConsumer (w : MaskWorld) (h : Nat) (m : BitMask) (dev fresh : Nat) : Res := do
  let (w1, m1) ← (if (m.consumers.lookup dev).isNone then do
      let (w1, a) ← w.poolGet h .gpu m.size.toNat fresh
      return (w1, { m with consumers := (dev, a) :: m.consumers, mine := (dev, a) :: m.mine })
    else return (w, m) : Outcome (MaskWorld × BitMask))
  let w2 ← w1.memcpy (m1.consumers.lookup dev) (if m1.memType = .localRam then m1.bits else m1.ext) m1.size
  return ({ w2 with masks := w2.masks.set h (some m1) }, false)

/-- `add_consumer`, BitField.h:514-607. -/
def addConsumer (cuda : Bool) (w : MaskWorld) (h : Nat) (m : BitMask) (mt : MemType) (dev fresh : Nat) : Res :=
  if mt = m.memType ∧ dev = m.dev then .ok (w, false)
  else
    match mt with
    | .localRam =>
      if cuda then
        match m.memType with
        | .localRam => .ok (w, false)
        | .gpu => w.cpuConsumer h m fresh
        | .other => .ok (w, true)
      else .ok (w, true)
    | .gpu =>
      if cuda then
        match m.memType with
        | .other => .ok (w, true)
        | _ => w.gpuConsumer h m dev fresh
      else .ok (w, true)
    | .other => .ok (w, true)

/-- `remove_consumers`, BitField.h:665-684. -/
def removeConsumers (cuda : Bool) (w : MaskWorld) (h : Nat) (m : BitMask) : Res :=
  if cuda then do
    let w1 ← w.putAll h m.mine
    let m1 := { m with consumers := [], mine := [] }
    if m1.memType = .gpu ∧ m1.builtCpu = true then do
      let w2 ← w1.poolPut h .cpu m1.bits
      return ({ w2 with masks := w2.masks.set h (some { m1 with bits := none, builtCpu := false }) }, false)
    else return ({ w1 with masks := w1.masks.set h (some m1) }, false)
  else .ok (w, false)

/-- Release of the memory the mask was built with, BitField.h:437-457. The memory of a GPU mask is
given back as CPU memory (445). A throwing destructor ends the program. -/
def releaseBuilt (cuda : Bool) (w : MaskWorld) (h : Nat) (m : BitMask) : Outcome MaskWorld :=
  if m.built then
    match m.memType with
    | .localRam => w.poolPut h .cpu m.bits
    | .gpu => if cuda then w.poolPut h .cpu m.ext else .abort
    | .other => .abort
  else .ok w

/-- `~BitField()`, BitField.h:421-458. -/
def destroy (cuda : Bool) (w : MaskWorld) (h : Nat) (m : BitMask) : Res := do
  let w1 ← (if cuda then w.putAll h m.mine else .ok w : Outcome MaskWorld)
  let w2 ← (if cuda = true ∧ m.builtCpu = true then w1.poolPut h .cpu m.bits else .ok w1 : Outcome MaskWorld)
  let w3 ← w2.releaseBuilt cuda h m
  return ({ w3 with masks := w3.masks.set h none }, false)

/-- One client operation. BitField.h:358-684. -/
def step (cuda : Bool) (w : MaskWorld) : Op → Res
  | .create points win g mt dev fresh => w.create cuda points win g mt dev fresh
  | .copy h => do
    let m ← w.mask h
    let _ ← m.ghosts.copy
    return ({ w with masks := w.masks ++ [some m.copyOf] }, false)
  | .addConsumer h mt dev fresh => do
    let m ← w.mask h
    w.addConsumer cuda h m mt dev fresh
  | .removeConsumers h => do
    let m ← w.mask h
    w.removeConsumers cuda h m
  | .destroy h => do
    let m ← w.mask h
    w.destroy cuda h m

/-- A history; exceptions are caught by the client, which goes on. BitField.h:358-684. -/
def run (cuda : Bool) (w : MaskWorld) : List Op → Outcome MaskWorld
  | [] => .ok w
  | o :: os => w.step cuda o >>= fun r => r.1.run cuda os

end MaskWorld
end SpatialOps
