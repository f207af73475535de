import Verif.Base

/-!
# Model of the reference-counted GPU pointer

`ema::cuda::CUDASharedPointer` and the allocation functions of `ema::cuda::CUDADeviceInterface`:
spatialops/structured/ExternalAllocators.h:48-157 and
spatialops/structured/CudaMemoryAllocator.cu:28-94, 321-361, 413-579.

Counters and device numbers live in host integers obtained with `new`; each gets a number that is
not used again. One host thread, whose current CUDA device is part of the state. `cudaFree` of an
address that is not allocated fails and the wrapper throws; `cudaFree(NULL)` does nothing.
An allocation for which the device has no memory left is not modelled. The temporary that
`get_shared_pointer` returns is constructed in place (no copy).
-/

namespace SpatialOps

/-- Members of `CUDASharedPointer`, ExternalAllocators.h:153-156. Pointers to host integers are
their numbers, device addresses are numbers; NULL is `none`. -/
structure CudaPtr where
  ptr : Option Nat
  dev : Option Nat
  rc : Option Nat
  deriving DecidableEq, Repr

/-- The state the pointers work on: the pointer variables (`none`: out of scope), the host integers
that are allocated and the number of the next one, the allocated device blocks with the device each
was allocated on, the number of devices and the thread's current device. `wrongDev` is kept by an
observer: blocks freed under another device than their own. ExternalAllocators.h:48-157. -/
structure CudaWorld where
  handles : List (Option CudaPtr)
  cells : Nat → Option Int
  next : Nat
  live : List (Nat × Int)
  nDev : Int
  cur : Int
  wrongDev : List (Nat × Int)

namespace CudaWorld

/-- Start of the program on a machine with `n` devices: device 0 is current.
ExternalAllocators.h:48-157. -/
def init (n : Int) : CudaWorld := ⟨[], fun _ => none, 0, [], n, 0, []⟩

/-- Access to pointer variable `h`; undefined when it is out of scope. ExternalAllocators.h:111. -/
def handle (w : CudaWorld) (h : Nat) : Outcome CudaPtr :=
  match w.handles[h]? with
  | some (some p) => .ok p
  | _ => .ub

/-- Read through a pointer to a host integer; NULL and deleted integers are undefined.
CudaMemoryAllocator.cu:467-468, 475, 517-518, 525, 564, 570. -/
def deref (w : CudaWorld) (c : Option Nat) : Outcome Int :=
  match c.bind w.cells with
  | none => .ub
  | some n => .ok n

/-- Write through a pointer to a host integer. CudaMemoryAllocator.cu:467, 517, 536. -/
def store (w : CudaWorld) (c : Option Nat) (v : Int) : Outcome CudaWorld := do
  let _ ← w.deref c
  return { w with cells := fun a => if c = some a then some v else w.cells a }

/-- `delete p` for a host integer; only reached with `p` not NULL. CudaMemoryAllocator.cu:472, 478, 522, 528. -/
def free (w : CudaWorld) (c : Option Nat) : Outcome CudaWorld := do
  let _ ← w.deref c
  return { w with cells := fun a => if c = some a then none else w.cells a }

/-- `new int(v)`. CudaMemoryAllocator.cu:444, 484-485. -/
def newInt (w : CudaWorld) (v : Int) : CudaWorld × Nat :=
  ({ w with cells := fun a => if a = w.next then some v else w.cells a, next := w.next + 1 }, w.next)

/-- `CudaSetDevice(device)`, CudaMemoryAllocator.cu:28-45. A negative number becomes a huge unsigned one. -/
def setDevice (w : CudaWorld) (d : Int) : Outcome CudaWorld := do
  Outcome.throwIf (¬ (0 ≤ d ∧ d < w.nDev))
  return { w with cur := d }

/-- `CudaMalloc(src,sz,device)`, CudaMemoryAllocator.cu:49-71. `fresh` is what `cudaMalloc` returns: an address, or
NULL when `sz` is 0. -/
def malloc (w : CudaWorld) (d : Int) (fresh : Option Nat) : Outcome CudaWorld := do
  let w1 ← w.setDevice d
  match fresh with
  | none => return w1
  | some a => return { w1 with live := (a, d) :: w1.live }

/-- `cudaFree(src)` with device `d` current, CudaMemoryAllocator.cu:83. -/
def release (w : CudaWorld) (p : Option Nat) (d : Int) : Outcome CudaWorld :=
  match p with
  | none => .ok w
  | some a =>
    match w.live.find? (fun b => b.1 == a) with
    | none => .throws
    | some b =>
      .ok { w with live := w.live.filter (fun b => b.1 != a),
                   wrongDev := if b.2 = d then w.wrongDev else b :: w.wrongDev }

/-- `CudaFree(src,device)`, CudaMemoryAllocator.cu:75-94. -/
def cudaFree (w : CudaWorld) (p : Option Nat) (d : Int) : Outcome CudaWorld := do
  let w1 ← w.setDevice d
  w1.release p d

/-- What both assignment operators do first: give up the present reference. CudaMemoryAllocator.cu:463-481 and
513-531. The members set to NULL here are overwritten right after, so only the state changes. -/
def dropRef (w : CudaWorld) (p : CudaPtr) : Outcome CudaWorld :=
  if p.rc = none then .ok w
  else do
    let n ← w.deref p.rc
    let w1 ← w.store p.rc (n - 1)
    let n1 ← w1.deref p.rc
    if n1 = 0 then do
      let w2 ← w1.free p.rc
      let d ← w2.deref p.dev
      let w3 ← w2.cudaFree p.ptr d
      w3.free p.dev
    else return w1

/-- `operator=(void* x)` on variable `h`, whose members are `p`. CudaMemoryAllocator.cu:459-492. -/
def assignRaw (w : CudaWorld) (h : Nat) (p : CudaPtr) (x : Option Nat) : Outcome CudaWorld := do
  let w1 ← w.dropRef p
  let w2 := (w1.newInt 1).1
  let w3 := (w2.newInt w2.cur).1
  return { w3 with handles := w3.handles.set h (some ⟨x, some w2.next, some w1.next⟩) }

/-- `operator==`, CudaMemoryAllocator.cu:496-501: the addresses of the device numbers are compared, not the numbers. -/
def eq (p q : CudaPtr) : Bool := p.ptr == q.ptr && p.dev == q.dev

/-- `operator=(const CUDASharedPointer& x)` on variable `h`, whose members are `p`. CudaMemoryAllocator.cu:505-541. -/
def assignPtr (w : CudaWorld) (h : Nat) (p x : CudaPtr) : Outcome CudaWorld :=
  if eq p x then .ok w
  else do
    let w1 ← w.dropRef p
    let n ← w1.deref x.rc
    let w2 ← w1.store x.rc (n + 1)
    return { w2 with handles := w2.handles.set h (some ⟨x.ptr, x.dev, x.rc⟩) }

/-- `get_refcount()`, CudaMemoryAllocator.cu:563-565. -/
def refcount (w : CudaWorld) (p : CudaPtr) : Outcome Int := w.deref p.rc

/-- `get_deviceID()`, CudaMemoryAllocator.cu:569-571. -/
def deviceId (w : CudaWorld) (p : CudaPtr) : Outcome Int := w.deref p.dev

/-- `get_shared_pointer(N,K)`, CudaMemoryAllocator.cu:321-339 with the constructor 443-450. The test is
`K > device_count`, so `K = device_count` is left to `CudaSetDevice`. -/
def getShared (w : CudaWorld) (d : Int) (fresh : Option Nat) : Outcome CudaWorld := do
  Outcome.throwIf (d > w.nDev)
  let w0 ← w.malloc d fresh
  let w1 := (w0.newInt 1).1
  let w2 := (w1.newInt d).1
  return { w2 with handles := w2.handles ++ [some ⟨fresh, some w1.next, some w0.next⟩] }

/-- `get_raw_pointer(N,K)`, CudaMemoryAllocator.cu:343-361. -/
def getRaw (w : CudaWorld) (d : Int) (fresh : Option Nat) : Outcome CudaWorld := do
  Outcome.throwIf (d ≥ w.nDev)
  w.malloc d fresh

/-- What a client can do. Devices and results of `cudaMalloc` are arguments.
ExternalAllocators.h:61-72, 117-137. -/
inductive Op where
  | unset
  | getShared (d : Int) (fresh : Option Nat)
  | copy (x : Nat)
  | assign (h x : Nat)
  | assignRaw (h : Nat) (a : Option Nat)
  | detach (h : Nat)
  | destroy (h : Nat)
  | getRaw (d : Int) (fresh : Option Nat)
  | releaseRaw (a : Option Nat) (d : Int)
  | setDevice (d : Int)

/-- One operation: default constructor CudaMemoryAllocator.cu:433-439; `get_shared_pointer` 321-339; copy constructor
452-455; assignments 459-492 and 505-541; `detach` 575-579, which is also
`CUDADeviceInterface::release(CUDASharedPointer&)` 413-415; destructor 424-429;
`get_raw_pointer` 343-361; `release(void*)` 419-421; a change of the thread's device 28-45. -/
def step (w : CudaWorld) : Op → Outcome CudaWorld
  | .unset => .ok { w with handles := w.handles ++ [some ⟨none, none, none⟩] }
  | .getShared d fresh => w.getShared d fresh
  | .copy x => do
    let q ← w.handle x
    let w1 : CudaWorld := { w with handles := w.handles ++ [some ⟨none, none, none⟩] }
    w1.assignPtr w.handles.length ⟨none, none, none⟩ q
  | .assign h x => do
    let p ← w.handle h
    let q ← w.handle x
    w.assignPtr h p q
  | .assignRaw h a => do
    let p ← w.handle h
    w.assignRaw h p a
  | .detach h => do
    let p ← w.handle h
    w.assignRaw h p none
  | .destroy h => do
    let p ← w.handle h
    let w1 ← w.assignRaw h p none
    return { w1 with handles := w1.handles.set h none }
  | .getRaw d fresh => w.getRaw d fresh
  | .releaseRaw a d => w.cudaFree a d
  | .setDevice d => w.setDevice d

/-- A history of operations. ExternalAllocators.h:48-157. -/
def run (w : CudaWorld) : List Op → Outcome CudaWorld
  | [] => .ok w
  | o :: os => w.step o >>= fun w' => w'.run os

end CudaWorld
end SpatialOps
