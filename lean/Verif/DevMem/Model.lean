import Verif.Base
import Mathlib.Data.List.Basic

/-!
# Model of device memory and its statistics

The raw-pointer functions of `ema::cuda::CUDADeviceInterface` and the class
`CUDADeviceManager`: spatialops/structured/CudaMemoryAllocator.cu:28-316, 343-421. One host thread,
whose current device is part of the state. Addresses are those of blocks from the allocator, and the
address space is one for all devices (unified addressing). The CUDA runtime is
modelled as follows: `cudaMalloc` fails exactly if the device has fewer free bytes than
asked for; `cudaMemGetInfo` reports, for the current device, its size and the size minus
what is allocated; copying and setting outside an allocated block is undefined.
-/

namespace SpatialOps

/-- `CUDAMemStats`, ExternalAllocators.h:35-39. -/
structure MemStats where
  f : Nat
  t : Nat
  inuse : Nat
  deriving DecidableEq, Repr

/-- A block of device memory: address, device and size in bytes. CudaMemoryAllocator.cu:49-71. -/
structure DevBlock where
  addr : Nat
  dev : Nat
  size : Nat
  deriving DecidableEq, Repr

/-- A machine with `nDev` devices of `total` bytes each, the thread's current device, the allocated
blocks, their bytes, and `device_stats`, CudaMemoryAllocator.h:101-103 (created by `new CUDAMemStats()`, so
zero, CudaMemoryAllocator.cu:271). -/
structure DevMem where
  nDev : Nat
  total : Nat → Nat
  cur : Nat
  live : List DevBlock
  bytes : Nat → Nat → BitVec 8
  stats : Nat → MemStats

namespace DevMem

/-- What a call gives the client. CudaMemoryAllocator.cu:179-187, 343-421. -/
inductive Reply where
  | done
  | threw
  | addr (a : Option Nat)
  | data (bs : List (BitVec 8))
  | stats (s : MemStats)
  deriving DecidableEq

/-- Calls of the interface. CudaMemoryAllocator.cu:303-311, 343-361, 372-403, 419-421. -/
inductive Op where
  | getRaw (n K fresh : Nat)
  | release (a K : Nat)
  | copyTo (a : Nat) (src : List (BitVec 8)) (K : Nat)
  | copyFrom (a n K : Nat)
  | copyPeer (dst dK src sK n : Nat)
  | memset (a : Nat) (v : Int) (n K : Nat)
  | update
  | getStats (K : Int)

/-- Start of the program. The constructor of the manager, CudaMemoryAllocator.cu:258-278. -/
def init (n : Nat) (total : Nat → Nat) (bytes : Nat → Nat → BitVec 8) : DevMem :=
  ⟨n, total, 0, [], bytes, fun _ => ⟨0, 0, 0⟩⟩

/-- Bytes allocated on device `d`, as the CUDA runtime counts them (CudaMemoryAllocator.cu:197). -/
def used (w : DevMem) (d : Nat) : Nat := ((w.live.filter fun b => b.dev == d).map DevBlock.size).sum

/-- The block at an address (CudaMemoryAllocator.cu:107, 151). -/
def block (w : DevMem) (a : Nat) : Option DevBlock := w.live.find? fun b => b.addr == a

/-- `n` bytes at `a` are inside an allocated block (CudaMemoryAllocator.cu:107, 129, 151). -/
def inside (w : DevMem) (a n : Nat) : Bool :=
  match w.block a with
  | some b => decide (n ≤ b.size)
  | none => false

/-- `get_raw_pointer(N,K)`, CudaMemoryAllocator.cu:343-361 with `CudaMalloc`, 49-71. The current device
stays changed when the allocation fails. -/
def getRaw (w : DevMem) (n K fresh : Nat) : DevMem × Reply :=
  if K ≥ w.nDev then (w, .threw)
  else
    let w1 := { w with cur := K }
    if n = 0 then (w1, .addr none)
    else if w1.total w1.cur < w1.used w1.cur + n then (w1, .threw)
    else ({ w1 with live := ⟨fresh, w1.cur, n⟩ :: w1.live }, .addr (some fresh))

/-- `release(x,K)`, CudaMemoryAllocator.cu:419-421 with `CudaFree`, 75-94. -/
def release (w : DevMem) (a K : Nat) : DevMem × Reply :=
  if K ≥ w.nDev then (w, .threw)
  else
    let w1 := { w with cur := K }
    match w1.block a with
    | none => (w1, .threw)
    | some _ => ({ w1 with live := w1.live.filter fun b => b.addr != a }, .done)

/-- `memcpy_to(dest,src,sz,K)`, CudaMemoryAllocator.cu:372-375 with `CudaMemcpy`, 98-119. -/
def copyTo (w : DevMem) (a : Nat) (src : List (BitVec 8)) (K : Nat) : Outcome (DevMem × Reply) :=
  if K ≥ w.nDev then .ok (w, .threw)
  else if w.inside a src.length then
    .ok ({ w with cur := K, bytes := fun b i => if b = a ∧ i < src.length then src.getD i 0 else w.bytes b i }, .done)
  else .ub

/-- `memcpy_from(dest,src,sz,K)`, CudaMemoryAllocator.cu:386-389 with `CudaMemcpy`, 98-119. -/
def copyFrom (w : DevMem) (a n K : Nat) : Outcome (DevMem × Reply) :=
  if K ≥ w.nDev then .ok (w, .threw)
  else if w.inside a n then .ok ({ w with cur := K }, .data ((List.range n).map (w.bytes a)))
  else .ub

/-- `memcpy_peer(dest,dID,src,sID,sz)`, CudaMemoryAllocator.cu:393-396 with `CudaMemcpyPeer`, 122-139. The current
device is not changed. -/
def copyPeer (w : DevMem) (dst dK src sK n : Nat) : Outcome (DevMem × Reply) :=
  if dK ≥ w.nDev ∨ sK ≥ w.nDev then .ok (w, .threw)
  else if w.inside dst n = true ∧ w.inside src n = true then
    .ok ({ w with bytes := fun b i => if b = dst ∧ i < n then w.bytes src i else w.bytes b i }, .done)
  else .ub

/-- `memset(dest,value,sz,K)`, CudaMemoryAllocator.cu:400-403 with `CudaMemset`, 143-161. The value is converted to a
byte. -/
def memset (w : DevMem) (a : Nat) (v : Int) (n K : Nat) : Outcome (DevMem × Reply) :=
  if K ≥ w.nDev then .ok (w, .threw)
  else if w.inside a n then
    .ok ({ w with cur := K, bytes := fun b i => if b = a ∧ i < n then BitVec.ofInt 8 v else w.bytes b i }, .done)
  else .ub

/-- `update_memory_statistics()`, CudaMemoryAllocator.cu:191-200: the loop over the devices never makes a device
current, so `cudaMemGetInfo` is asked about the same one each time. -/
def update (w : DevMem) : DevMem × Reply :=
  ({ w with stats := fun d =>
      if d < w.nDev then ⟨w.total w.cur - w.used w.cur, w.total w.cur, w.total w.cur - (w.total w.cur - w.used w.cur)⟩
      else w.stats d }, .done)

/-- `get_memory_statistics(cms,K)`, CudaMemoryAllocator.cu:179-187. -/
def getStats (w : DevMem) (K : Int) : DevMem × Reply :=
  if K < 0 ∨ K ≥ w.nDev then (w, .threw) else (w, .stats (w.stats K.toNat))

/-- One call. CudaMemoryAllocator.cu:303-311, 343-361, 372-403, 419-421. -/
def step (w : DevMem) : Op → Outcome (DevMem × Reply)
  | .getRaw n K fresh => .ok (w.getRaw n K fresh)
  | .release a K => .ok (w.release a K)
  | .copyTo a src K => w.copyTo a src K
  | .copyFrom a n K => w.copyFrom a n K
  | .copyPeer dst dK src sK n => w.copyPeer dst dK src sK n
  | .memset a v n K => w.memset a v n K
  | .update => .ok w.update
  | .getStats K => .ok (w.getStats K)

/-- A history; exceptions are caught by the client, which goes on. CudaMemoryAllocator.cu:303-421. -/
def run (w : DevMem) : List Op → Outcome DevMem
  | [] => .ok w
  | o :: os => w.step o >>= fun r => r.1.run os

end DevMem
end SpatialOps
