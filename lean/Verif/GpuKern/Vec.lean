import Verif.GpuKern.Spec

/-!
# Model of the element-wise CUDA kernels of the tests

spatialops/structured/test/CudaVecLib.cu. `_vecAdd` and `_vecMul` differ only in the operator, which is the parameter `op`.
-/

namespace SpatialOps
namespace GpuKern

section
variable {V : Type}

/-- `blockWidth`, CudaVecLib.cu:56-57, 99-100. -/
def blockWidth (n : Int) : Int := if 256 < n then 256 else n

/-- `_vecAdd`, `_vecMul`, CudaVecLib.cu:27-45. Arrays 0, 1 and 2 are `vec1`, `vec2` and `returnVec`. -/
def vecKernel (op : V → V → V) (width n : Int) (t : Tid) : Code V :=
  if width * t.b1 + t.x < n then
    .read (.glob 0 (width * t.b1 + t.x)) fun v => .read (.glob 1 (width * t.b1 + t.x)) fun w => .write (.glob 2 (width * t.b1 + t.x)) (op v w) .halt
  else .halt

/-- The launch of `vecAdd` and `vecMul`, CudaVecLib.cu:56-74, 99-115: a division by the block's width. Sizes are not negative; failures of
`cudaMalloc` and of the launch itself are left out. -/
def vecLaunch (n : Int) : Outcome Launch := do
  Outcome.ubUnless (blockWidth n ≠ 0)
  .ok ⟨(n.tdiv (blockWidth n) + if n.tmod (blockWidth n) = 0 then 0 else 1).toNat, 1, (blockWidth n).toNat, 1, fun _ => n, 0⟩

/-- `vecAdd`, `vecMul` up to the launch, CudaVecLib.cu:48-74, 91-115: the vectors are copied to the device, `old` is what the memory of the result
holds. -/
def vecStart (op : V → V → V) (v w old : Int → V) (n : Int) (L : Launch) (sh : Nat → Nat → Int → V) : KState V :=
  launch L (vecKernel op (blockWidth n) n) (fun a => if a = 0 then v else if a = 1 then w else old) sh

/-- The check of `func_add` and `func_mul`, CudaVecLib.cu:136-145, 159-168: the first element that differs makes it return 0. `ne` is the `!=` of the
numbers, for which a not-a-number differs from itself. -/
def vecCheck (op : V → V → V) (ne : V → V → Bool) (v w res : Int → V) : Nat → Int → Int
  | 0, _ => 1
  | r + 1, i => if ne (res i) (op (v i) (w i)) then 0 else vecCheck op ne v w res r (i + 1)

end
end GpuKern
end SpatialOps
