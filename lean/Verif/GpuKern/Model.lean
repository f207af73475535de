import Verif.Base
import Mathlib.Logic.Function.Basic

/-!
# Model of the hand-written CUDA kernels of the tests

spatialops/structured/test/CudaStencilLib.h and ExternalStencilTest.cu. A thread of a kernel is a sequence of single memory
accesses and barriers; the threads of all blocks are interleaved in every way, and `__syncthreads` lets the threads of a block
go on only when all of them have arrived. Arithmetic is any type with the operators used, evaluated as written (no contraction to
fused operations); integer overflow is left out.
-/

namespace SpatialOps
namespace GpuKern

/-- `threadIdx` and `blockIdx`, CudaStencilLib.h:153-154. -/
structure Tid where
  b1 : Nat
  b2 : Nat
  x : Nat
  y : Nat
  deriving DecidableEq

/-- A memory element: of a global array, or of the block's `__shared__` array, CudaStencilLib.h:170. -/
inductive Loc where
  | glob (arr : Nat) (i : Int)
  | sh (i : Int)
  deriving DecidableEq

/-- What is left to do of a thread, CudaStencilLib.h:144-238: an access to memory and then the rest, `__syncthreads()` and then the
rest, or nothing. -/
inductive Code (V : Type) where
  | halt
  | sync (c : Code V)
  | read (a : Loc) (k : V → Code V)
  | write (a : Loc) (v : V) (c : Code V)

/-- The launch configuration `<<<dimGrid, dimBlock>>>`, CudaStencilLib.h:362-382, and the numbers of elements of the global arrays
and of the shared one. -/
structure Launch where
  gx : Nat
  gy : Nat
  wx : Nat
  wy : Nat
  size : Nat → Int
  shSize : Int

/-- The threads of a launch, CudaStencilLib.h:362-382. -/
def Launch.Valid (L : Launch) (t : Tid) : Prop := t.b1 < L.gx ∧ t.b2 < L.gy ∧ t.x < L.wx ∧ t.y < L.wy

/-- The threads of a launch can be told apart, CudaStencilLib.h:362-382. -/
instance (L : Launch) (t : Tid) : Decidable (L.Valid t) := by unfold Launch.Valid; infer_instance

/-- The element exists, CudaStencilLib.h:170, 352-359. -/
def Launch.Has (L : Launch) : Loc → Prop
  | .glob a i => 0 ≤ i ∧ i < L.size a
  | .sh i => 0 ≤ i ∧ i < L.shSize

/-- A kernel at work: what is left of each thread, the global arrays, the shared array of each block; CudaStencilLib.h:144-238. -/
structure KState (V : Type) where
  code : Tid → Code V
  glob : Nat → Int → V
  sh : Nat → Nat → Int → V

/-- The value of an element as thread `t` sees it, CudaStencilLib.h:170-179. -/
def KState.fetch {V : Type} (s : KState V) (t : Tid) : Loc → V
  | .glob a i => s.glob a i
  | .sh i => s.sh t.b1 t.b2 i

/-- Thread `t` stores `v` and has `c` left to do, CudaStencilLib.h:178-179, 234. -/
def KState.put {V : Type} (s : KState V) (t : Tid) (a : Loc) (v : V) (c : Code V) : KState V where
  code := Function.update s.code t c
  glob := fun b i => if a = .glob b i then v else s.glob b i
  sh := fun p q i => if a = .sh i ∧ p = t.b1 ∧ q = t.b2 then v else s.sh p q i

/-- What is left after a barrier, CudaStencilLib.h:181. -/
def Code.pass {V : Type} : Code V → Code V
  | .sync c => c
  | c => c

/-- A step of a kernel: an access of one thread to an element that exists, or a barrier at which all threads of block `(p, q)` have
arrived; CudaStencilLib.h:177-181, 234-236. -/
inductive KStep {V : Type} (L : Launch) : KState V → KState V → Prop where
  | read {s : KState V} {t a k} : L.Valid t → s.code t = .read a k → L.Has a →
      KStep L s { s with code := Function.update s.code t (k (s.fetch t a)) }
  | write {s : KState V} {t a v c} : L.Valid t → s.code t = .write a v c → L.Has a → KStep L s (s.put t a v c)
  | barrier {s : KState V} (p q : Nat) : p < L.gx → q < L.gy →
      (∀ t, L.Valid t → t.b1 = p → t.b2 = q → ∃ c, s.code t = .sync c) →
      KStep L s { s with code := fun t => if t.b1 = p ∧ t.b2 = q then (s.code t).pass else s.code t }

/-- The start of a kernel, CudaStencilLib.h:378-384; `sh` is what the shared arrays hold, nobody knows what. -/
def launch {V : Type} (L : Launch) (kernel : Tid → Code V) (glob : Nat → Int → V) (sh : Nat → Nat → Int → V) : KState V :=
  ⟨fun t => if L.Valid t then kernel t else .halt, glob, sh⟩

/-- `Index3D`, CudaStencilLib.h:46. -/
def idx (nx ny i j k : Int) : Int := i + nx * (j + ny * k)

/-- `inner_x`, CudaStencilLib.h:153. -/
def innerX (t : Tid) : Int := t.b1 * 14 + 1
/-- `inner_y`, CudaStencilLib.h:154. -/
def innerY (t : Tid) : Int := t.b2 * 14 + 1
/-- `outer_x`, CudaStencilLib.h:158. -/
def outerX (t : Tid) : Int := innerX t - 1
/-- `outer_y`, CudaStencilLib.h:159. -/
def outerY (t : Tid) : Int := innerY t - 1

/-- The condition of CudaStencilLib.h:177. -/
def Loads (nx ny : Int) (t : Tid) : Prop := outerX t + t.x < nx ∧ outerY t + t.y < ny
/-- The condition of CudaStencilLib.h:192-195. -/
def Active (nx ny : Int) (t : Tid) : Prop := t.x < 14 ∧ t.y < 14 ∧ innerX t + t.x < nx - 1 ∧ innerY t + t.y < ny - 1

/-- The condition of CudaStencilLib.h:177 is computed. -/
instance (nx ny : Int) (t : Tid) : Decidable (Loads nx ny t) := by unfold Loads; infer_instance
/-- The condition of CudaStencilLib.h:192-195 is computed. -/
instance (nx ny : Int) (t : Tid) : Decidable (Active nx ny t) := by unfold Active; infer_instance

section
variable {V : Type} [Add V] [Sub V] [Mul V] [Div V] [OfNat V 2]

/-- The value assigned to `x`, CudaStencilLib.h:202-232: `c` the centre, then left, right, down, up, low, high. -/
def value (dxsq c l r d u lo hi : V) : V := (l + r - 2 * c + (d + u - 2 * c) + (lo + hi - 2 * c)) / dxsq

/-- The second half of a trip of `_div_float_opt2`, CudaStencilLib.h:192-235; `rest` is the barrier of line 236 and what follows it with the
new `zcenter` and `zhigh`. -/
def opt2Store (nx ny : Int) (dxsq : V) (t : Tid) (k : Int) (zc zh : V) (rest : V → V → Code V) : Code V :=
  if Active nx ny t then
    .read (.glob 0 (idx nx ny (innerX t + t.x) (innerY t + t.y) (k + 1))) fun z =>
    .read (.sh (idx 16 16 (t.x + 1 - 1) (t.y + 1) 0)) fun l =>
    .read (.sh (idx 16 16 (t.x + 1 + 1) (t.y + 1) 0)) fun r =>
    .read (.sh (idx 16 16 (t.x + 1) (t.y + 1 - 1) 0)) fun d =>
    .read (.sh (idx 16 16 (t.x + 1) (t.y + 1 + 1) 0)) fun u =>
    .write (.glob 1 (idx nx ny (innerX t) (innerY t) k + t.x + nx * t.y)) (value dxsq zh l r d u zc z) (rest zh z)
  else rest zc zh

/-- The first half, CudaStencilLib.h:177-180. -/
def opt2Load (nx ny : Int) (t : Tid) (k : Int) (rest : Code V) : Code V :=
  if Loads nx ny t then
    .read (.glob 0 (idx nx ny (outerX t) (outerY t) k + t.x + nx * t.y)) fun v => .write (.sh (idx 16 16 t.x t.y 0)) v rest
  else rest

/-- The loop over `k` of `_div_float_opt2`, CudaStencilLib.h:172-237, with `r` trips to go. -/
def opt2Loop (nx ny : Int) (dxsq : V) (t : Tid) : Nat → Int → V → V → Code V
  | 0, _, _, _ => .halt
  | r + 1, k, zc, zh => opt2Load nx ny t k (.sync (opt2Store nx ny dxsq t k zc zh fun zc zh => .sync (opt2Loop nx ny dxsq t r (k + 1) zc zh)))

/-- `_div_float_opt2`, CudaStencilLib.h:144-238. Array 0 is `global_data_in`, array 1 `global_data_out`; `dy` and `dz` are not used. -/
def opt2 (nx ny nz : Int) (dx _dy _dz : V) (t : Tid) : Code V :=
  .read (.glob 0 (idx nx ny (innerX t + t.x) (innerY t + t.y) 0)) fun zc =>
  .read (.glob 0 (idx nx ny (innerX t + t.x) (innerY t + t.y) 1)) fun zh =>
  opt2Loop nx ny (dx * dx) t (nz - 2).toNat 1 zc zh

/-- `blockx_op2`, `blocky_op2`, CudaStencilLib.h:342-345. -/
def blocks (extent : Int) : Int := (extent - 2).tdiv 14 + if (extent - 2).tmod 14 = 0 then 0 else 1

/-- The launch of `divergence_float_gpu`, CudaStencilLib.h:342-384, for a field of `nx` by `ny` by `nz` elements. The numbers of blocks
are unsigned: for an extent of 2 or more they are not negative. -/
def opt2Launch (nx ny nz : Int) : Launch where
  gx := (blocks nx).toNat
  gy := (blocks ny).toNat
  wx := 16
  wy := 16
  size := fun _ => nx * ny * nz
  shSize := 256

/-- `divergence_float_gpu`, CudaStencilLib.h:327-386: the field's elements are copied to the workspace, which is array 0 of the kernel;
array 1 is the field. -/
def divergence (nx ny nz : Int) (dx dy dz : V) (f : Int → V) (sh : Nat → Nat → Int → V) : KState V :=
  launch (opt2Launch nx ny nz) (opt2 nx ny nz dx dy dz) (fun _ => f) sh

/-- The body of the loops of `stencil7_cpu`, ExternalStencilTest.cu:51-78. -/
def cpuBody (nx ny : Int) (dxsq : V) (inp : Int → V) (i j k : Int) (out : Int → V) : Int → V :=
  Function.update out (idx nx ny i j k) (value dxsq (inp (idx nx ny i j k)) (inp (idx nx ny (i - 1) j k)) (inp (idx nx ny (i + 1) j k))
    (inp (idx nx ny i (j - 1) k)) (inp (idx nx ny i (j + 1) k)) (inp (idx nx ny i j (k - 1))) (inp (idx nx ny i j (k + 1))))

/-- `for( int i = 1; i < n-1; ++i )`, ExternalStencilTest.cu:47-49: `r` trips to go. -/
def forLoop {A : Type} (body : Int → A → A) : Nat → Int → A → A
  | 0, _, a => a
  | r + 1, i, a => forLoop body r (i + 1) (body i a)

/-- `stencil7_cpu`, ExternalStencilTest.cu:41-81, with `SMALL` for the first two bounds and `HEIGHT` for the third; `dx` is 1. -/
def stencil7Cpu [OfNat V 1] (small height nx ny : Int) (inp out : Int → V) : Int → V :=
  forLoop (fun k => forLoop (fun j => forLoop (fun i => cpuBody nx ny (1 * 1) inp i j k) (small - 2).toNat 1) (small - 2).toNat 1)
    (height - 2).toNat 1 out

end
end GpuKern
end SpatialOps
