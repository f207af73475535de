import Verif.NeboGpu.Model
import Verif.FieldMem.Model

/-!
# Model of Nebo assignment in a GPU test build

With `NEBO_GPU_TEST` every assignment runs on device 0 (NeboLhs.h:66-70, 341-384): the fields of
the right-hand side are copied there, a CPU destination is replaced by a new field on the
device, and the device memory of that field is copied back. Blocks of device memory come from
`fresh`, one after the other; they are given back when the expression and the new field are
destroyed, which is after everything modelled here. Masks are taken to be present on the
device with the same bits, as in `Verif.NeboGpu.Model`.
-/

namespace SpatialOps
namespace Nebo

/-- `add_consumer(EXTERNAL_CUDA_GPU, dev)` on the copy of a field which the expression holds,
NeboRhs.h:248-251, 438-441, with SpatialField.h:904-918 and 973-1025. `s` holds the number of blocks
obtained so far and memory. -/
def prepField {V : Type} (fresh : Nat → Nat) (dev : Nat) (f : FieldObj) (s : Nat × Mem V) :
    Outcome (FieldObj × Nat × Mem V) :=
  if f.memType = .gpu ∧ f.dev = dev then .ok (f, s)
  else
    match f.memType with
    | .other => .throws
    | _ =>
      match f.consumers.lookup dev with
      | some _ => do
        let f1 := { f with readOnly := true }
        let m ← consumerCopy f1 .gpu dev s.2
        return (f1, s.1, m)
      | none => do
        let f1 := { f with
          readOnly := true
          consumers := (dev, fresh s.1) :: f.consumers
          mine := (dev, fresh s.1) :: f.mine }
        let m ← consumerCopy f1 .gpu dev s.2
        return (f1, s.1 + 1, m)

/-- `gpu_prep(deviceIndex)`: NeboRhs.h:85, 248-251, 438-441; NeboMask.h:96-99; NeboStencils.h:753-755,
968-970, 1170-1172; NeboOperators.h:104-106 and the same in every operator; NeboCond.h:131-135,
350-354. -/
def Expr.gpuPrep {V : Type} (fresh : Nat → Nat) (dev : Nat) :
    {t : Ty} → Expr V t → Nat × Mem V → Outcome (Expr V t × Nat × Mem V)
  | _, .scalar v, s => .ok (.scalar v, s)
  | _, .field f, s => do
    let r ← prepField fresh dev f s
    return (.field r.1, r.2)
  | _, .single f, s => do
    let r ← prepField fresh dev f s
    return (.single r.1, r.2)
  | _, .mask k, s => .ok (.mask k, s)
  | _, .maskShift p a, s => do
    let r ← a.gpuPrep fresh dev s
    return (.maskShift p r.1, r.2)
  | _, .un op a, s => do
    let r ← a.gpuPrep fresh dev s
    return (.un op r.1, r.2)
  | _, .bin op a b, s => do
    let r ← a.gpuPrep fresh dev s
    let q ← b.gpuPrep fresh dev r.2
    return (.bin op r.1 q.1, q.2)
  | _, .and a b, s => do
    let r ← a.gpuPrep fresh dev s
    let q ← b.gpuPrep fresh dev r.2
    return (.and r.1 q.1, q.2)
  | _, .or a b, s => do
    let r ← a.gpuPrep fresh dev s
    let q ← b.gpuPrep fresh dev r.2
    return (.or r.1 q.1, q.2)
  | _, .cond c a b, s => do
    let p ← c.gpuPrep fresh dev s
    let r ← a.gpuPrep fresh dev p.2
    let q ← b.gpuPrep fresh dev r.2
    return (.cond p.1 r.1 q.1, q.2)
  | _, .stencil pts a, s => do
    let r ← a.gpuPrep fresh dev s
    return (.stencil pts r.1, r.2)
  | _, .sumStencil pts a, s => do
    let r ← a.gpuPrep fresh dev s
    return (.sumStencil pts r.1, r.2)

/-- The field built on the device in place of a CPU destination, NeboLhs.h:353-359 with
SpatialField.h:536-614. -/
def gpuTwin (l : FieldObj) (geo : FieldGeo) (blk : Nat) : FieldObj :=
  ⟨geo, none, some blk, true, .gpu, 0, false, [], [], false, l.geo.window.globNpts⟩

/-- `gpu_test_assign`, NeboLhs.h:343-378: the threads to be run, and what is done with memory once
they have finished. -/
def gpuTestAssign {V : Type} [Add V] [Mul V] (zero : V) (fresh : Nat → Nat) (useGhost : Bool) (l : FieldObj)
    (e : Expr V .num) (m : Mem V) : Outcome (ParState V × (Mem V → Outcome (Mem V))) := do
  let p ← e.gpuPrep fresh 0 (0, m)
  if l.memType = .localRam then do
    let geo ← FieldGeo.ctor false l.geo.window l.geo.bc l.geo.validGhosts
    let g := gpuTwin l geo (fresh p.2.1)
    let m1 ← resetAny true zero g none p.2.2
    let s ← gpuAssign useGhost g p.1 m1
    return (s, fun r => do
      let dst ← l.fieldValuesM true .localRam 0
      let src ← g.fieldValuesM true .gpu 0
      r.memcpy dst src l.alloc)
  else do
    let s ← gpuAssign useGhost l p.1 p.2.2
    return (s, .ok)

end Nebo
end SpatialOps
