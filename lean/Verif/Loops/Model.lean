import Verif.Conserve.Model

/-!
# Model of loops written with field iterators, and of the reference stencils

A loop `for( ; id != ide; ++id, ++is1, ... ) *id = f(*is1, ...)` over an iterator of a destination and iterators of
sources, as in structured/stencil/test/ReferenceStencil.h, which uses such loops to compute what the operators of
`build_stencils` should give, and as user code does. Fields on the CPU. `double` is exact arithmetic in a field `K`.
-/

namespace SpatialOps
namespace Loops

open Nebo Stencil

/-- A source of the loop: its iterator and the number of elements of the memory the iterator points into,
ReferenceStencil.h:306-307. -/
structure Cur where
  it : FIt
  size : Int

/-- `*is`, MemoryWindow.h:258-307, ReferenceStencil.h:310. -/
def Cur.get {V : Type} (c : Cur) (m : Mem V) : Outcome V := do
  let a ← c.it.it.deref
  let b ← elemAt c.it.base c.size a
  return m b a

/-- `++is`, MemoryWindow.h:310-325, ReferenceStencil.h:309. -/
def Cur.inc (c : Cur) : Cur := { c with it := { c.it with it := c.it.it.inc } }

/-- The values of all sources, ReferenceStencil.h:310, 366, 402, 421, 482. -/
def getAll {V : Type} : List Cur → Mem V → Outcome (List V)
  | [], _ => .ok []
  | c :: cs, m => do
    let v ← c.get m
    let vs ← getAll cs m
    return v :: vs

/-- One trip of the loop, without the increment of the destination's iterator, which `forIt` does,
ReferenceStencil.h:309-311, 365-367, 401-403, 420-422, 477-486. -/
def loopBody {V : Type} (f : List V → V) (base : Option Nat) (size : Int) (i : It) (s : Mem V × List Cur) :
    Outcome (Mem V × List Cur) := do
  let vs ← getAll s.2 s.1
  let m ← store base size i (f vs) s.1
  return (m, s.2.map Cur.inc)

/-- `const_iterator is = s.begin()` for each source, ReferenceStencil.h:306-307, 398-399, 416, 458-460. -/
def begins : List FieldObj → Outcome (List Cur)
  | [] => .ok []
  | s :: ss => do
    let i ← s.beginC
    let is ← begins ss
    return ⟨i, s.geo.window.globNpts⟩ :: is

/-- `const_iterator is = s.begin()` where the source is not `const`: the iterator of the non-constant `begin()` is
converted, ReferenceStencil.h:360-363. -/
def beginsM : List FieldObj → Outcome (List Cur)
  | [] => .ok []
  | s :: ss => do
    let i ← s.beginM
    let is ← beginsM ss
    return ⟨i, s.geo.window.globNpts⟩ :: is

/-- `const_iterator is = s.interior_begin()` for each source, SpatialField.h:302-318. -/
def interiorBegins : List FieldObj → Outcome (List Cur)
  | [] => .ok []
  | s :: ss => do
    let i ← s.interiorBeginC
    let is ← interiorBegins ss
    return ⟨i, s.geo.window.globNpts⟩ :: is

/-- `for( ; id != ide; ++id, ++is... ) *id = f(*is...)` with `id = d.begin()` and `ide = d.end()`,
ReferenceStencil.h:304-311. -/
def loop {V : Type} (f : List V → V) (d : FieldObj) (cs : List Cur) (m : Mem V) : Outcome (Mem V) := do
  let id ← d.beginM
  let ide ← d.endM
  let r ← forIt (loopBody f id.base d.geo.window.globNpts) d.geo.window.localNpts.toNat id.it ide.it (m, cs)
  return r.1

/-- The same with `id = d.interior_begin()` and `ide = d.interior_end()`, SpatialField.h:320-345, 1215-1245. -/
def interiorLoop {V : Type} (f : List V → V) (d : FieldObj) (cs : List Cur) (m : Mem V) : Outcome (Mem V) := do
  let id ← d.interiorBeginM
  let ide ← d.interiorEndM
  let r ← forIt (loopBody f id.base d.geo.window.globNpts) d.geo.interior.localNpts.toNat id.it ide.it (m, cs)
  return r.1

/-- A loop over whole fields: `begin()` of the sources, `begin()` and `end()` of the destination,
ReferenceStencil.h:416-422. -/
def zip {V : Type} (f : List V → V) (d : FieldObj) (srcs : List FieldObj) (m : Mem V) : Outcome (Mem V) :=
  begins srcs >>= fun cs => loop f d cs m

/-- A loop over the interiors of fields, SpatialField.h:302-345, 1190-1245. -/
def zipInterior {V : Type} (f : List V → V) (d : FieldObj) (srcs : List FieldObj) (m : Mem V) : Outcome (Mem V) :=
  interiorBegins srcs >>= fun cs => interiorLoop f d cs m

/-- `FieldT s( MemoryWindow(npts, offset, extent), f )`: the part of `f` in another window, sharing its memory,
ReferenceStencil.h:300-302 and SpatialField.h:658-712. The members that say who owns the memory are of no concern here. -/
def part (f : FieldObj) (npts offset extent : IntVec) : Outcome FieldObj := do
  let w ← Window.make npts offset extent
  let geo ← FieldGeo.windowCopy false w f.geo
  return { f with geo := geo }

/-- The parts of `f` at several offsets, in this order, ReferenceStencil.h:301-302, 353-356, 393-394,
445-454. -/
def parts (f : FieldObj) (extent : IntVec) : List IntVec → Outcome (List FieldObj)
  | [] => .ok []
  | o :: os => do
    let p ← part f f.geo.window.npts o extent
    let ps ← parts f extent os
    return p :: ps

/-! ## Two points -/

/-- The displacements and extents of `RefStencil2Detail::ExtentsAndOffsets` and
`RefStencil4Detail::ExtentsAndOffsets`: those of the destination and of the sources, and what is added to the extents
where there is a boundary, ReferenceStencil.h:137-176, 222-270. All sources have the same extents (159-160, 244-251). -/
structure Extents where
  destOffset : IntVec
  destExtent : IntVec
  destExtentBC : IntVec
  srcOffsets : List IntVec
  srcExtent : IntVec
  srcExtentBC : IntVec

/-- `RefStencil2Detail::ExtentsAndOffsets<SrcT,DestT>`, ReferenceStencil.h:120-176; `none`: does not compile. -/
def extents2 (st dt : FieldType) : Option Extents :=
  if st = dt then none else
  match getNonzeroDir (tSub st.offset dt.offset) with
  | some (some dir) =>
    let u := unitTriplet dir
    let bcMatchNotOnDir := positiveOrZero (tSub (tMul st.bcExtra dt.bcExtra) u)
    let src1Offset : IntVec := ⟨0, 0, 0⟩
    some {
      destOffset := positiveOrZero (tMul u (tSub (tMul u st.offset) (tMul u dt.offset)))
      destExtent := negate u
      destExtentBC := tAdd bcMatchNotOnDir
        (tSub (tMul dt.offset dt.bcExtra) (tMul u (tMul st.offset st.bcExtra)))
      srcOffsets := [src1Offset, tAdd u src1Offset]
      srcExtent := negate u
      srcExtentBC := tAdd bcMatchNotOnDir (negate (positiveOrZero (tSub st.bcExtra u))) }
  | _ => none

/-- `SelectNonzeroTriplet`, ReferenceStencil.h:186-192; `none`: no specialisation, or two that match equally. -/
def selectNonzero (a b c : IntVec) : Option (IntVec × IntVec) :=
  let z : IntVec := ⟨0, 0, 0⟩
  if a ≠ z ∧ b ≠ z ∧ c = z then some (a, b)
  else if a ≠ z ∧ b = z ∧ c ≠ z then some (a, c)
  else if a = z ∧ b ≠ z ∧ c ≠ z then some (b, c)
  else none

/-- `RefStencil4Detail::ExtentsAndOffsets<SrcT,DestT>`, ReferenceStencil.h:194-270; `none`: does not compile. -/
def extents4 (st dt : FieldType) : Option Extents :=
  if st = dt then none else
  let diff := tSub st.offset dt.offset
  match selectNonzero (tAbs (tMul (unitTriplet .x) diff)) (tAbs (tMul (unitTriplet .y) diff))
      (tAbs (tMul (unitTriplet .z) diff)) with
  | some (u1, u2) =>
    let src1Offset : IntVec := ⟨0, 0, 0⟩
    let src2Offset := tAdd u1 src1Offset
    let src3Offset := tAdd u2 src1Offset
    let src4Offset := tAdd u1 src3Offset
    some {
      destOffset := tAdd (positiveOrZero (tMul u1 (tSub (tMul u1 st.offset) (tMul u1 dt.offset))))
        (positiveOrZero (tMul u2 (tSub (tMul u2 st.offset) (tMul u2 dt.offset))))
      destExtent := negate (tAdd u1 u2)
      destExtentBC := tSub (tMul dt.offset dt.bcExtra) (tMul (tAdd u1 u2) (tMul st.offset st.bcExtra))
      srcOffsets := [src1Offset, src2Offset, src3Offset, src4Offset]
      srcExtent := negate (tAdd u1 u2)
      srcExtentBC := negate (positiveOrZero (tSub st.bcExtra (tAdd u1 u2))) }
  | none => none

section
variable {K : Type} [Field K]

/-- `*is1 * c1 + *is2 * c2 + ...`, earlier terms first, ReferenceStencil.h:310, 366. There is always a first source. -/
def combine : List K → List K → K
  | c :: cs, v :: vs => (cs.zip vs).foldl (fun s q => s + q.2 * q.1) (v * c)
  | _, _ => 0

/-- `ref_stencil2_apply_to_field` and `ref_stencil4_apply_to_field` for coefficients `cs`, ReferenceStencil.h:275-312,
316-368. The windows of all parts are built and compared, and the parts made, before the loop starts; the order in which
these checks abort makes no difference. `const` says that the sources are constant (with two points) or not (with four). -/
def refApply (const : Bool) (x : Extents) (cs : List K) (src dest : FieldObj) (m : Mem K) : Outcome (Mem K) := do
  let wd := dest.geo.window
  let ws := src.geo.window
  let de := wd.extent + x.destExtent + dest.geo.bc.isbc * x.destExtentBC
  let se := ws.extent + x.srcExtent + src.geo.bc.isbc * x.srcExtentBC
  Outcome.assert (se = de)
  let d ← part dest wd.npts (wd.offset + x.destOffset) de
  let ss ← parts src se (x.srcOffsets.map (ws.offset + ·))
  let is ← (if const then begins ss else beginsM ss)
  loop (combine cs) d is m

/-- `ref_stencil2_apply_to_field<SrcType,DestType>(coefLo, coefHi, src, dest)`, ReferenceStencil.h:275-312. A pair of
types for which it does not compile is `ub`. -/
def ref2 (st dt : FieldType) (lo hi : K) (src dest : FieldObj) (m : Mem K) : Outcome (Mem K) :=
  match extents2 st dt with
  | some x => refApply true x [lo, hi] src dest m
  | none => .ub

/-- `ref_stencil4_apply_to_field<SrcType,DestType>(coef1, ..., coef4, src, dest)`, ReferenceStencil.h:316-368. -/
def ref4 (st dt : FieldType) (c1 c2 c3 c4 : K) (src dest : FieldObj) (m : Mem K) : Outcome (Mem K) :=
  match extents4 st dt with
  | some x => refApply false x [c1, c2, c3, c4] src dest m
  | none => .ub

/-- `ref_fd_stencil2_apply_to_field<OpType,FieldType>(coefLo, coefHi, src, dest)` with `OpType::DirT` the direction `d`,
ReferenceStencil.h:372-404. All windows, also that of the destination's part, are made from that of the source. -/
def refFd (d : Dir) (lo hi : K) (src dest : FieldObj) (m : Mem K) : Outcome (Mem K) := do
  let w := src.geo.window
  let u := unitTriplet d
  let shift := u + u
  let dp ← part dest w.npts (w.offset + u) (w.extent - shift)
  let ss ← parts src (w.extent - shift) [w.offset, w.offset + shift]
  let is ← begins ss
  loop (combine [lo, hi]) dp is m

/-- `ref_null_stencil_apply_to_field(src, dest)`, ReferenceStencil.h:408-423. -/
def refNull (src dest : FieldObj) (m : Mem K) : Outcome (Mem K) := do
  Outcome.assert (src.geo.window = dest.geo.window)
  zip (fun vs => vs.headD 0) dest [src] m

/-- `ihi`, `jhi` and `khi`, ReferenceStencil.h:441-443. -/
def boxHi (n : Int) : Nat := if n > 1 then 3 else 1

/-- `of[i]`, and half of `off[i]` and `-ex[i]`, ReferenceStencil.h:444, 462-466. -/
def boxOf (n : Int) : Int := if n > 1 then 1 else 0

/-- The displacements of the parts of the source, `i` changing fastest, ReferenceStencil.h:445-454. -/
def boxOffsets (npts : IntVec) : List IntVec :=
  (List.range (boxHi npts.z)).flatMap fun k => (List.range (boxHi npts.y)).flatMap fun j =>
    (List.range (boxHi npts.x)).map fun i => ⟨(i : Int), (j : Int), (k : Int)⟩

/-- `ref_box_filter_stencil_apply_to_field(src, dest)`, ReferenceStencil.h:427-487. The sum is collected in `*id`
itself, starting from zero; as the sources are not read through `id`, it is one value here. -/
def refBox (src dest : FieldObj) (m : Mem K) : Outcome (Mem K) := do
  let wd := dest.geo.window
  let ws := src.geo.window
  let off : IntVec := ⟨2 * boxOf ws.npts.x, 2 * boxOf ws.npts.y, 2 * boxOf ws.npts.z⟩
  let ss ← parts src (ws.extent - off) ((boxOffsets ws.npts).map (ws.offset + ·))
  let is ← begins ss
  let dp ← part dest wd.npts (wd.offset + ⟨boxOf wd.npts.x, boxOf wd.npts.y, boxOf wd.npts.z⟩)
    (wd.extent - ⟨2 * boxOf wd.npts.x, 2 * boxOf wd.npts.y, 2 * boxOf wd.npts.z⟩)
  loop (fun vs => vs.foldl (· + ·) 0 * (1 / (ss.length : K))) dp is m

end

end Loops
end SpatialOps
