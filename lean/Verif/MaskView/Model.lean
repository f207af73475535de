import Verif.Nebo.Model

/-!
# Model of SpatialMask: construction, copies, views and traversal

spatialops/structured/SpatialMask.h. The bit field is the one of `Verif.Mask.Model`; the memory
of masks, their ownership and the devices are the subject of `Verif.MaskMem`, so here a mask lives
in LOCAL_RAM and a copy shares the words of its source.
-/

namespace SpatialOps.MaskView
open SpatialOps.Nebo

/-- `SpatialMask` members, SpatialMask.h:82-91: maskWindow_, interiorMaskWindow_, bcInfo_, ghosts_,
validGhosts_, points_, bitField_. -/
structure SMask where
  window : Window
  interior : Window
  bc : BcInfo
  ghosts : GhostData
  validGhosts : GhostData
  points : List IntVec
  bits : BitField

namespace SMask

/-- `SpatialMask(prototype, points)`, SpatialMask.h:117-130. The ghost data are copied, which checks
them. -/
def make (f : FieldGeo) (points : List IntVec) : Outcome SMask := do
  let g ← f.ghosts.copy
  let v ← f.validGhosts.copy
  let b ← BitField.build points f.interior v
  return ⟨f.window, f.interior, f.bc, g, v, points, b⟩

/-- Copy constructor, SpatialMask.h:136-144, with that of `BitField`, BitField.h:407-419, whose words
are those of the source. -/
def copy (m : SMask) : Outcome SMask := do
  let g ← m.ghosts.copy
  let v ← m.validGhosts.copy
  let b ← m.bits.ghosts.copy
  return { m with ghosts := g, validGhosts := v, bits := { m.bits with ghosts := b } }

/-- `SpatialMask(window, other)`, SpatialMask.h:149-170. Note `validGhosts_(other.ghosts_)`. In the
assertions the entries are compared as `size_t`, after `sanity_check` has found them not negative. -/
def windowCopy (w : Window) (m : SMask) : Outcome SMask := do
  let g ← m.ghosts.copy
  let v ← m.ghosts.copy
  let b ← m.bits.ghosts.copy
  Outcome.assert w.sanityCheck
  Outcome.assert (w.extent.x + w.offset.x ≤ m.window.npts.x)
  Outcome.assert (w.offset.x < m.window.npts.x)
  Outcome.assert (w.extent.y + w.offset.y ≤ m.window.npts.y)
  Outcome.assert (w.offset.y < m.window.npts.y)
  Outcome.assert (w.extent.z + w.offset.z ≤ m.window.npts.z)
  Outcome.assert (w.offset.z < m.window.npts.z)
  return { m with window := w, ghosts := g, validGhosts := v, bits := { m.bits with ghosts := b } }

/-- `reshape(extentModify, shift)`, SpatialMask.h:255-262. -/
def reshape (m : SMask) (extentModify shift : IntVec) : Outcome SMask := do
  let w ← Window.make m.window.npts (m.window.offset + shift) (m.window.extent + extentModify)
  windowCopy w m

/-- Repeated `reshape`, SpatialMask.h:255-262. -/
def reshapes (m : SMask) : List (IntVec × IntVec) → Outcome SMask
  | [] => .ok m
  | r :: rs => m.reshape r.1 r.2 >>= fun m' => m'.reshapes rs

/-- `operator()(ijk)`, SpatialMask.h:189. -/
def at' (m : SMask) (p : IntVec) : Outcome Bool := m.bits.query p

/-- `operator()(i,j,k)`, SpatialMask.h:179-182: the arguments are of type `size_t` and become the
`int` entries of an `IntVec`, which keeps the low 32 bits. -/
def at3 (m : SMask) (i j k : BitVec 64) : Outcome Bool :=
  m.at' ⟨(i.truncate 32).toInt, (j.truncate 32).toInt, (k.truncate 32).toInt⟩

/-- `begin()`, SpatialMask.h:195, BitField.h:486-495. -/
def begin' (m : SMask) : MaskIt := MaskIt.start m.window
/-- `end()`, SpatialMask.h:197, BitField.h:497-511. -/
def end' (m : SMask) : Outcome MaskIt := MaskIt.finish m.window
/-- `interior_begin()`, SpatialMask.h:199-202. -/
def interiorBegin (m : SMask) : MaskIt := MaskIt.start m.interior
/-- `interior_end()`, SpatialMask.h:204-207. -/
def interiorEnd (m : SMask) : Outcome MaskIt := MaskIt.finish m.interior

/-- `*it` for an iterator of this mask, BitField.h:74-111. -/
def deref (m : SMask) (it : MaskIt) : Outcome Bool := it.deref m.bits.words

/-- The loop `for (it = first; it != last; ++it)` with `*it`, for at most `n` rounds: the values in
the order read and whether the loop has ended (BitField.h:74-111, 114-133, 194-195). -/
def traverse (m : SMask) (last : MaskIt) : Nat → MaskIt → Outcome (List Bool × Bool)
  | 0, it => .ok ([], it.eqOp last)
  | n + 1, it =>
    if it.eqOp last then .ok ([], true)
    else do
      let b ← m.deref it
      let r ← m.traverse last n it.inc
      return (b :: r.1, r.2)

/-- The mask as the expression library of `Verif.Nebo.Model` holds it (NeboMask.h:50-52): the same
members. -/
def toObj (m : SMask) : MaskObj := ⟨⟨m.window, m.interior, m.bc, m.ghosts, m.validGhosts, false⟩, m.bits⟩

end SMask
end SpatialOps.MaskView
