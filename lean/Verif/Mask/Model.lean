import Verif.Geometry.Model
import Verif.Iter.Model

/-!
# Model of BitField, ConstMaskIterator and SpatialMask (LOCAL_RAM)

spatialops/structured/BitField.h and SpatialMask.h. `unsigned int` is 32 bits
(`NEBO_INT_BIT`). `1 << 31` on a signed `int` is taken to set bit 31, as every
two's-complement compiler does. Memory outside the allocated words is undefined
behaviour. Device memory is not modelled.
-/

namespace SpatialOps

/-- `NEBO_ROUND_TO_INT`, BitField.h:28. -/
def roundToInt (n : Int) : Int := (n + 32 - 1).tdiv 32

/-- `BitField` on the CPU, BitField.h:258-276: the mask window (interior), the
ghosts, the number of words, and the words. -/
structure BitField where
  window : Window
  ghosts : GhostData
  size : Int
  words : Int → BitVec 32

namespace BitField

/-- `find_position`, BitField.h:299-319. -/
def findPosition (m : BitField) (p : IntVec) : Outcome Int := do
  Outcome.assert (-m.ghosts.minus.x ≤ p.x)
  Outcome.assert (p.x < m.window.extent.x + m.ghosts.plus.x)
  Outcome.assert (-m.ghosts.minus.y ≤ p.y)
  Outcome.assert (p.y < m.window.extent.y + m.ghosts.plus.y)
  Outcome.assert (-m.ghosts.minus.z ≤ p.z)
  Outcome.assert (p.z < m.window.extent.z + m.ghosts.plus.z)
  return (m.window.offset.x + p.x) + m.window.npts.x *
    ((m.window.offset.y + p.y) + m.window.npts.y * (m.window.offset.z + p.z))

/-- `find_block` / `find_bit_position`, BitField.h:321-323, as used at 329-331
and 469-471; undefined when outside the allocated words or a negative shift. -/
def locate (m : BitField) (flat : Int) : Outcome (Int × Nat) := do
  Outcome.ubUnless (0 ≤ flat.tdiv 32 ∧ flat.tdiv 32 < m.size ∧ 0 ≤ flat.tmod 32)
  return (flat.tdiv 32, (flat.tmod 32).toNat)

/-- `add_point`, BitField.h:325-340. -/
def addPoint (m : BitField) (p : IntVec) : Outcome BitField := do
  let pos ← m.findPosition p
  let l ← m.locate pos
  return { m with words := fun b =>
    if b = l.1 then m.words b ||| ((1 : BitVec 32) <<< l.2) else m.words b }

/-- `add_points`, BitField.h:342-346. -/
def addPoints (m : BitField) : List IntVec → Outcome BitField
  | [] => .ok m
  | p :: ps => m.addPoint p >>= fun m' => m'.addPoints ps

/-- Constructor for LOCAL_RAM, BitField.h:358-401 with `reset_values` 278-283. -/
def build (points : List IntVec) (w : Window) (g : GhostData) : Outcome BitField := do
  let g' ← g.copy
  addPoints ⟨w, g', roundToInt w.globNpts, fun _ => 0⟩ points

/-- `operator()`, BitField.h:465-480. -/
def query (m : BitField) (p : IntVec) : Outcome Bool := do
  let pos ← m.findPosition p
  let l ← m.locate pos
  return decide (m.words l.1 &&& ((1 : BitVec 32) <<< l.2) ≠ 0)

end BitField

/-- `SpatialMask(prototype, points)`, SpatialMask.h:118-131: the bit field is built
on the prototype's interior window with its valid ghosts. -/
def spatialMask (f : FieldGeo) (points : List IntVec) : Outcome BitField :=
  BitField.build points f.interior f.validGhosts

/-- `ConstMaskIterator` state, BitField.h:218-231. The pointer `bitField_` is the
word memory it reads. -/
structure MaskIt where
  bit : Int
  block : Int
  count : Int
  size : Int
  xIndex : Int
  yIndex : Int
  zIndex : Int
  yStep : Int
  zStep : Int
  xExtent : Int
  yExtent : Int
  zExtent : Int
  xyExtent : Int
  deriving DecidableEq, Repr

namespace MaskIt

/-- Constructor, BitField.h:49-71. -/
def start (w : Window) : MaskIt where
  bit := (w.offset.x + w.npts.x * (w.offset.y + w.npts.y * w.offset.z)).tmod 32
  block := (w.offset.x + w.npts.x * (w.offset.y + w.npts.y * w.offset.z)).tdiv 32
  count := 0
  size := roundToInt w.globNpts
  xIndex := 0
  yIndex := 0
  zIndex := 0
  yStep := w.npts.x - w.extent.x
  zStep := (w.npts.y - w.extent.y) * w.npts.x
  xExtent := w.extent.x
  yExtent := w.extent.y
  zExtent := w.extent.z
  xyExtent := w.extent.x * w.extent.y

/-- `update_positions`, BitField.h:209-216. -/
def updatePositions (i : MaskIt) : MaskIt :=
  if i.bit < 0 ∨ 32 ≤ i.bit then
    let flat := i.block * 32 + i.bit
    { i with block := flat.tdiv 32, bit := flat.tmod 32 }
  else i

/-- `operator++`, BitField.h:114-133. -/
def inc (i : MaskIt) : MaskIt :=
  let i := { i with bit := i.bit + 1, count := i.count + 1, xIndex := i.xIndex + 1 }
  let i :=
    if i.xIndex = i.xExtent then
      let i := { i with bit := i.bit + i.yStep, xIndex := 0, yIndex := i.yIndex + 1 }
      if i.yIndex = i.yExtent then
        { i with bit := i.bit + i.zStep, yIndex := 0, zIndex := i.zIndex + 1 }
      else i
    else i
  i.updatePositions

/-- `operator--`, BitField.h:138-157. -/
def dec (i : MaskIt) : MaskIt :=
  let i := { i with bit := i.bit - 1, count := i.count - 1, xIndex := i.xIndex - 1 }
  let i :=
    if i.xIndex = -1 then
      let i := { i with bit := i.bit - i.yStep, xIndex := i.xExtent - 1, yIndex := i.yIndex - 1 }
      if i.yIndex = -1 then
        { i with bit := i.bit - i.zStep, yIndex := i.yExtent - 1, zIndex := i.zIndex - 1 }
      else i
    else i
  i.updatePositions

/-- `operator+=`, BitField.h:162-185. -/
def addAssign (i : MaskIt) (change : Int) : Outcome MaskIt :=
  if (0 < change ∧ change < i.xExtent - i.xIndex) ∨ (change < 0 ∧ -change < i.xIndex) then
    .ok { i with bit := i.bit + change, xIndex := i.xIndex + change,
                 count := i.count + change }.updatePositions
  else do
    Outcome.ubUnless (i.xExtent ≠ 0 ∧ i.xyExtent ≠ 0)
    let bit := i.bit +
      (change +
       i.yStep * ((i.count + change).tdiv i.xExtent - i.count.tdiv i.xExtent) +
       i.zStep * ((i.count + change).tdiv i.xyExtent - i.count.tdiv i.xyExtent))
    let count := i.count + change
    return { i with
      bit := bit
      count := count
      xIndex := count.tmod i.xExtent
      yIndex := (count.tmod i.xyExtent).tdiv i.xExtent
      zIndex := count.tdiv i.xyExtent }.updatePositions

/-- `operator-=`, BitField.h:187. -/
def subAssign (i : MaskIt) (change : Int) : Outcome MaskIt := i.addAssign (-change)

/-- `operator*`, BitField.h:74-111 (debug build): the bit of the word at
`block`. -/
def deref (words : Int → BitVec 32) (i : MaskIt) : Outcome Bool := do
  Outcome.throwIf (i.bit < 0 ∨ 32 ≤ i.bit)
  Outcome.throwIf (i.block < 0 ∨ i.size ≤ i.block)
  Outcome.throwIf (i.count ≠ i.xIndex + i.yIndex * i.xExtent + i.zIndex * i.xyExtent)
  Outcome.throwIf (i.xExtent ≤ i.xIndex ∨ i.yExtent ≤ i.yIndex ∨ i.zExtent ≤ i.zIndex ∨
    i.xIndex < 0 ∨ i.yIndex < 0 ∨ i.zIndex < 0)
  return decide (words i.block &&& ((1 : BitVec 32) <<< i.bit.toNat) ≠ 0)

/-- `operator==` (same mask), BitField.h:200. -/
def eqOp (i j : MaskIt) : Bool := decide (i.count = j.count)

/-- `operator-(MyType const&)`, BitField.h:194. -/
def diff (i j : MaskIt) : Int := i.count - j.count

/-- `end(window)`, BitField.h:498-512. -/
def finish (w : Window) : Outcome MaskIt :=
  (start w).addAssign (w.extent.x * w.extent.y * w.extent.z)

/-- One movement (same vocabulary as for field iterators).
BitField.h:114-191. -/
def step (i : MaskIt) : It.Op → Outcome MaskIt
  | .inc => .ok i.inc
  | .dec => .ok i.dec
  | .add n => i.addAssign n
  | .sub n => i.subAssign n

/-- A sequence of movements. BitField.h:114-191 repeated. -/
def run (i : MaskIt) : List It.Op → Outcome MaskIt
  | [] => .ok i
  | o :: os => i.step o >>= fun j => j.run os

end MaskIt
end SpatialOps
