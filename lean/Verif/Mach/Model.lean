import Verif.Mask.Model

/-!
# Index arithmetic in machine integers

The other models compute with unbounded integers. Here the same functions are
written with the types of the C++ source: `int` is 32 bits wide and signed
(overflow is undefined behaviour), `size_t` is 64 bits wide and unsigned (it
wraps). Sources: IntVec.h, MemoryWindow.h, MemoryWindow.cpp, BitField.h,
SpatialField.h. Pointers stay unbounded.
-/

namespace SpatialOps
namespace Mach

/-- The values of a 32-bit signed `int`, the type of every index in IntVec.h:41. -/
def Fit (x : Int) : Prop := -2147483648 ≤ x ∧ x ≤ 2147483647

/-- Decidability of the range check; the type of the values in IntVec.h:41. -/
instance (x : Int) : Decidable (Fit x) := by unfold Fit; infer_instance

/-- The result of an `int` operation: signed overflow is undefined. Used for
every arithmetic expression of IntVec.h:49-65. -/
def chk (x : Int) : Outcome Int := if Fit x then .ok x else .ub

/-- `a + b` in `int`, as in IntVec.h:52. -/
def add (a b : Int) : Outcome Int := chk (a + b)
/-- `a - b` in `int`, as in MemoryWindow.h:351. -/
def sub (a b : Int) : Outcome Int := chk (a - b)
/-- `a * b` in `int`, as in IntVec.h:52. -/
def mul (a b : Int) : Outcome Int := chk (a * b)
/-- `-a` in `int`, as in MemoryWindow.h:370. -/
def neg (a : Int) : Outcome Int := chk (-a)
/-- `a / b` in `int`, as in IntVec.h:64. -/
def div (a b : Int) : Outcome Int := if b = 0 then .ub else chk (a.tdiv b)
/-- `a % b` in `int`, as in IntVec.h:64; undefined when `a / b` is. -/
def mod (a b : Int) : Outcome Int :=
  if b = 0 then .ub else if Fit (a.tdiv b) then .ok (a.tmod b) else .ub

/-- Conversion to, and wrap-around of, `size_t`: the accessors of
MemoryWindow.h:181-183 and the arithmetic on their results. -/
def sz (x : Int) : Int := x % 18446744073709551616
/-- Conversion of a `size_t` to `int`, as in the initialisers of
MemoryWindow.h:249-254 (implementation-defined; wraps on the supported
compilers). -/
def toInt (x : Int) : Int := (x + 2147483648) % 4294967296 - 2147483648

/-- `ijk_to_flat`, IntVec.h:49-53. -/
def ijkToFlat (dim loc : IntVec) : Outcome Int := do
  Outcome.assert (loc.x < dim.x ∧ loc.y < dim.y ∧ loc.z < dim.z)
  Outcome.assert (0 ≤ loc.x ∧ 0 ≤ loc.y ∧ 0 ≤ loc.z)
  let a ← mul loc.y dim.x
  let b ← add loc.x a
  let c ← mul loc.z dim.x
  let d ← mul c dim.y
  add b d

/-- `flat_to_ijk`, IntVec.h:61-65. -/
def flatToIjk (dim : IntVec) (pt : Int) : Outcome IntVec := do
  Outcome.assert (0 ≤ pt)
  let a ← mul dim.x dim.y
  let n ← mul a dim.z
  Outcome.assert (pt < n)
  let x ← mod pt dim.x
  let r ← div pt dim.x
  let y ← mod r dim.y
  let z ← div pt a
  return ⟨x, y, z⟩

/-- `glob_npts`, MemoryWindow.h:173: an `int` product converted to `size_t`. -/
def globNpts (w : Window) : Outcome Int := do
  let a ← mul w.npts.x w.npts.y
  let n ← mul a w.npts.z
  return sz n

/-- `local_npts`, MemoryWindow.h:179. -/
def localNpts (w : Window) : Outcome Int := do
  let a ← mul w.extent.x w.extent.y
  let n ← mul a w.extent.z
  return sz n

/-- One coordinate of the shift in `flat_index`, MemoryWindow.h:145-147. -/
def shift1 (npts loc offset : Int) : Outcome Int :=
  if 1 < npts then add loc offset else .ok 0

/-- `MemoryWindow::flat_index`, MemoryWindow.h:139-149. -/
def flatIndex (w : Window) (loc : IntVec) : Outcome Int := do
  Outcome.assert (1 < w.extent.x → loc.x < w.npts.x)
  Outcome.assert (1 < w.extent.y → loc.y < w.npts.y)
  Outcome.assert (1 < w.extent.z → loc.z < w.npts.z)
  let x ← shift1 w.npts.x loc.x w.offset.x
  let y ← shift1 w.npts.y loc.y w.offset.y
  let z ← shift1 w.npts.z loc.z w.offset.z
  ijkToFlat w.npts ⟨x, y, z⟩

/-- The assertions of `refine` in one direction, MemoryWindow.cpp:108-112. -/
def refineOk1 (npts offset extent split loc : Int) : Outcome Unit := do
  Outcome.assert (split ≤ extent)
  Outcome.assert (0 < split)
  let s ← add extent offset
  Outcome.assert (s ≤ npts)
  Outcome.assert (loc < split)
  Outcome.assert (0 ≤ loc)

/-- One direction of `baseOffset`, MemoryWindow.cpp:116-124. -/
def refineOffset1 (offset extent split loc : Int) : Outcome Int := do
  let extra ← mod extent split
  let std ← div extent split
  let a ← mul std loc
  let b ← add offset a
  add b (if loc < extra then loc else extra)

/-- One direction of `baseExtent`, MemoryWindow.cpp:116-127. -/
def refineExtent1 (extent split loc : Int) : Outcome Int := do
  let extra ← mod extent split
  let std ← div extent split
  add std (if loc < extra then 1 else 0)

/-- `MemoryWindow(npts,offset,extent)` with `sanity_check`,
MemoryWindow.cpp:48-58, 139-146. -/
def makeWindow (npts offset extent : IntVec) : Outcome Window := do
  Outcome.assert (0 < npts.x ∧ 0 < npts.y ∧ 0 < npts.z)
  Outcome.assert (0 ≤ offset.x ∧ 0 ≤ offset.y ∧ 0 ≤ offset.z)
  Outcome.assert (0 ≤ extent.x ∧ 0 ≤ extent.y ∧ 0 ≤ extent.z)
  let x ← sub npts.x extent.x
  let y ← sub npts.y extent.y
  let z ← sub npts.z extent.z
  Outcome.assert (0 ≤ x ∧ 0 ≤ y ∧ 0 ≤ z)
  return ⟨npts, offset, extent⟩

/-- `MemoryWindow::refine`, MemoryWindow.cpp:102-130. -/
def refine (w : Window) (split loc : IntVec) : Outcome Window := do
  refineOk1 w.npts.x w.offset.x w.extent.x split.x loc.x
  refineOk1 w.npts.y w.offset.y w.extent.y split.y loc.y
  refineOk1 w.npts.z w.offset.z w.extent.z split.z loc.z
  let ox ← refineOffset1 w.offset.x w.extent.x split.x loc.x
  let oy ← refineOffset1 w.offset.y w.extent.y split.y loc.y
  let oz ← refineOffset1 w.offset.z w.extent.z split.z loc.z
  let ex ← refineExtent1 w.extent.x split.x loc.x
  let ey ← refineExtent1 w.extent.y split.y loc.y
  let ez ← refineExtent1 w.extent.z split.z loc.z
  makeWindow w.npts ⟨ox, oy, oz⟩ ⟨ex, ey, ez⟩

/-! ## Field iterators -/

/-- Constructor of the field iterators, MemoryWindow.h:241-255: `size_t`
arithmetic, stored into `int` members. -/
def start (base : Int) (w : Window) : It where
  current := base + sz w.offset.x + sz (sz w.offset.y * sz w.npts.x) +
    sz (sz (sz w.offset.z * sz w.npts.x) * sz w.npts.y)
  count := 0
  xIndex := 0
  yIndex := 0
  zIndex := 0
  yStep := toInt (sz (sz w.npts.x - sz w.extent.x))
  zStep := toInt (sz (sz (sz w.npts.y - sz w.extent.y) * sz w.npts.x))
  xExtent := toInt (sz w.extent.x)
  yExtent := toInt (sz w.extent.y)
  zExtent := toInt (sz w.extent.z)
  xyExtent := toInt (sz (sz w.extent.x * sz w.extent.y))

/-- The y and z part of `operator++`, MemoryWindow.h:314-323. -/
def incRow (i : It) : Outcome It := do
  let y ← add i.yIndex 1
  if y = i.yExtent then
    let z ← add i.zIndex 1
    return { i with current := i.current + i.yStep + i.zStep, xIndex := 0, yIndex := 0,
                    zIndex := z }
  else
    return { i with current := i.current + i.yStep, xIndex := 0, yIndex := y }

/-- `operator++`, MemoryWindow.h:310-325. -/
def inc (i : It) : Outcome It := do
  let c ← add i.count 1
  let x ← add i.xIndex 1
  let i := { i with current := i.current + 1, count := c, xIndex := x }
  if i.xIndex = i.xExtent then incRow i else return i

/-- The y and z part of `operator--`, MemoryWindow.h:333-342. -/
def decRow (i : It) : Outcome It := do
  let x ← sub i.xExtent 1
  let y ← sub i.yIndex 1
  if y = -1 then
    let y' ← sub i.yExtent 1
    let z ← sub i.zIndex 1
    return { i with current := i.current - i.yStep - i.zStep, xIndex := x, yIndex := y',
                    zIndex := z }
  else
    return { i with current := i.current - i.yStep, xIndex := x, yIndex := y }

/-- `operator--`, MemoryWindow.h:329-344. -/
def dec (i : It) : Outcome It := do
  let c ← sub i.count 1
  let x ← sub i.xIndex 1
  let i := { i with current := i.current - 1, count := c, xIndex := x }
  if i.xIndex = -1 then decRow i else return i

/-- The condition of `operator+=`, MemoryWindow.h:350-353, evaluated from the
left, each part only when needed. -/
def small (xExtent xIndex change : Int) : Outcome Bool :=
  if 0 < change then do
    let r ← sub xExtent xIndex
    return decide (change < r)
  else if change < 0 then do
    let m ← neg change
    return decide (m < xIndex)
  else return false

/-- The distance moved on the long path of `operator+=`,
MemoryWindow.h:360-362: an `int` expression. -/
def jump (count yStep zStep xExtent xyExtent change : Int) : Outcome Int := do
  let n ← add count change
  let ny ← div n xExtent
  let oy ← div count xExtent
  let dy ← sub ny oy
  let py ← mul yStep dy
  let s ← add change py
  let nz ← div n xyExtent
  let oz ← div count xyExtent
  let dz ← sub nz oz
  let pz ← mul zStep dz
  add s pz

/-- `operator+=`, MemoryWindow.h:348-369. -/
def addAssign (i : It) (change : Int) : Outcome It := do
  let s ← small i.xExtent i.xIndex change
  if s then
    let x ← add i.xIndex change
    let c ← add i.count change
    return { i with current := i.current + change, xIndex := x, count := c }
  else
    let d ← jump i.count i.yStep i.zStep i.xExtent i.xyExtent change
    let c ← add i.count change
    let x ← mod c i.xExtent
    let r ← mod c i.xyExtent
    let y ← div r i.xExtent
    let z ← div c i.xyExtent
    return { i with current := i.current + d, count := c, xIndex := x, yIndex := y, zIndex := z }

/-- `operator-=`, MemoryWindow.h:370, 374. -/
def subAssign (i : It) (change : Int) : Outcome It := do
  let m ← neg change
  addAssign i m

/-- `operator-(Self const&)`, MemoryWindow.h:377. -/
def diff (i j : It) : Outcome Int := sub i.count j.count

/-- `operator*`, MemoryWindow.h:258-307 (debug build). -/
def deref (i : It) : Outcome Int := do
  let a ← mul i.yIndex i.xExtent
  let b ← add i.xIndex a
  let c ← mul i.zIndex i.xyExtent
  let d ← add b c
  Outcome.throwIf (i.count ≠ d)
  Outcome.throwIf (i.xExtent ≤ i.xIndex ∨ i.yExtent ≤ i.yIndex ∨ i.zExtent ≤ i.zIndex ∨
    i.xIndex < 0 ∨ i.yIndex < 0 ∨ i.zIndex < 0)
  return i.current

/-- `SpatialField::end` and `interior_end`, SpatialField.h:1146-1245: a `size_t`
product converted to `int`. -/
def finish (base : Int) (w : Window) : Outcome It :=
  addAssign (start base w) (toInt (sz (sz (sz w.extent.x * sz w.extent.y) * sz w.extent.z)))

/-- One movement, MemoryWindow.h:310-374. -/
def step (i : It) : It.Op → Outcome It
  | .inc => inc i
  | .dec => dec i
  | .add n => addAssign i n
  | .sub n => subAssign i n

/-- A sequence of movements, MemoryWindow.h:310-374 repeated. -/
def run (i : It) : List It.Op → Outcome It
  | [] => .ok i
  | o :: os => step i o >>= fun j => run j os

/-! ## Mask iterators -/

/-- The flat position at which a mask iterator starts, BitField.h:52-59
(`size_t` arithmetic). -/
def maskFlat (w : Window) : Int :=
  sz (sz w.offset.x + sz (sz w.npts.x * sz (sz w.offset.y + sz (sz w.npts.y * sz w.offset.z))))

/-- Constructor of the mask iterator, BitField.h:49-71; `size_` goes through
`glob_npts()` and `NEBO_ROUND_TO_INT` (BitField.h:28). -/
def maskStart (w : Window) : Outcome MaskIt := do
  let n ← globNpts w
  return {
    bit := toInt ((maskFlat w).tmod 32)
    block := toInt ((maskFlat w).tdiv 32)
    count := 0
    size := toInt ((sz (sz (n + 32) - 1)).tdiv 32)
    xIndex := 0
    yIndex := 0
    zIndex := 0
    yStep := toInt (sz (sz w.npts.x - sz w.extent.x))
    zStep := toInt (sz (sz (sz w.npts.y - sz w.extent.y) * sz w.npts.x))
    xExtent := toInt (sz w.extent.x)
    yExtent := toInt (sz w.extent.y)
    zExtent := toInt (sz w.extent.z)
    xyExtent := toInt (sz (sz w.extent.x * sz w.extent.y)) }

/-- `update_positions`, BitField.h:209-216. -/
def updatePositions (i : MaskIt) : Outcome MaskIt :=
  if i.bit < 0 ∨ 32 ≤ i.bit then do
    let a ← mul i.block 32
    let flat ← add a i.bit
    let q ← div flat 32
    let r ← mod flat 32
    return { i with block := q, bit := r }
  else .ok i

/-- The y and z part of `operator++`, BitField.h:118-127. -/
def maskIncRow (i : MaskIt) : Outcome MaskIt := do
  let b ← add i.bit i.yStep
  let y ← add i.yIndex 1
  if y = i.yExtent then
    let b' ← add b i.zStep
    let z ← add i.zIndex 1
    return { i with bit := b', xIndex := 0, yIndex := 0, zIndex := z }
  else
    return { i with bit := b, xIndex := 0, yIndex := y }

/-- `operator++`, BitField.h:114-133. -/
def maskInc (i : MaskIt) : Outcome MaskIt := do
  let b ← add i.bit 1
  let c ← add i.count 1
  let x ← add i.xIndex 1
  let i := { i with bit := b, count := c, xIndex := x }
  let j ← if i.xIndex = i.xExtent then maskIncRow i else .ok i
  updatePositions j

/-- The y and z part of `operator--`, BitField.h:142-151. -/
def maskDecRow (i : MaskIt) : Outcome MaskIt := do
  let b ← sub i.bit i.yStep
  let x ← sub i.xExtent 1
  let y ← sub i.yIndex 1
  if y = -1 then
    let b' ← sub b i.zStep
    let y' ← sub i.yExtent 1
    let z ← sub i.zIndex 1
    return { i with bit := b', xIndex := x, yIndex := y', zIndex := z }
  else
    return { i with bit := b, xIndex := x, yIndex := y }

/-- `operator--`, BitField.h:138-157. -/
def maskDec (i : MaskIt) : Outcome MaskIt := do
  let b ← sub i.bit 1
  let c ← sub i.count 1
  let x ← sub i.xIndex 1
  let i := { i with bit := b, count := c, xIndex := x }
  let j ← if i.xIndex = -1 then maskDecRow i else .ok i
  updatePositions j

/-- `operator+=`, BitField.h:162-185. -/
def maskAddAssign (i : MaskIt) (change : Int) : Outcome MaskIt := do
  let s ← small i.xExtent i.xIndex change
  if s then
    let b ← add i.bit change
    let x ← add i.xIndex change
    let c ← add i.count change
    updatePositions { i with bit := b, xIndex := x, count := c }
  else
    let d ← jump i.count i.yStep i.zStep i.xExtent i.xyExtent change
    let b ← add i.bit d
    let c ← add i.count change
    let x ← mod c i.xExtent
    let r ← mod c i.xyExtent
    let y ← div r i.xExtent
    let z ← div c i.xyExtent
    updatePositions { i with bit := b, count := c, xIndex := x, yIndex := y, zIndex := z }

/-- `operator-=`, BitField.h:187. -/
def maskSubAssign (i : MaskIt) (change : Int) : Outcome MaskIt := do
  let m ← neg change
  maskAddAssign i m

/-- One movement, BitField.h:114-191. -/
def maskStep (i : MaskIt) : It.Op → Outcome MaskIt
  | .inc => maskInc i
  | .dec => maskDec i
  | .add n => maskAddAssign i n
  | .sub n => maskSubAssign i n

/-- A sequence of movements, BitField.h:114-191 repeated. -/
def maskRun (i : MaskIt) : List It.Op → Outcome MaskIt
  | [] => .ok i
  | o :: os => maskStep i o >>= fun j => maskRun j os

end Mach
end SpatialOps
