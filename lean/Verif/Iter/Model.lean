import Verif.Index.Model

/-!
# Model of FieldIterator / ConstFieldIterator

spatialops/structured/MemoryWindow.h:225-404 (`FieldIterator`) and 407-574
(`ConstFieldIterator`, same members and same arithmetic; one model serves both).
A pointer `AtomicType*` is an integer address counted in elements.
-/

namespace SpatialOps

/-- Iterator state, MemoryWindow.h:392-403. -/
structure It where
  current : Int
  count : Int
  xIndex : Int
  yIndex : Int
  zIndex : Int
  yStep : Int
  zStep : Int
  xExtent : Int
  yExtent : Int
  zExtent : Int
  xyExtent : Int
  deriving DecidableEq, Repr

namespace It

/-- Constructor from a base pointer and a window, MemoryWindow.h:241-255.
The `size_t` accessors are read as integers (no wrap-around; `w.extent ≤ w.npts`
is asserted when the window is built). -/
def start (base : Int) (w : Window) : It where
  current := base + w.offset.x + w.offset.y * w.npts.x + w.offset.z * w.npts.x * w.npts.y
  count := 0
  xIndex := 0
  yIndex := 0
  zIndex := 0
  yStep := w.npts.x - w.extent.x
  zStep := (w.npts.y - w.extent.y) * w.npts.x
  xExtent := w.extent.x
  yExtent := w.extent.y
  zExtent := w.extent.z
  xyExtent := w.extent.x * w.extent.y

/-- `operator++`, MemoryWindow.h:310-325. -/
def inc (i : It) : It :=
  let i := { i with current := i.current + 1, count := i.count + 1, xIndex := i.xIndex + 1 }
  if i.xIndex = i.xExtent then
    let i := { i with current := i.current + i.yStep, xIndex := 0, yIndex := i.yIndex + 1 }
    if i.yIndex = i.yExtent then
      { i with current := i.current + i.zStep, yIndex := 0, zIndex := i.zIndex + 1 }
    else i
  else i

/-- `operator--`, MemoryWindow.h:329-344. -/
def dec (i : It) : It :=
  let i := { i with current := i.current - 1, count := i.count - 1, xIndex := i.xIndex - 1 }
  if i.xIndex = -1 then
    let i := { i with current := i.current - i.yStep, xIndex := i.xExtent - 1,
                      yIndex := i.yIndex - 1 }
    if i.yIndex = -1 then
      { i with current := i.current - i.zStep, yIndex := i.yExtent - 1, zIndex := i.zIndex - 1 }
    else i
  else i

/-- `operator+=`, MemoryWindow.h:348-369. The long path divides by `xExtent_`
and `xyExtent_`; a zero there is undefined behaviour. -/
def addAssign (i : It) (change : Int) : Outcome It :=
  if (0 < change ∧ change < i.xExtent - i.xIndex) ∨ (change < 0 ∧ -change < i.xIndex) then
    .ok { i with current := i.current + change, xIndex := i.xIndex + change,
                 count := i.count + change }
  else do
    Outcome.ubUnless (i.xExtent ≠ 0 ∧ i.xyExtent ≠ 0)
    let current := i.current +
      (change +
       i.yStep * ((i.count + change).tdiv i.xExtent - i.count.tdiv i.xExtent) +
       i.zStep * ((i.count + change).tdiv i.xyExtent - i.count.tdiv i.xyExtent))
    let count := i.count + change
    return { i with
      current := current
      count := count
      xIndex := count.tmod i.xExtent
      yIndex := (count.tmod i.xyExtent).tdiv i.xExtent
      zIndex := count.tdiv i.xyExtent }

/-- `operator-=` and `operator-(int)`, MemoryWindow.h:370, 374. -/
def subAssign (i : It) (change : Int) : Outcome It := i.addAssign (-change)

/-- `operator-(Self const&)`, MemoryWindow.h:377. -/
def diff (i j : It) : Int := i.count - j.count

/-- `operator==`, MemoryWindow.h:383. -/
def eqOp (i j : It) : Bool := decide (i.current = j.current)
/-- `operator<`, MemoryWindow.h:385. -/
def ltOp (i j : It) : Bool := decide (i.current < j.current)
/-- `operator<=`, MemoryWindow.h:387. -/
def leOp (i j : It) : Bool := decide (i.current ≤ j.current)

/-- `location()`, MemoryWindow.h:390. -/
def location (i : It) : IntVec := ⟨i.xIndex, i.yIndex, i.zIndex⟩

/-- `operator*`, MemoryWindow.h:258-307 (debug build): the address accessed, or
a thrown error when the count is inconsistent or an index is out of range. -/
def deref (i : It) : Outcome Int := do
  Outcome.throwIf (i.count ≠ i.xIndex + i.yIndex * i.xExtent + i.zIndex * i.xyExtent)
  Outcome.throwIf (i.xExtent ≤ i.xIndex ∨ i.yExtent ≤ i.yIndex ∨ i.zExtent ≤ i.zIndex ∨
    i.xIndex < 0 ∨ i.yIndex < 0 ∨ i.zIndex < 0)
  return i.current

/-- `operator[](int)`, MemoryWindow.h:380. -/
def index (i : It) (change : Int) : Outcome Int := i.addAssign change >>= deref

/-- `end()` as built by SpatialField::end / interior_end, SpatialField.h:1146-1245:
`begin + extent(0)*extent(1)*extent(2)`. -/
def finish (base : Int) (w : Window) : Outcome It :=
  (start base w).addAssign (w.extent.x * w.extent.y * w.extent.z)

/-- The movement operations a client can apply. MemoryWindow.h:310-374. -/
inductive Op where
  | inc
  | dec
  | add (n : Int)
  | sub (n : Int)
  deriving DecidableEq, Repr

/-- One movement. MemoryWindow.h:310-374. -/
def step (i : It) : Op → Outcome It
  | .inc => .ok i.inc
  | .dec => .ok i.dec
  | .add n => i.addAssign n
  | .sub n => i.subAssign n

/-- A sequence of movements. MemoryWindow.h:310-374 repeated. -/
def run (i : It) : List Op → Outcome It
  | [] => .ok i
  | o :: os => i.step o >>= fun j => j.run os

end It
end SpatialOps
