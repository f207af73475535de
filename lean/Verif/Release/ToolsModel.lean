import Verif.Release.Model
import Verif.Point.Model
import Verif.Lagrange.Model
import Verif.Pool.Model

/-!
# Point operators, tables and the memory pool without the debug checks
-/

namespace SpatialOps
namespace Rel

/-! ## Point operators -/

section
variable {V : Type}

/-- `*i` for a field iterator, MemoryWindow.h:258-307, without the tests; the element must exist. -/
def elem (f : FieldObj) (base : Option Nat) (i : It) : Outcome (Nat × Int) := do
  let blk ← Nebo.elemAt base f.geo.window.globNpts i.current
  return (blk, i.current)

/-- The constructors from a marker field, PointOperators.h:97-103, 133-139. -/
def markers (nz : V → Bool) (m : Mem V) (locs : FieldObj) : Outcome (List Nat) := do
  let b ← locs.beginC
  let e ← locs.endC
  let r ← forIt (fun i (s : List Nat × Nat) => do
      let a ← elem locs b.base i
      return (if nz (m a.1 a.2) then s.1 ++ [s.2] else s.1, s.2 + 1))
    locs.geo.window.localNpts.toNat b.it e.it ([], 0)
  return r.1

/-- `PointToField::apply_to_field`, PointOperators.h:107-117, without the assertion 119. -/
def pointToField (indices : List Nat) (src dest : FieldObj) (m : Mem V) : Outcome (Mem V) := do
  let b ← src.beginC
  let e ← src.endC
  let r ← forIt (fun i (s : Mem V × Nat) => do
      let k ← Point.indexAt indices s.2
      let d ← dest.subscriptM k
      Point.room dest k
      let a ← elem src b.base i
      return (s.1.write d.1 d.2 (s.1 a.1 a.2), s.2 + 1))
    src.geo.window.localNpts.toNat b.it e.it (m, 0)
  return r.1

/-- `FieldToPoint::apply_to_field`, PointOperators.h:143-153, without the assertion 155. -/
def fieldToPoint (indices : List Nat) (src dest : FieldObj) (m : Mem V) : Outcome (Mem V) := do
  let b ← dest.beginM
  let e ← dest.endM
  let r ← forIt (fun i (s : Mem V × Nat) => do
      let k ← Point.indexAt indices s.2
      let d ← src.subscriptC k
      Point.room src k
      let a ← elem dest b.base i
      return (s.1.write a.1 a.2 (s.1 d.1 d.2), s.2 + 1))
    dest.geo.window.localNpts.toNat b.it e.it (m, 0)
  return r.1

end

/-! ## Tables -/

/-- The constructors of `LagrangeInterpolant` and `LagrangeDerivative`, LagrangePoly.cpp:233-242, 285-294, without the
assertions 241 and 293. (Those at 64 and 68 hold always.) -/
def makeTable {K : Type} (xs ys : List K) (order : Int) : Lagr.Table K := ⟨xs, ys, order⟩

/-! ## Memory pool -/

/-- `Pool::get(LOCAL_RAM, n0)`, MemoryPool.cpp:113-168, without the assertion 117: a pool that has been destroyed is not
to be used, so there it is undefined. -/
def poolGet (p : Pool) (n0 fresh : Nat) : Outcome GetResult := do
  Outcome.ubUnless (p.destroyed = false)
  p.get n0 fresh

/-- `Pool::put(LOCAL_RAM, t)`, MemoryPool.cpp:203-221, without the assertion 218: `ifq->second` for the end of the map is
undefined. -/
def poolPut (p : Pool) (t : Nat) : Outcome Pool :=
  if p.destroyed then .ok p
  else do
    Outcome.ubUnless ((Pool.lowerBound p.classes (p.fsm t)).isSome = true)
    return { p with classes := Pool.modifyAt p.classes (p.fsm t) (t :: ·) }

end Rel
end SpatialOps
