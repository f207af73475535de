import Verif.Field.Model

/-!
# Model of the point operators

spatialops/pointfield/PointOperators.h. A point field is a `SpatialField`
(PointFieldTypes.h:54).
-/

namespace SpatialOps
namespace Point

section
variable {V : Type}

/-- The constructors from a marker field, PointOperators.h:97-103, 133-139 (the same code): the
running number of every element that is not zero. `nz` is `!= 0.0`. -/
def markers (nz : V → Bool) (m : Mem V) (locs : FieldObj) : Outcome (List Nat) := do
  let b ← locs.beginC
  let e ← locs.endC
  match b.base with
  | none => .ub
  | some blk =>
    let r ← forIt (fun i (s : List Nat × Nat) => do
        let a ← i.deref
        return (if nz (m blk a) then s.1 ++ [s.2] else s.1, s.2 + 1))
      locs.geo.window.localNpts.toNat b.it e.it ([], 0)
    return r.1

/-- `indices_[i]`, PointOperators.h:116, 152: reading past the end is undefined. -/
def indexAt (indices : List Nat) (i : Nat) : Outcome Nat :=
  match indices[i]? with
  | some k => .ok k
  | none => .ub

/-- The element `field_values()[k]` exists. `operator[]` does not check, SpatialField.h:1376, 1417;
an index outside the block is undefined. -/
def room (f : FieldObj) (k : Nat) : Outcome Unit := Outcome.ubUnless ((k : Int) < f.geo.window.globNpts)

/-- `PointToField::apply_to_field`, PointOperators.h:107-120. -/
def pointToField (indices : List Nat) (src dest : FieldObj) (m : Mem V) : Outcome (Mem V) := do
  let b ← src.beginC
  let e ← src.endC
  let r ← forIt (fun i (s : Mem V × Nat) => do
      let k ← indexAt indices s.2
      let d ← dest.subscriptM k
      room dest k
      let a ← i.deref
      match b.base with
      | none => .ub
      | some blk => return (s.1.write d.1 d.2 (s.1 blk a), s.2 + 1))
    src.geo.window.localNpts.toNat b.it e.it (m, 0)
  Outcome.assert (r.2 = indices.length)
  return r.1

/-- `FieldToPoint::apply_to_field`, PointOperators.h:143-156. -/
def fieldToPoint (indices : List Nat) (src dest : FieldObj) (m : Mem V) : Outcome (Mem V) := do
  let b ← dest.beginM
  let e ← dest.endM
  let r ← forIt (fun i (s : Mem V × Nat) => do
      let k ← indexAt indices s.2
      let d ← src.subscriptC k
      room src k
      let a ← i.deref
      match b.base with
      | none => .ub
      | some blk => return (s.1.write blk a (s.1 d.1 d.2), s.2 + 1))
    dest.geo.window.localNpts.toNat b.it e.it (m, 0)
  Outcome.assert (r.2 = indices.length)
  return r.1

end

end Point
end SpatialOps
