import Verif.Field.Model
import Verif.Index.Spec

/-!
# Specification vocabulary for field ownership and access
-/

namespace SpatialOps
namespace FieldWorld

/-- Field `h` exists. -/
def Alive (w : FieldWorld) (h : Nat) : Prop := ∃ f, w.fields[h]? = some (some f)

/-- What is assumed of the client and of the allocators: operations use existing
fields, windows given to the constructor fit and are not empty, and allocators
return memory that is not in use. -/
def Legal (w : FieldWorld) : Op → Prop
  | .create _ win _ _ _ _ _ fresh =>
    win.Fits ∧ win.Nonempty ∧ fresh ∉ w.pool.heap.map Prod.fst ∧ fresh ∉ w.rawOwn.map Prod.fst
  | .copy h => w.Alive h
  | .view _ _ h => w.Alive h
  | .addConsumer h _ _ fresh =>
    w.Alive h ∧ fresh ∉ w.pool.heap.map Prod.fst ∧ fresh ∉ w.gpuOwn.map Prod.fst
  | .removeConsumers h => w.Alive h
  | .destroy h => w.Alive h

/-- Every operation of the history is legal where it is applied. -/
def LegalRun (cuda : Bool) (w : FieldWorld) : List Op → Prop
  | [] => True
  | o :: os => w.Legal o ∧
    match w.step cuda o with
    | .ok r => r.1.LegalRun cuda os
    | _ => True

/-- Every block handed out is held by exactly one field, that field exists, and
the pool's own account of handed-out blocks agrees. -/
structure Accounted (w : FieldWorld) : Prop where
  owner_alive : ∀ a h, (a, h) ∈ w.cpuOwn ∨ (a, h) ∈ w.gpuOwn ∨ (a, h) ∈ w.rawOwn → w.Alive h
  pool_agrees : w.pool.held.Perm (w.cpuOwn.map Prod.fst)
  one_owner : (w.cpuOwn.map Prod.fst).Nodup ∧ (w.gpuOwn.map Prod.fst).Nodup ∧
    (w.rawOwn.map Prod.fst).Nodup

end FieldWorld

/-- The calls that give mutable access to the values of a field. -/
inductive MutCall where
  | begin | end_ | interiorBegin | interiorEnd
  | fieldValues (mt : MemType) (dev : Nat)
  | call (ijk : IntVec)
  | subscript (i : Int)

/-- Outcome of a mutable access (what it returns is irrelevant here). -/
def MutCall.attempt (cuda : Bool) (f : FieldObj) : MutCall → Outcome Unit
  | .begin => f.beginM >>= fun _ => .ok ()
  | .end_ => f.endM >>= fun _ => .ok ()
  | .interiorBegin => f.interiorBeginM >>= fun _ => .ok ()
  | .interiorEnd => f.interiorEndM >>= fun _ => .ok ()
  | .fieldValues mt dev => f.fieldValuesM cuda mt dev >>= fun _ => .ok ()
  | .call ijk => f.callM ijk >>= fun _ => .ok ()
  | .subscript i => f.subscriptM i >>= fun _ => .ok ()

end SpatialOps
