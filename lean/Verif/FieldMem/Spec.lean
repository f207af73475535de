import Verif.FieldMem.Model
import Verif.Field.Spec

/-!
# Specification vocabulary for the contents of fields
-/

namespace SpatialOps

/-- The memory in which a field lives: the block on the device it was built for. -/
def FieldObj.home (f : FieldObj) : Option Nat :=
  match f.memType with
  | .localRam => f.values
  | .gpu => f.ext
  | .other => none

/-- The field refers to block `b`. -/
def FieldObj.Refers (f : FieldObj) (b : Nat) : Prop :=
  f.values = some b ∨ f.ext = some b ∨ ∃ dev, (dev, b) ∈ f.consumers

/-- The field is available only where it lives. -/
def FieldObj.OnlyHome (f : FieldObj) : Prop := f.consumers = [] ∧ (f.memType = .gpu → f.values = none)

namespace FieldMem

variable {V : Type}

/-- Memory not in use: neither allocated for the CPU, nor on a device, nor the client's
(`C`). -/
def Unused (C : Nat → Prop) (w : FieldWorld) (a : Nat) : Prop :=
  a ∉ w.pool.heap.map Prod.fst ∧ a ∉ w.gpuOwn.map Prod.fst ∧ a ∉ w.rawOwn.map Prod.fst ∧ ¬ C a

/-- What is assumed of the client and of the allocators: operations use existing fields, windows
given to the constructor fit and are not empty, views have the global dimensions of the field they
view, memory passed in by the client is the client's, elements written are inside the field,
and allocators return memory that is not in use. -/
def Legal (C : Nat → Prop) (w : FieldMem V) : Op V → Prop
  | .life o _ => w.fw.Legal o ∧
    match o with
    | .create _ _ _ _ user _ _ fresh => (∀ p, user = some p → C p) ∧ Unused C w.fw fresh
    | .addConsumer _ _ _ fresh => Unused C w.fw fresh
    | .view _ win h => ∀ f, w.fw.fields[h]? = some (some f) → win.npts = f.geo.window.npts
    | _ => True
  | .write h _ _ i _ => ∃ f, w.fw.fields[h]? = some (some f) ∧ 0 ≤ i ∧ i < f.alloc
  | .set h _ _ => w.fw.Alive h
  | .assign h g => w.fw.Alive h ∧ w.fw.Alive g

/-- Block `b` was obtained by field `h`. -/
def ObtainedBy (w : FieldWorld) (h b : Nat) : Prop := (b, h) ∈ w.cpuOwn ∨ (b, h) ∈ w.gpuOwn ∨ (b, h) ∈ w.rawOwn

/-- Block `b` was obtained by field `h` to be available on another device. -/
def ConsumerOf (w : FieldWorld) (h b : Nat) : Prop :=
  (b, h) ∈ w.gpuOwn ∨ ((b, h) ∈ w.cpuOwn ∧ ∃ f, w.fields[h]? = some (some f) ∧ f.memType = .gpu)

/-- No other existing field lives in the same memory as `h` and is available elsewhere. -/
def Exclusive (w : FieldWorld) (h : Nat) : Prop :=
  ∀ f h' f', w.fields[h]? = some (some f) → w.fields[h']? = some (some f') → h' ≠ h → f'.home = f.home → f'.OnlyHome

/-- The discipline the code leaves to the client: memory is not released while another
field refers to it, and fields are not changed while another field that lives in the same
memory is available on other devices. -/
def Disciplined (w : FieldMem V) : Op V → Prop
  | .life (.destroy h) _ => ∀ b h' f', ObtainedBy w.fw h b → w.fw.fields[h']? = some (some f') → h' ≠ h → ¬ f'.Refers b
  | .life (.removeConsumers h) _ => ∀ b h' f', ConsumerOf w.fw h b → w.fw.fields[h']? = some (some f') → h' ≠ h → ¬ f'.Refers b
  | .life _ _ => True
  | .write h _ _ _ _ => Exclusive w.fw h
  | .set h _ _ => Exclusive w.fw h
  | .assign h _ => Exclusive w.fw h

/-- Every operation of the history is legal and disciplined where it is applied. -/
def Careful (C : Nat → Prop) (cuda : Bool) (zero : V) (w : FieldMem V) : List (Op V) → Prop
  | [] => True
  | o :: os => w.Legal C o ∧ w.Disciplined o ∧
    match w.step cuda zero o with
    | .ok r => r.1.Careful C cuda zero os
    | _ => True

/-- Blocks `b` and `d` have the same first `n` elements. -/
def Agree (m : Mem V) (n : Int) (b d : Nat) : Prop := ∀ i, 0 ≤ i → i < n → m b i = m d i

/-- Element `i` of the array passed to a constructor, zero if none is. -/
def given (zero : V) (src : Option (Int → V)) (i : Int) : V :=
  match src with
  | none => zero
  | some v => v i

/-- The fields an operation may change: those that live in the memory of the field it is applied
to. -/
def Mutates (w : FieldMem V) (d : Nat) : Op V → Prop
  | .life _ _ => False
  | .write h _ _ _ _ => ∃ f, w.fw.fields[h]? = some (some f) ∧ f.home = some d
  | .set h _ _ => ∃ f, w.fw.fields[h]? = some (some f) ∧ f.home = some d
  | .assign h _ => ∃ f, w.fw.fields[h]? = some (some f) ∧ f.home = some d

end FieldMem
end SpatialOps
