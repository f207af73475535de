import Verif.NeboGpu.Model
import Verif.Nebo.Spec

/-!
# Specification of assignment on a GPU

Device blocks are blocks of the same memory, under other numbers. The meaning of an
expression on a device is the meaning it has on the CPU once every field's pointer is
replaced by its pointer on that device.
-/

namespace SpatialOps
namespace Nebo

/-- Where the field's data is on device `dev`: its own memory if it lives there,
otherwise the copy registered for that device. -/
def devPtr (f : FieldObj) (dev : Nat) : Option Nat :=
  if f.memType = .gpu ∧ dev = f.dev then f.ext else f.consumers.lookup dev

/-- The expression with the data of device `dev`. -/
def Expr.onDevice {V : Type} (dev : Nat) : {t : Ty} → Expr V t → Expr V t
  | _, .scalar v => .scalar v
  | _, .field f => .field { f with values := devPtr f dev }
  | _, .single f => .single { f with values := devPtr f dev }
  | _, .mask k => .mask k
  | _, .maskShift p a => .maskShift p (a.onDevice dev)
  | _, .un op a => .un op (a.onDevice dev)
  | _, .bin op a b => .bin op (a.onDevice dev) (b.onDevice dev)
  | _, .and a b => .and (a.onDevice dev) (b.onDevice dev)
  | _, .or a b => .or (a.onDevice dev) (b.onDevice dev)
  | _, .cond c a b => .cond (c.onDevice dev) (a.onDevice dev) (b.onDevice dev)
  | _, .stencil pts a => .stencil pts (a.onDevice dev)
  | _, .sumStencil pts a => .sumStencil pts (a.onDevice dev)

/-- A CPU field with the geometry of `l` whose memory is `l`'s memory on its own device. -/
def cpuTwin (l : FieldObj) : FieldObj := { l with values := l.ext, memType := .localRam }

/-- No single-value field of the expression shares memory with `l`. -/
def Expr.SinglesApart {V : Type} (l : FieldObj) : {t : Ty} → Expr V t → Prop
  | _, .scalar _ | _, .mask _ | _, .field _ => True
  | _, .single f => f.values ≠ l.values
  | _, .maskShift _ a => a.SinglesApart l
  | _, .un _ a => a.SinglesApart l
  | _, .bin _ a b | _, .and a b | _, .or a b => a.SinglesApart l ∧ b.SinglesApart l
  | _, .cond t a b => t.SinglesApart l ∧ a.SinglesApart l ∧ b.SinglesApart l
  | _, .stencil _ a => a.SinglesApart l
  | _, .sumStencil _ a => a.SinglesApart l

/-- Every field of the expression satisfies `P`. -/
def Expr.AllFields {V : Type} (P : FieldObj → Prop) : {t : Ty} → Expr V t → Prop
  | _, .scalar _ | _, .mask _ => True
  | _, .field f | _, .single f => P f
  | _, .maskShift _ a => a.AllFields P
  | _, .un _ a => a.AllFields P
  | _, .bin _ a b | _, .and a b | _, .or a b => a.AllFields P ∧ b.AllFields P
  | _, .cond t a b => t.AllFields P ∧ a.AllFields P ∧ b.AllFields P
  | _, .stencil _ a => a.AllFields P
  | _, .sumStencil _ a => a.AllFields P

end Nebo
end SpatialOps
