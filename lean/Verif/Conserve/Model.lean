import Verif.Stencil.Model

/-!
# Model of applying a registered operator to a field

NeboStencilBuilder.h, on top of the registered operators (`Verif.Stencil.Model`) and assignment
(`Verif.Nebo.Model`).
-/

namespace SpatialOps
namespace Stencil

open Nebo (Expr assign)

/-- `op.apply_to_field(src, dest)`, which is `dest <<= op(src)`, NeboStencilBuilder.h:107-109,
256-258, 329-331, for the operator of registration `r` on a mesh with spacing `h`. A registration whose
operator type does not exist does not compile; this is `ub` here and never happens (C31). -/
def Reg.applyToField {K : Type} [NatCast K] [One K] [Neg K] [Add K] [Mul K] [Div K] (h : Dir → K) (r : Reg) (src dest : FieldObj) (m : Mem K) :
    Outcome (Mem K) :=
  match r.apply h (.field src) with
  | some e => assign dest e m
  | none => .ub

end Stencil
end SpatialOps
