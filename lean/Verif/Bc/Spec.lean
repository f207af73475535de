import Verif.Bc.Model
import Verif.Nebo.Spec

/-!
# Specification of boundary conditions
-/

namespace SpatialOps
namespace Bc

open Nebo (Expr)

/-- The field has writable CPU memory `b`, its two windows are of the same block, and it has
fewer than `GHOST_MAX` ghost and boundary layers. -/
structure Usable (f : FieldObj) (b : Nat) : Prop where
  cpu : f.memType = .localRam
  writable : f.readOnly = false
  mem : f.values = some b
  block : f.geo.interior.npts = f.geo.window.npts
  pos : IntVec.Lt 0 f.geo.window.npts
  ghosts : f.geo.ghosts.Valid
  finite : f.geo.ghosts.isInf = false
  extra : IntVec.Le 0 f.geo.bc.hasExtra
  fewMinus : IntVec.Le f.geo.ghosts.minus ⟨ghostMax, ghostMax, ghostMax⟩
  fewPlus : IntVec.Le (f.geo.ghosts.plus + f.geo.bc.hasExtra) ⟨ghostMax, ghostMax, ghostMax⟩

/-- The cell `c`, counted from the first interior cell, is a cell of the field's memory. -/
def InMemory (f : FieldObj) (c : IntVec) : Prop :=
  InBlock f.geo.window.npts (f.geo.interior.offset + c)

instance (f : FieldObj) (c : IntVec) : Decidable (InMemory f c) := by unfold InMemory; infer_instance

/-- The element of the cell `c`, counted from the first interior cell. -/
def addr (f : FieldObj) (c : IntVec) : Int :=
  fortranPos f.geo.window.npts (f.geo.interior.offset + c)

/-- `m'` is `m` with at most one element changed: that of cell `c`. -/
def OnlyCell {V : Type} (f : FieldObj) (b : Nat) (c : IntVec) (m m' : Mem V) : Prop :=
  ∀ blk a, (blk, a) ≠ (b, addr f c) → m' blk a = m blk a

/-- Of the two points of an operator, the one whose value is set. -/
def ghostPoint (side : Side) (p q : IntVec) : IntVec := if side = .plus then q else p

/-- And the coefficient it has. -/
def ghostCoef {K : Type} (side : Side) (c d : K) : K := if side = .plus then d else c

/-- The single-point boundary conditions of a list of points applied one after the other. -/
def oneByOne {K : Type} [Add K] [Sub K] [Mul K] [Div K] (p q : IntVec) (cs : Nebo.Pts K) (side : Side) (v : K) (f : FieldObj) :
    List IntVec → Mem K → Outcome (Mem K)
  | [], m => .ok m
  | d :: ds, m => do
    let o ← BcOp.point p q cs d side v
    let m' ← o.apply f m
    oneByOne p q cs side v f ds m'

/-- The same for values set directly. -/
def directOneByOne {V : Type} (v : V) (f : FieldObj) : List IntVec → Mem V → Outcome (Mem V)
  | [], m => .ok m
  | p :: ps, m => do
    let m' ← (Direct.atPoint p v).apply f m
    directOneByOne v f ps m'

/-- The mask contains the cell `g` of the mesh. -/
def Marked (mask : Nebo.MaskObj) (g : IntVec) : Prop :=
  Nebo.HasCell mask.geo g ∧ bitAt mask.bits.words (Nebo.cellAddr mask.geo g) = true

end Bc
end SpatialOps
