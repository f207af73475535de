import Verif.Ghost.Model

/-!
# Model of field geometry

spatialops/structured/BoundaryCellInfo.h, FVTools.h and the window and ghost
members of SpatialField.h. Values and memory ownership are modelled elsewhere.
-/

namespace SpatialOps

/-- `BoundaryCellInfo`, BoundaryCellInfo.h:46-64: members isbc_ and nExtra_. -/
structure BcInfo where
  isbc : IntVec
  nExtra : IntVec
  deriving DecidableEq, Repr

namespace BcInfo

/-- Conversion of `bool` to `int`. Used as in BoundaryCellInfo.h:58-64. -/
def b2i (b : Bool) : Int := if b then 1 else 0

/-- The constructor and `build<FieldT>(bcx,bcy,bcz)`, BoundaryCellInfo.h:58-79;
`extra` is `FieldT::Location::BCExtra::int_vec()`. -/
def build (bcx bcy bcz : Bool) (extra : IntVec) : BcInfo :=
  let isbc : IntVec := ⟨b2i bcx, b2i bcy, b2i bcz⟩
  ⟨isbc, isbc * extra⟩

/-- `build<FieldT>(IntVec bc)`, BoundaryCellInfo.h:86-90: each entry is converted
to `bool` by the call. -/
def buildVec (bc extra : IntVec) : BcInfo :=
  build (decide (bc.x ≠ 0)) (decide (bc.y ≠ 0)) (decide (bc.z ≠ 0)) extra

/-- `has_extra()`, BoundaryCellInfo.h:144-149. -/
def hasExtra (b : BcInfo) : IntVec :=
  ⟨if b.isbc.x ≠ 0 then b.nExtra.x else 0, if b.isbc.y ≠ 0 then b.nExtra.y else 0,
   if b.isbc.z ≠ 0 then b.nExtra.z else 0⟩

end BcInfo

/-- `get_dim_with_ghost`, FVTools.h:73-81. -/
def getDimWithGhost (n minus plus bc : Int) : Int := if 1 < n then n + minus + plus + bc else 1

/-- `get_window_with_ghost`, FVTools.h:100-108. -/
def getWindowWithGhost (n : IntVec) (g : GhostData) (bc : BcInfo) : Outcome Window :=
  Window.makeFull
    ⟨getDimWithGhost n.x g.minus.x g.plus.x bc.hasExtra.x,
     getDimWithGhost n.y g.minus.y g.plus.y bc.hasExtra.y,
     getDimWithGhost n.z g.minus.z g.plus.z bc.hasExtra.z⟩

/-- The geometric members of `SpatialField`, SpatialField.h:109-114:
fieldWindow_, interiorFieldWindow_, bcInfo_, ghosts_, validGhosts_,
disableInterior_. -/
structure FieldGeo where
  window : Window
  interior : Window
  bc : BcInfo
  ghosts : GhostData
  validGhosts : GhostData
  disableInterior : Bool
  deriving DecidableEq, Repr

namespace FieldGeo

/-- `SingleValueCheck<Location>::check`, SpatialField.h:491-526. `single` says
whether the field type is `SingleValueField`. -/
def singleValueCheck (single : Bool) (w : Window) (g : GhostData) : Outcome Unit := do
  Outcome.throwIf (single = true ∧ 1 < w.extent.x ∧ 1 < w.extent.y ∧ 1 < w.extent.z)
  Outcome.throwIf (single = true ∧ 0 < g.minus.x ∧ 0 < g.minus.y ∧ 0 < g.minus.z ∧
    0 < g.plus.x ∧ 0 < g.plus.y ∧ 0 < g.plus.z)

/-- One direction of the interior offset, SpatialField.h:585-592. -/
def interiorOfs1 (ext ofs minus : Int) : Int := if 1 < ext then ofs + minus else ofs
/-- One direction of the interior extent, SpatialField.h:585-592. -/
def interiorExt1 (ext minus plus : Int) : Int := if 1 < ext then ext - (minus + plus) else ext

/-- Geometry part of the main constructor, SpatialField.h:536-593. -/
def ctor (single : Bool) (w : Window) (bc : BcInfo) (g : GhostData) : Outcome FieldGeo := do
  let g1 ← g.copy
  singleValueCheck single w g1
  let interior ← Window.make w.npts
    ⟨interiorOfs1 w.extent.x w.offset.x g.minus.x, interiorOfs1 w.extent.y w.offset.y g.minus.y,
     interiorOfs1 w.extent.z w.offset.z g.minus.z⟩
    ⟨interiorExt1 w.extent.x g.minus.x g.plus.x, interiorExt1 w.extent.y g.minus.y g.plus.y,
     interiorExt1 w.extent.z g.minus.z g.plus.z⟩
  return ⟨w, interior, bc, g1, g1, false⟩

/-- Shallow copy constructor, SpatialField.h:632-654. -/
def copy (f : FieldGeo) : Outcome FieldGeo := do
  let _ ← f.ghosts.copy
  let _ ← f.validGhosts.copy
  return f

/-- The test of the windowed copy constructor that disables interior iterators,
SpatialField.h:689-694 (each comparison is between the new window and the
interior window of the parent, which the new field shares). -/
def cutsInterior (w interior : Window) : Prop :=
  interior.offset.x < w.offset.x ∨ interior.offset.y < w.offset.y ∨ interior.offset.z < w.offset.z ∨
  w.extent.x + w.offset.x < interior.offset.x + interior.extent.x ∨
  w.extent.y + w.offset.y < interior.offset.y + interior.extent.y ∨
  w.extent.z + w.offset.z < interior.offset.z + interior.extent.z

/-- Decidability of `cutsInterior`, SpatialField.h:689-694. -/
instance (w i : Window) : Decidable (cutsInterior w i) := by unfold cutsInterior; infer_instance

/-- Windowed copy constructor `SpatialField(window, other)`, SpatialField.h:658-712.
Note `validGhosts_(other.ghosts_)`. The global size of the new window is not
compared with that of the parent. -/
def windowCopy (single : Bool) (w : Window) (f : FieldGeo) : Outcome FieldGeo := do
  let g ← f.ghosts.copy
  singleValueCheck single w g
  Outcome.assert w.sanityCheck
  Outcome.assert (w.extent.x + w.offset.x ≤ f.window.npts.x ∧ w.offset.x < f.window.npts.x)
  Outcome.assert (w.extent.y + w.offset.y ≤ f.window.npts.y ∧ w.offset.y < f.window.npts.y)
  Outcome.assert (w.extent.z + w.offset.z ≤ f.window.npts.z ∧ w.offset.z < f.window.npts.z)
  return { f with
    window := w
    validGhosts := g
    disableInterior := if cutsInterior w f.interior then true else f.disableInterior }

/-- `reset_valid_ghosts`, SpatialField.h:461-467. -/
def resetValidGhosts (f : FieldGeo) (g : GhostData) : Outcome FieldGeo := do
  let diff := f.validGhosts.minus - g.minus
  let w ← Window.make f.window.npts (f.window.offset + diff)
    (f.window.extent - diff - f.validGhosts.plus + g.plus)
  let g' ← g.copy
  return { f with window := w, validGhosts := g' }

/-- `reshape`, SpatialField.h:479-487. -/
def reshape (single : Bool) (f : FieldGeo) (extentModify shift : IntVec) : Outcome FieldGeo := do
  let w ← Window.make f.window.npts (f.window.offset + shift) (f.window.extent + extentModify)
  windowCopy single w f

/-- A history of `reset_valid_ghosts` calls. SpatialField.h:461-467 repeated. -/
def resets (f : FieldGeo) : List GhostData → Outcome FieldGeo
  | [] => .ok f
  | g :: gs => f.resetValidGhosts g >>= fun f' => f'.resets gs

end FieldGeo
end SpatialOps
