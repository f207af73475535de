import Verif.Base

/-!
# Model of IntVec index maps and MemoryWindow

spatialops/structured/IntVec.h, MemoryWindow.h, MemoryWindow.cpp
-/

namespace SpatialOps

/-- `ijk_to_flat`, IntVec.h:49-53, with its two assertions. -/
def ijkToFlat (dim loc : IntVec) : Outcome Int := do
  Outcome.assert (loc.x < dim.x ∧ loc.y < dim.y ∧ loc.z < dim.z)
  Outcome.assert (0 ≤ loc.x ∧ 0 ≤ loc.y ∧ 0 ≤ loc.z)
  return loc.x + loc.y * dim.x + loc.z * dim.x * dim.y

/-- `flat_to_ijk`, IntVec.h:61-65, with its two assertions. `/` and `%` are the
truncating C++ operators. (After the assertions no divisor can be zero: the
product of the dimensions is positive.) -/
def flatToIjk (dim : IntVec) (pt : Int) : Outcome IntVec := do
  Outcome.assert (0 ≤ pt)
  Outcome.assert (pt < dim.x * dim.y * dim.z)
  return ⟨pt.tmod dim.x, (pt.tdiv dim.x).tmod dim.y, pt.tdiv (dim.x * dim.y)⟩

/-- `min(IntVec,IntVec)`, IntVec.h:67-71. -/
def IntVec.min (a b : IntVec) : IntVec :=
  ⟨if a.x < b.x then a.x else b.x, if a.y < b.y then a.y else b.y, if a.z < b.z then a.z else b.z⟩

/-- `MemoryWindow`, MemoryWindow.h:65-71: fields nptsGlob_, offset_, extent_. -/
structure Window where
  npts : IntVec
  offset : IntVec
  extent : IntVec
  deriving DecidableEq, Repr

namespace Window

/-- `MemoryWindow::sanity_check`, MemoryWindow.cpp:31-32 and 139-146.
Note that it does not ask for offset + extent ≤ npts. -/
def sanityCheck (w : Window) : Prop :=
  (0 < w.npts.x ∧ 0 < w.npts.y ∧ 0 < w.npts.z) ∧
  (0 ≤ w.offset.x ∧ 0 ≤ w.offset.y ∧ 0 ≤ w.offset.z) ∧
  (0 ≤ w.extent.x ∧ 0 ≤ w.extent.y ∧ 0 ≤ w.extent.z) ∧
  (0 ≤ (w.npts - w.extent).x ∧ 0 ≤ (w.npts - w.extent).y ∧ 0 ≤ (w.npts - w.extent).z)

/-- Decidability of the assertions of MemoryWindow.cpp:36-58. -/
instance (w : Window) : Decidable w.sanityCheck := by unfold sanityCheck; infer_instance

/-- `MemoryWindow(npts,offset,extent)`, MemoryWindow.cpp:36-58. -/
def make (npts offset extent : IntVec) : Outcome Window := do
  Outcome.assert (sanityCheck ⟨npts, offset, extent⟩)
  return ⟨npts, offset, extent⟩

/-- `MemoryWindow(npts)`, MemoryWindow.cpp:60-74. -/
def makeFull (npts : IntVec) : Outcome Window := make npts 0 npts

/-- One direction of `refine`: the five asserted conditions of
MemoryWindow.cpp:108-112. -/
def refineOk1 (npts offset extent split loc : Int) : Prop :=
  split ≤ extent ∧ 0 < split ∧ extent + offset ≤ npts ∧ loc < split ∧ 0 ≤ loc

/-- Decidability of the assertions of MemoryWindow.cpp:108-112. -/
instance (a b c d e : Int) : Decidable (refineOk1 a b c d e) := by
  unfold refineOk1; infer_instance

/-- One direction of `baseOffset`, MemoryWindow.cpp:116-124. -/
def refineOffset1 (offset extent split loc : Int) : Int :=
  offset + extent.tdiv split * loc +
    (if loc < extent.tmod split then loc else extent.tmod split)

/-- One direction of `baseExtent`, MemoryWindow.cpp:125-127. -/
def refineExtent1 (extent split loc : Int) : Int :=
  extent.tdiv split + (if loc < extent.tmod split then 1 else 0)

/-- `MemoryWindow::refine`, MemoryWindow.cpp:102-130. -/
def refine (w : Window) (split loc : IntVec) : Outcome Window := do
  Outcome.assert (refineOk1 w.npts.x w.offset.x w.extent.x split.x loc.x)
  Outcome.assert (refineOk1 w.npts.y w.offset.y w.extent.y split.y loc.y)
  Outcome.assert (refineOk1 w.npts.z w.offset.z w.extent.z split.z loc.z)
  make w.npts
    ⟨refineOffset1 w.offset.x w.extent.x split.x loc.x,
     refineOffset1 w.offset.y w.extent.y split.y loc.y,
     refineOffset1 w.offset.z w.extent.z split.z loc.z⟩
    ⟨refineExtent1 w.extent.x split.x loc.x,
     refineExtent1 w.extent.y split.y loc.y,
     refineExtent1 w.extent.z split.z loc.z⟩

/-- `MemoryWindow::flat_index`, MemoryWindow.h:139-149. -/
def flatIndex (w : Window) (loc : IntVec) : Outcome Int := do
  Outcome.assert (1 < w.extent.x → loc.x < w.npts.x)
  Outcome.assert (1 < w.extent.y → loc.y < w.npts.y)
  Outcome.assert (1 < w.extent.z → loc.z < w.npts.z)
  ijkToFlat w.npts
    ⟨if 1 < w.npts.x then loc.x + w.offset.x else 0,
     if 1 < w.npts.y then loc.y + w.offset.y else 0,
     if 1 < w.npts.z then loc.z + w.offset.z else 0⟩

/-- `ijk_index_from_global`, MemoryWindow.h:156-158. -/
def ijkIndexFromGlobal (w : Window) (i : Int) : Outcome IntVec := flatToIjk w.npts i

/-- `ijk_index_from_local`, MemoryWindow.h:165-167. -/
def ijkIndexFromLocal (w : Window) (i : Int) : Outcome IntVec := flatToIjk w.extent i

/-- `glob_npts`, MemoryWindow.h:173. -/
def globNpts (w : Window) : Int := w.npts.x * w.npts.y * w.npts.z

/-- `local_npts`, MemoryWindow.h:179. -/
def localNpts (w : Window) : Int := w.extent.x * w.extent.y * w.extent.z

/-- `operator==`, MemoryWindow.h:192-196. -/
def eqOp (a b : Window) : Bool :=
  decide (a.npts = b.npts) && decide (a.extent = b.extent) && decide (a.offset = b.offset)

/-- `operator!=`, MemoryWindow.h:198-202. -/
def neOp (a b : Window) : Bool :=
  decide (a.npts ≠ b.npts) || decide (a.extent ≠ b.extent) || decide (a.offset ≠ b.offset)

end Window
end SpatialOps
