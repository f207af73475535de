import Verif.Heat.Model
import Verif.Conserve.Spec
import Verif.Flat.Spec

/-!
# Specification of the heat equation program

The finite-volume form of `ρ cp ∂T/∂t = ∇·(k ∇T)` on a uniform mesh, cell by cell, without reference to fields, memory or
operators.
-/

namespace SpatialOps
namespace Heat

open Nebo Stencil

section
variable {K : Type} [Field K]

/-- The value of a field at mesh cell `c`. -/
def val (n : IntVec) (m : Mem K) (f : FieldObj) (c : IntVec) : K := m (f.values.getD 0) (flatAddr n f.geo c)

/-- The cells of the mesh. -/
def InMesh (n c : IntVec) : Prop := IntVec.Le 0 c ∧ IntVec.Lt c n

/-- The faces across direction `d`: one more than cells, face `c` lies before cell `c`. -/
def OnFaces (n : IntVec) (d : Dir) (c : IntVec) : Prop := IntVec.Le 0 c ∧ IntVec.Lt c (n + unit d)

/-- Fourier's law at face `c` across direction `d`: minus the mean conductivity of the two cells times the difference
quotient of the temperature. -/
def heatFlux (h : Dir → K) (T k : IntVec → K) (d : Dir) (c : IntVec) : K :=
  -((k (c - unit d) + k c) / 2) * ((T c - T (c - unit d)) / h d)

/-- The difference of the fluxes through the two faces of cell `c` across direction `d`, per length; nothing flows across a
direction with a single cell. -/
def outflow (n : IntVec) (h : Dir → K) (T k : IntVec → K) (c : IntVec) (d : Dir) : K :=
  if 1 < comp n d then (heatFlux h T k d (c + unit d) - heatFlux h T k d c) / h d else 0

/-- The right-hand side `∇·(k ∇T) / (ρ cp)` at cell `c`. -/
def heatRhs (n : IntVec) (h : Dir → K) (T k rc : IntVec → K) (c : IntVec) : K :=
  -((outflow n h T k c .x + outflow n h T k c .y + outflow n h T k c .z) / rc c)

/-- The mesh spacing. -/
def meshSpacing (n : IntVec) (L : Dir → K) (d : Dir) : K := L d / ((comp n d : Int) : K)

/-- The initial temperature `sin(x) + cos(y) + sin(z)` at the centre of cell `c`, which may be a ghost cell. -/
def initialT (sin cos : K → K) (n : IntVec) (L : Dir → K) (c : IntVec) : K :=
  sin (meshSpacing n L .x * ((c.x : K) + 1 / 2)) + cos (meshSpacing n L .y * ((c.y : K) + 1 / 2)) +
    sin (meshSpacing n L .z * ((c.z : K) + 1 / 2))

/-- The conductivity `x + y + z` at the centre of cell `c`. -/
def initialK (n : IntVec) (L : Dir → K) (c : IntVec) : K :=
  meshSpacing n L .x * ((c.x : K) + 1 / 2) + meshSpacing n L .y * ((c.y : K) + 1 / 2) +
    meshSpacing n L .z * ((c.z : K) + 1 / 2)

/-- What flows into the mesh through its first layer of faces across direction `d` less what flows out through the last,
per length; nothing if the direction has a single cell. -/
def netInflow (n : IntVec) (h : Dir → K) (T k : IntVec → K) (d : Dir) : K :=
  if 1 < comp n d then
    (blockSum 0 (layer n d) (heatFlux h T k d) - blockSum (along (comp n d) d) (layer n d) (heatFlux h T k d)) / h d
  else 0

/-- The cells next to `c` across directions with more than one cell; some of them may be ghost cells. -/
def Neighbour (n c c' : IntVec) : Prop := ∃ d, 1 < comp n d ∧ (c' = c + unit d ∨ c' = c - unit d)

/-- The ten fields have different memory. -/
def Separate (blk : Nat → Nat) : Prop := ∀ i < 10, ∀ j < 10, i ≠ j → blk i ≠ blk j

/-- The field store hands out memory that is not a field's. -/
def Fresh (blk : Nat → Nat) (work : Dir → Nat) : Prop := ∀ i < 10, ∀ d, work d ≠ blk i

end
end Heat
end SpatialOps
