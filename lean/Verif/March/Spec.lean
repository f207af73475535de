import Verif.March.Model
import Verif.HeatErr.Spec

/-!
# Specification of explicit time steps for the heat equation
-/

namespace SpatialOps
namespace Heat

open Nebo Stencil

section
variable {K : Type} [Field K]

/-- What face `c` across direction `d` conducts, per difference of temperature: the mean conductivity over the square of the
spacing. -/
def conductance (h : Dir → K) (k : IntVec → K) (d : Dir) (c : IntVec) : K := (k (c - unit d) + k c) / 2 / (h d * h d)

/-- What the two faces of cell `c` across direction `d` conduct; nothing if the direction has a single cell. -/
def conducts (n : IntVec) (h : Dir → K) (k : IntVec → K) (c : IntVec) (d : Dir) : K :=
  if 1 < comp n d then conductance h k d c + conductance h k d (c + unit d) else 0

/-- The rate at which cell `c` adapts to its neighbours. The time step has to be at most its inverse. -/
def rate (n : IntVec) (h : Dir → K) (k rc : IntVec → K) (c : IntVec) : K :=
  (conducts n h k c .x + conducts n h k c .y + conducts n h k c .z) / rc c

/-- One explicit step from the temperatures `T` for the cell `c`. -/
def euler (n : IntVec) (h : Dir → K) (dt : K) (T k rc : IntVec → K) (c : IntVec) : K := T c + dt * heatRhs n h T k rc c

/-- The user's code for boundary conditions changes the temperature outside the mesh and nothing else. -/
def OnlyGhosts (n : IntVec) (F : Fields) (bc : Nat → Mem K → Mem K) : Prop :=
  ∀ j m, (∀ b, F.temperature.values ≠ some b → ∀ a, bc j m b a = m b a) ∧
    ∀ c, InMesh n c → val n (bc j m) F.temperature c = val n m F.temperature c

/-- A cell outside the mesh next to one inside. -/
def Outside (n c' : IntVec) : Prop := ¬ InMesh n c' ∧ ∃ c, InMesh n c ∧ Neighbour n c c'

/-- The heat in the mesh. -/
def heat (n : IntVec) (m : Mem K) (F : Fields) : K := blockSum 0 n fun c => val n m F.rhoCp c * val n m F.temperature c

end

/-- Conductivities are not negative in the mesh and next to it, `ρ cp` is positive, and the time step is positive or zero and at most
the inverse of every cell's rate. -/
def Stable {K : Type} [Field K] [LinearOrder K] (n : IntVec) (h : Dir → K) (dt : K) (k rc : IntVec → K) : Prop :=
  0 ≤ dt ∧ ∀ c, InMesh n c → 0 < rc c ∧ 0 ≤ k c ∧ (∀ c', Neighbour n c c' → 0 ≤ k c') ∧ dt * rate n h k rc c ≤ 1

end Heat
end SpatialOps
