import Verif.Heat.Model

/-!
# Model of the heat equation program with the update of the temperature

The time loop of test/heatEqn/main.cpp ends each trip with the remark that "ordinarily at this point we would use rhs to update
temperature", and that boundary conditions have to be set. The model adds both: the boundary conditions as any code of the user's that
runs before each trip, and the explicit update by an assignment.
-/

namespace SpatialOps
namespace Heat

open Nebo Stencil

section
variable {K : Type} [NatCast K] [One K] [Neg K] [Zero K] [Add K] [Sub K] [Mul K] [Div K]

/-- The update that test/heatEqn/main.cpp:168-171 leaves to the user, as `temperature <<= temperature + dt * rhs`
(NeboAssignment.h:54-61). -/
def update (dt : K) (F : Fields) (m : Mem K) : Outcome (Mem K) :=
  assign F.temperature (.bin (s := .num) (t := .num) (fun a b : K => a + b) (.field F.temperature)
    (.bin (s := .num) (t := .num) (fun a b : K => a * b) (.scalar (t := .num) dt) (.field F.rhs))) m

/-- The time loop with boundary conditions and update, test/heatEqn/main.cpp:155-174. `bc j` is what the user's code for boundary
conditions does to the memory before trip `j`. -/
def march (h : Dir → K) (dt : K) (n : IntVec) (F : Fields) (work work' : Nat → Dir → Nat) (bc : Nat → Mem K → Mem K) :
    Nat → Mem K → Outcome (Mem K)
  | 0, m => .ok m
  | j + 1, m => do
    let m ← march h dt n F work work' bc j m
    let m ← timeStep h n F (work j) (work' j) (bc j m)
    update dt F m

end
end Heat
end SpatialOps
