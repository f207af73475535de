import Verif.HeatPar.Model
import Verif.March.Model

/-!
# Model of the time steps of the heat equation on the thread pool

The time loop of test/heatEqn/main.cpp with boundary conditions and the update of the temperature, in a build with threads: every `<<=`
is done by the calling thread or divided into tasks (NeboLhs.h:123-134, 172-226); the boundary conditions are code of the calling thread.
-/

namespace SpatialOps
namespace Heat

open Nebo Stencil

section
variable {K : Type} [NatCast K] [One K] [Neg K] [Zero K] [Add K] [Sub K] [Mul K] [Div K]

/-- The update of the temperature that test/heatEqn/main.cpp:168-171 leaves to the user, as an action. -/
def updateCmd (dt : K) (F : Fields) : Cmd K :=
  put F.temperature (.bin (s := .num) (t := .num) (fun a b : K => a + b) (.field F.temperature)
    (.bin (s := .num) (t := .num) (fun a b : K => a * b) (.scalar (t := .num) dt) (.field F.rhs)))

/-- The time loop with boundary conditions and update, test/heatEqn/main.cpp:155-174, as actions. `bc j` is what the user's code for
boundary conditions, run by the main thread, does to the memory before trip `j`. -/
def marchCmds (h : Dir → K) (dt : K) (n : IntVec) (F : Fields) (work work' : Nat → Dir → Nat) (bc : Nat → Mem K → Mem K) :
    Nat → Outcome (List (Cmd K))
  | 0 => .ok []
  | j + 1 => do
    let a ← marchCmds h dt n F work work' bc j
    let b ← stepCmds h n F (work j) (work' j)
    return a ++ (.host (fun m => .ok (bc j m)) :: b ++ [updateCmd dt F])

end
end Heat
end SpatialOps
