import Verif.Bc.Model
import Verif.Round.Model

/-!
# Boundary conditions in floating point, as tested by structured/stencil/test/testOpBC.cpp

The boundary conditions are those of `Verif.Bc`, with the arithmetic of `Verif.Round`.
-/

namespace SpatialOps
namespace BcRound

open Nebo Stencil Bc Round

section
variable {K : Type} [Field K] [LinearOrder K] {rnd : K → K}

/-- `std::abs`, which is exact, testOpBC.cpp:68-69. -/
def fabs (a : Fl rnd) : Fl rnd := ⟨|a.val|⟩

/-- `isOkay`: the absolute and the relative error are below the tolerance, testOpBC.cpp:68-71. -/
def isOkay (tol found bcVal : Fl rnd) : Bool :=
  let abserr := fabs (found - bcVal)
  let relerr := abserr / fabs bcVal
  decide (abserr.val < tol.val) && decide (relerr.val < tol.val)

/-- `test_bc_helper` from the boundary condition on, testOpBC.cpp:56-71: the condition is built from the registered operator
`r`, imposed on `f`, the operator is applied, and its value at `ijk` is compared. The fields and their contents are given.
`df->window_without_ghost().flat_index(ijk)` and `operator[]` are those of areas Index and Field. -/
def testBcHelper (r : Reg) (h : Dir → Fl rnd) (ijk : IntVec) (side : Side) (tol bcVal : Fl rnd) (f df : FieldObj)
    (m : Mem (Fl rnd)) : Outcome Bool := do
  match r.type, r.coef.build h with
  | some (.coefs _ pts _ _), some cs =>
    match s1Shift pts with
    | some s1 => do
      let bc ← BcOp.point s1 (s2Shift pts) cs ijk side bcVal
      let m ← bc.apply f m
      let m ← r.applyToField h f df m
      let ix ← df.geo.interior.flatIndex ijk
      let a ← df.subscriptC ix
      Outcome.ubUnless (0 ≤ a.2 ∧ a.2 < df.geo.window.globNpts)
      return isOkay tol (m a.1 a.2) bcVal
    | none => .ub
  | _, _ => .ub

end
end BcRound
end SpatialOps
