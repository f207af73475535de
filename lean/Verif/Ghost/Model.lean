import Verif.Index.Model

/-!
# Model of GhostData

spatialops/structured/GhostData.h and GhostData.cpp
-/

namespace SpatialOps

/-- `GHOST_MAX`, GhostData.h:47. -/
def ghostMax : Int := 9001

/-- `GhostData`, GhostData.h:59-62. -/
structure GhostData where
  minus : IntVec
  plus : IntVec
  isInf : Bool
  deriving DecidableEq, Repr

namespace GhostData

/-- `is_IntVec_infinite`, GhostData.cpp:55-59. -/
def vecInfinite (v : IntVec) : Bool :=
  decide (ghostMax ≤ v.x) && decide (ghostMax ≤ v.y) && decide (ghostMax ≤ v.z)

/-- `is_ghost_infinite`, GhostData.cpp:63-66. -/
def ghostInfinite (minus plus : IntVec) : Bool := vecInfinite minus && vecInfinite plus

/-- `check_valid`, GhostData.cpp:41-49 (debug build). -/
def checkValid (minus plus : IntVec) : Outcome Unit :=
  Outcome.assert (0 ≤ minus.x ∧ 0 ≤ minus.y ∧ 0 ≤ minus.z ∧ 0 ≤ plus.x ∧ 0 ≤ plus.y ∧ 0 ≤ plus.z)

/-- The three value constructors, GhostData.cpp:70-95 (they differ only in how
the six counts are passed). -/
def make (minus plus : IntVec) : Outcome GhostData := do
  checkValid minus plus
  return ⟨minus, plus, ghostInfinite minus plus⟩

/-- `GhostData(int n)`, GhostData.cpp:89-95. -/
def makeUniform (n : Int) : Outcome GhostData := make ⟨n, n, n⟩ ⟨n, n, n⟩

/-- Copy construction and assignment, GhostData.cpp:99-115. -/
def copy (g : GhostData) : Outcome GhostData := do
  checkValid g.minus g.plus
  return g

/-- `set_minus`, GhostData.cpp:119-124 (no validity check). -/
def setMinus (g : GhostData) (v : IntVec) : GhostData :=
  { g with minus := v, isInf := ghostInfinite v g.plus }

/-- `set_plus`, GhostData.cpp:126-131 (no validity check). -/
def setPlus (g : GhostData) (v : IntVec) : GhostData :=
  { g with plus := v, isInf := ghostInfinite g.minus v }

/-- `operator-=`, GhostData.cpp:153-163. The flag is left alone. -/
def subAssign (g rhs : GhostData) : Outcome GhostData := do
  Outcome.throwIf (rhs.isInf = true)
  checkValid (g.minus - rhs.minus) (g.plus - rhs.plus)
  return { g with minus := g.minus - rhs.minus, plus := g.plus - rhs.plus }

/-- `operator+=`, GhostData.cpp:165-178. The flag is left alone unless the
right-hand side is infinite. -/
def addAssign (g rhs : GhostData) : Outcome GhostData :=
  if g.isInf then .ok g
  else if rhs.isInf then rhs.copy
  else do
    checkValid (g.minus + rhs.minus) (g.plus + rhs.plus)
    return { g with minus := g.minus + rhs.minus, plus := g.plus + rhs.plus }

/-- `operator-`, GhostData.cpp:135-141. The returned copy is checked again. -/
def sub (g rhs : GhostData) : Outcome GhostData := do
  let c ← g.copy
  let r ← c.subAssign rhs
  r.copy

/-- `operator+`, GhostData.cpp:143-149. -/
def add (g rhs : GhostData) : Outcome GhostData := do
  let c ← g.copy
  let r ← c.addAssign rhs
  r.copy

/-- `operator==`, GhostData.cpp:182-186. -/
def eqOp (a b : GhostData) : Bool := decide (a.minus = b.minus) && decide (a.plus = b.plus)

/-- `min`, GhostData.cpp:190-195. -/
def min (a b : GhostData) : Outcome GhostData := make (a.minus.min b.minus) (a.plus.min b.plus)

/-- `point_to_ghost`, GhostData.cpp:199-208. -/
def pointToGhost (p : IntVec) : Outcome GhostData :=
  make ⟨if p.x < 0 then -p.x else 0, if p.y < 0 then -p.y else 0, if p.z < 0 then -p.z else 0⟩
       ⟨if 0 < p.x then p.x else 0, if 0 < p.y then p.y else 0, if 0 < p.z then p.z else 0⟩

end GhostData
end SpatialOps
