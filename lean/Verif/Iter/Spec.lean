import Verif.Iter.Model
import Verif.Index.Spec

/-!
# Specification vocabulary for iteration

A position in a window is a number `0 ≤ k ≤ N` with `N` the number of cells;
position `k < N` denotes the `k`-th cell in fortran order.
-/

namespace SpatialOps

namespace It.Op

/-- By how many cells a movement is meant to move. -/
def delta : Op → Int
  | .inc => 1
  | .dec => -1
  | .add n => n
  | .sub n => -n

end It.Op

/-- Position reached from `k` by the movements. -/
def It.endPos (k : Int) : List It.Op → Int
  | [] => k
  | o :: os => It.endPos (k + o.delta) os

/-- All positions visited stay within `[0, n]`. -/
def It.StaysIn (n k : Int) : List It.Op → Prop
  | [] => True
  | o :: os => (0 ≤ k + o.delta ∧ k + o.delta ≤ n) ∧ It.StaysIn n (k + o.delta) os

/-- `loc` is the `k`-th cell of a block with dimensions `e`, x varying fastest. -/
def IsNthCell (e : IntVec) (k : Int) (loc : IntVec) : Prop :=
  InBlock e loc ∧ fortranPos e loc = k

end SpatialOps
