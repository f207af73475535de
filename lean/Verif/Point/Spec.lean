import Verif.Point.Model
import Verif.Index.Spec

/-!
# Specification of the point operators
-/

namespace SpatialOps
namespace Point

/-- A field in main memory, in block `b`, with a proper window. -/
structure Usable (f : FieldObj) (b : Nat) : Prop where
  fits : f.geo.window.Fits
  nonempty : f.geo.window.Nonempty
  ram : f.memType = .localRam
  block : f.values = some b

/-- Number `k` of the point field, counted in the order of its window, is at address `a`. -/
def PointAt (f : FieldObj) (k : Nat) (a : Int) : Prop :=
  ∃ loc, InBlock f.geo.window.extent loc ∧ fortranPos f.geo.window.extent loc = k ∧ f.geo.window.flatIndex loc = .ok a

/-- The list has one entry for every point of `p` and its entries are elements of `f`. -/
structure Matches (indices : List Nat) (p f : FieldObj) : Prop where
  length : (indices.length : Int) = p.geo.window.localNpts
  inside : ∀ k ∈ indices, (k : Int) < f.geo.window.globNpts

/-- The field's window is all of its memory. -/
def Whole (w : Window) : Prop := w.offset = 0 ∧ w.extent = w.npts

end Point
end SpatialOps
