import Verif.Compare.Model
import Verif.Index.Spec

/-!
# Specification of the field comparisons
-/

namespace SpatialOps
namespace Compare

/-- The field has a proper window, and its elements are in block `b`: in main memory, or on the
GPU. -/
structure Readable (f : FieldObj) (b : Nat) : Prop where
  fits : f.geo.window.Fits
  nonempty : f.geo.window.Nonempty
  storage : (f.memType = .localRam ∧ f.values = some b) ∨ (f.memType = .gpu ∧ f.ext = some b)

/-- `P` holds of the address of every cell of the window. -/
def Everywhere (w : Window) (P : Int → Prop) : Prop :=
  ∀ loc a, InBlock w.extent loc → w.flatIndex loc = .ok a → P a

/-- The comparison was carried out and its answer is yes exactly if `P`; the negated form
answers the opposite. -/
def Answers (eq ne : Outcome Bool) (P : Prop) : Prop :=
  ∃ r : Bool, eq = .ok r ∧ ne = .ok (!r) ∧ (r = true ↔ P)

end Compare
end SpatialOps
