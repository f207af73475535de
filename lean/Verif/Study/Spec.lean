import Verif.Study.Model
import Verif.Accuracy.Spec
import Verif.NeboRed.Spec
import Mathlib.Analysis.SpecialFunctions.Pow.Real

/-!
# Specification of a study of convergence
-/

namespace SpatialOps
namespace Study

open Nebo Stencil

/-- The value of the function at a place. -/
def Fn.at {K : Type} : Fn K → (Dir → K) → K
  | .coord d, p => p d
  | .const v, _ => v
  | .un g a, p => g (a.at p)
  | .bin g a b, p => g (a.at p) (b.at p)

/-- The mesh spacing. -/
noncomputable def meshSpacing (n : IntVec) (L : Dir → ℝ) (d : Dir) : ℝ := L d / ((comp n d : Int) : ℝ)

/-- The nine fields have blocks of memory of their own. -/
def Separate (blk : Nat → Nat) : Prop := ∀ i < 9, ∀ j < 9, i ≠ j → blk i ≠ blk j

/-- The box holds the domain and a cell around it. -/
def Around (n : IntVec) (L lo hi : Dir → ℝ) : Prop := ∀ d, lo d ≤ -meshSpacing n L d ∧ L d + meshSpacing n L d ≤ hi d

/-- What is found in the end, where the result should be the values of `G`, with a bound `E`: the destination has the cells of a
field with those boundaries; the error is at most `E` at every interior cell; `destExact` holds `G` there; and unless `G` vanishes on
them all, the norm of the error over the interior relative to that of `G` is returned, and is at most `E` times the root of the number of
cells over the norm of `G`. -/
structure Measured (n : IntVec) (L : Dir → ℝ) (plus : Dir → Bool) (dt : FieldType) (G : (Dir → ℝ) → ℝ) (E : ℝ) (S : Fields)
    (m : Mem ℝ) : Prop where
  bc : S.dest.geo.bc = BcInfo.build (plus .x) (plus .y) (plus .z) dt.bcExtra
  error : ∀ c, Interior n S.dest c → |valueAt m S.dest c - G (position (meshSpacing n L) dt c)| ≤ E
  exact : ∀ c, Interior n S.dest c → valueAt m S.exact c = G (position (meshSpacing n L) dt c)
  norm : ∃ cells, Lists cells (Interior n S.dest) ∧
    ((∃ c, Interior n S.dest c ∧ G (position (meshSpacing n L) dt c) ≠ 0) →
      ∃ e, Returns (interiorNorm Real.sqrt (fun x y => x ^ y) 2 S.dest S.exact m) e ∧
        e = Real.sqrt (cells.map fun c => (valueAt m S.dest c - G (position (meshSpacing n L) dt c)) ^ 2).sum /
          Real.sqrt (cells.map fun c => G (position (meshSpacing n L) dt c) ^ 2).sum ∧
        e ≤ E * Real.sqrt cells.length / Real.sqrt (cells.map fun c => G (position (meshSpacing n L) dt c) ^ 2).sum)

end Study
end SpatialOps
