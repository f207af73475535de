import Verif.Release.Model
import Verif.Nebo.Spec

/-!
# Specification: what two builds of the library have in common

`Same d r`: whatever the debug build computes, the release build computes. `Initialised` and `known`
say that a program reads no element of a scratch field before it has assigned it.
-/

namespace SpatialOps
namespace Rel
open Nebo

/-- If the debug build accepts a call (no failed assertion, no exception), the release build gives the
same result. -/
def Same {α : Type} (debug release : Outcome α) : Prop := ∀ a, debug = .ok a → release = .ok a

/-- The same for a call of the release build that contains a loop: it ends, with the same result. -/
def SameLoop {α : Type} (debug : Outcome α) (release : Nat → Option (Outcome α)) : Prop :=
  ∀ a, debug = .ok a → ∃ k, ∀ trips, k ≤ trips → release trips = some (.ok a)

/-- Element `a` of memory block `blk` is read when the expression is evaluated at mesh cell `c`. -/
def Reads {V : Type} : {t : Ty} → Expr V t → IntVec → Nat → Int → Prop
  | _, .scalar _, _, _, _ | _, .mask _, _, _, _ => False
  | _, .field f, c, blk, a => f.values = some blk ∧ a = cellAddr f.geo c
  | _, .single f, _, blk, a => f.values = some blk ∧ a = 0
  | _, .maskShift p e, c, blk, a => Reads e (c + p) blk a
  | _, .un _ e, c, blk, a => Reads e c blk a
  | _, .bin _ e f, c, blk, a | _, .and e f, c, blk, a | _, .or e f, c, blk, a =>
    Reads e c blk a ∨ Reads f c blk a
  | _, .cond t e f, c, blk, a => Reads t c blk a ∨ Reads e c blk a ∨ Reads f c blk a
  | _, .stencil pts e, c, blk, a => ∃ q ∈ pts.toList, Reads e (c + q.1) blk a
  | _, .sumStencil pts e, c, blk, a => ∃ q ∈ pts.toList, Reads e (c + q) blk a

/-- The cells a statement assigns. -/
def Stmt.Region {V : Type} (n : IntVec) : Stmt V → IntVec → Prop
  | .scratch _ _, _ => False
  | .assign l e, c => Stored n l c ∧ e.DefinedAt n c
  | .interior l _, c => Interior n l c

/-- The elements whose contents are determined by the program after a statement, if those of `known` were
before it: a scratch field's are not, assigned ones are. -/
def Stmt.after {V : Type} (n : IntVec) (known : Nat → Int → Prop) (s : Stmt V) : Nat → Int → Prop :=
  match s with
  | .scratch b npts => fun blk a => known blk a ∧ ¬ (blk = b ∧ 0 ≤ a ∧ a < npts)
  | .assign l _ | .interior l _ => fun blk a =>
    known blk a ∨ (l.values = some blk ∧ ∃ c, s.Region n c ∧ a = cellAddr l.geo c)

/-- The statement is one that the library accepts (the conditions of C22), and reads known elements only. -/
def Stmt.Good {V : Type} (n : IntVec) (known : Nat → Int → Prop) (s : Stmt V) : Prop :=
  match s with
  | .scratch _ _ => True
  | .assign l e | .interior l e =>
    (∃ b, Target n l b) ∧ e.Wf n ∧ (∀ c, Interior n l c → e.DefinedAt n c) ∧ e.Independent l 0 ∧
      ∀ c, s.Region n c → ∀ blk a, Reads e c blk a → known blk a

/-- Every statement of the program is good when its turn comes. -/
def Initialised {V : Type} (n : IntVec) : (Nat → Int → Prop) → List (Stmt V) → Prop
  | _, [] => True
  | known, s :: p => s.Good n known ∧ Initialised n (s.after n known) p

/-- The elements whose contents are determined by the program at its end. -/
def knownAfter {V : Type} (n : IntVec) : (Nat → Int → Prop) → List (Stmt V) → (Nat → Int → Prop)
  | known, [] => known
  | known, s :: p => knownAfter n (s.after n known) p

/-- Two memories have the same contents at the elements of `known`. -/
def AgreeOn {V : Type} (known : Nat → Int → Prop) (m m' : Mem V) : Prop :=
  ∀ blk a, known blk a → m blk a = m' blk a

end Rel
end SpatialOps
