import Verif.Loops.Model
import Verif.Round.Model
import Mathlib.Data.Nat.Digits.Defs

/-!
# Model of `write_matlab`

WriteMatlab.h:38-66, on top of `Verif.Field.Model` (iterators over fields). Text is a list of characters.
-/

namespace SpatialOps
namespace Matlab

open Loops (Cur)

/-! ## Numbers as text -/

/-- The decimal digits of `n`, at least `k` of them. What `operator<<` for `double` prints, WriteMatlab.h:46-47, 52, 54. -/
def digits (k n : Nat) : List Char :=
  let ds := ((Nat.digits 10 n).map Nat.digitChar).reverse
  List.replicate (k - ds.length) '0' ++ ds

section
variable {K : Type} [Field K] [LinearOrder K] [FloorRing K]

/-- The integer of `p + 1` digits and the exponent that are printed for `x` with `std::scientific` and precision `p`,
WriteMatlab.h:46-47: rounded to nearest, ties to even; if that has one digit more, it is shortened. -/
def scaled (p : Nat) (x : K) : Nat × Int :=
  if x = 0 then (0, 0)
  else
    let e := Int.log 10 |x|
    let n := (Round.nearestEven (|x| / 10 ^ (e - p))).toNat
    if n = 10 ^ (p + 1) then (10 ^ p, e + 1) else (n, e)

/-- `fout << x` with `std::scientific` and `precision(p)`, WriteMatlab.h:46-47, 52, 54: sign, a digit, the decimal point, `p`
digits, `e`, the sign of the exponent and at least two digits of it. Infinities, NaN and negative zero are not modelled. -/
def scientific (p : Nat) (x : K) : List Char :=
  let s := scaled p x
  let ds := digits (p + 1) s.1
  (if x < 0 then ['-'] else []) ++ ds.take 1 ++ ['.'] ++ ds.drop 1 ++ ['e'] ++ (if s.2 < 0 then ['-'] else ['+']) ++
    digits 2 s.2.natAbs

end

/-! ## The file -/

/-- The files, WriteMatlab.h:43: their contents by name. -/
abbrev Files := List Char → Option (List Char)

/-- Characters of a literal, WriteMatlab.h:42-56. -/
def lit (s : String) : List Char := s.toList

/-- `"load_"+prefix+".m"`, WriteMatlab.h:42. -/
def fileName (pre : List Char) : List Char := lit "load_" ++ pre ++ lit ".m"

section
variable {V : Type}

/-- What a call has sent to the file, and how it ended. WriteMatlab.h:43-64. -/
abbrev Sent := List Char × Outcome Unit

/-- How a call ends in which `o` did not return. WriteMatlab.h:49-61. -/
def ended {α : Type} (o : Outcome α) : Outcome Unit := o >>= fun _ => .ok ()

/-- `for( ; i!=iend; ++i )  fout << std::endl << ", " << *i;  fout << " ];" << std::endl;`, WriteMatlab.h:54-55, 63-64.
`operator<<` is called with the new line first, then `*i` is evaluated: if that throws the new line and the comma may be there
or not; here they are. -/
def rest (text : V → List Char) (m : Mem V) : Nat → Cur → It → List Char → Sent
  | fuel, c, e, out =>
    if c.it.it.eqOp e then (out ++ lit " ];\n", .ok ())
    else match fuel with
      | 0 => (out, .ub)
      | fuel + 1 => match c.get m with
        | .ok v => rest text m fuel c.inc e (out ++ lit "\n, " ++ text v)
        | o => (out ++ lit "\n, ", ended o)

/-- From `fout << "x = [ " << *i` on, WriteMatlab.h:52-55, 60-63. -/
def row (text : V → List Char) (m : Mem V) (n : Nat) (c : Cur) (e : It) (out : List Char) : Sent :=
  match c.get m with
  | .ok v => rest text m n c.inc e (out ++ lit "x = [ " ++ text v)
  | o => (out ++ lit "x = [ ", ended o)

/-- What a call of `write_matlab(field, prefix, includeGhost)` sends to its file, WriteMatlab.h:44-64. -/
def sent (text : V → List Char) (m : Mem V) (f : FieldObj) (pre : List Char) (includeGhost : Bool) : Sent :=
  let head := lit "function x = load_" ++ pre ++ lit "()\n"
  if includeGhost then
    match f.beginC, f.endC with
    | .ok i, .ok e => row text m f.geo.window.localNpts.toNat ⟨i, f.geo.window.globNpts⟩ e.it head
    | .ok _, o => (head, ended o)
    | o, _ => (head, ended o)
  else
    match f.interiorBeginC, f.interiorEndC with
    | .ok i, .ok e => row text m f.geo.interior.localNpts.toNat ⟨i, f.geo.window.globNpts⟩ e.it head
    | .ok _, o => (head, ended o)
    | o, _ => (head, ended o)

/-- `write_matlab(field, prefix, includeGhost)`, WriteMatlab.h:38-66. `opens` says whether the file can be opened; if not, all
output is dropped. Old contents of the file are lost. What has been sent is in the file also if the call ends by an exception, as
the stream is closed then. -/
def write (text : V → List Char) (opens : Bool) (m : Mem V) (f : FieldObj) (pre : List Char) (includeGhost : Bool) (fs : Files) :
    Files × Outcome Unit :=
  let s := sent text m f pre includeGhost
  (if opens then fun n => if n = fileName pre then some s.1 else fs n else fs, s.2)

end

/-- `write_matlab`, WriteMatlab.h:38-66, for fields of numbers: `precision( 14 )`, 47. -/
def writeMatlab {K : Type} [Field K] [LinearOrder K] [FloorRing K] (opens : Bool) (m : Mem K) (f : FieldObj) (pre : List Char)
    (includeGhost : Bool) (fs : Files) : Files × Outcome Unit :=
  write (scientific 14) opens m f pre includeGhost fs

end Matlab
end SpatialOps
