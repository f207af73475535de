import Verif.OpDb.Model

/-!
# Specification of the operator database
-/

namespace SpatialOps
namespace OpDb

variable {κ : Type} [DecidableEq κ]

omit [DecidableEq κ] in
/-- The registrations since the database was last emptied, oldest first. -/
def since (h : List (Call κ)) : List (κ × Nat) :=
  h.foldl (fun acc c => match c with | .register k p => acc ++ [(k, p)] | .empty => []) []

/-- The operators of type `k` registered since the database was last emptied, in order. -/
def registered (k : κ) (h : List (Call κ)) : List Nat :=
  ((since h).filter fun e => e.1 = k).map Prod.snd

omit [DecidableEq κ] in
/-- All operators ever registered. -/
def everRegistered : List (Call κ) → List Nat
  | [] => []
  | .register _ p :: rest => p :: everRegistered rest
  | .empty :: rest => everRegistered rest

end OpDb
end SpatialOps
