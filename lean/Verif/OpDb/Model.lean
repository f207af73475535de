import Verif.Base

/-!
# Model of the operator database

spatialops/OperatorDatabase.h. `κ` is the set of C++ operator types, compared by
`typeid`; an operator is a heap pointer, here a number. `deleted` is kept by an observer:
the pointers deleted so far, in order. Overflow of the `int` counter is not modelled.
-/

namespace SpatialOps

/-- `OpStore<OpT>`, OperatorDatabase.h:46-57: `opMap_` in key order and `idCounter_`. -/
structure OpStore where
  ops : List (Int × Nat)
  idCounter : Int
  deriving DecidableEq

namespace OpStore

/-- The constructor, OperatorDatabase.h:192-195. -/
def new : OpStore := ⟨[], 0⟩

/-- `std::map::insert`, used in OperatorDatabase.h:211: in key order, no effect if the key
exists. -/
def insertSorted (k : Int) (p : Nat) : List (Int × Nat) → List (Int × Nat)
  | [] => [(k, p)]
  | (k', p') :: rest =>
    if k < k' then (k, p) :: (k', p') :: rest
    else if k = k' then (k', p') :: rest
    else (k', p') :: insertSorted k p rest

/-- `add`, OperatorDatabase.h:207-213: the new store and the id returned. -/
def add (s : OpStore) (p : Nat) : OpStore × Int :=
  (⟨insertSorted (s.idCounter + 1) p s.ops, s.idCounter + 1⟩, s.idCounter + 1)

/-- `get(id)`, OperatorDatabase.h:217-247. -/
def get (s : OpStore) (id : Int) : Outcome Nat :=
  if id = -1 then
    if 1 < s.ops.length then .throws
    else match s.ops with
      | [] => .throws
      | (_, p) :: _ => .ok p
  else match s.ops.find? fun e => e.1 = id with
    | none => .throws
    | some e => .ok e.2

end OpStore

/-- `OperatorDatabase`, OperatorDatabase.h:59-66: `storeList_`, each entry with its type. -/
structure OpDb (κ : Type) where
  stores : List (κ × OpStore)
  deleted : List Nat
  deriving DecidableEq

namespace OpDb

variable {κ : Type} [DecidableEq κ]

omit [DecidableEq κ] in
/-- `OperatorDatabase()`, OperatorDatabase.h:68. -/
def new : OpDb κ := ⟨[], []⟩

/-- `find<OpT>()`, OperatorDatabase.h:127-138: the first store of the type. -/
def find (k : κ) : List (κ × OpStore) → Option OpStore
  | [] => none
  | (k', s) :: rest => if k' = k then some s else find k rest

/-- Replace the store `find` returns (the C++ code changes it through the pointer),
OperatorDatabase.h:149-157. -/
def update (k : κ) (s : OpStore) : List (κ × OpStore) → List (κ × OpStore)
  | [] => []
  | (k', s') :: rest => if k' = k then (k', s) :: rest else (k', s') :: update k s rest

/-- `register_new_operator`, OperatorDatabase.h:142-157: a new store is appended if there
is none; then the operator is added. -/
def register (d : OpDb κ) (k : κ) (p : Nat) : OpDb κ × Int :=
  let stores := if (find k d.stores).isNone then d.stores ++ [(k, OpStore.new)] else d.stores
  match find k stores with
  | some s => ({ d with stores := update k (s.add p).1 stores }, (s.add p).2)
  | none => (d, 0)

/-- `retrieve_operator<OpT>(id)`, OperatorDatabase.h:168-180. -/
def retrieve (d : OpDb κ) (k : κ) (id : Int) : Outcome Nat :=
  match find k d.stores with
  | none => .throws
  | some s => s.get id

omit [DecidableEq κ] in
/-- `empty_database()`, OperatorDatabase.h:184-188; the destructors of the stores delete
the operators, 198-203. -/
def empty (d : OpDb κ) : OpDb κ :=
  ⟨[], d.deleted ++ d.stores.flatMap fun s => s.2.ops.map Prod.snd⟩

/-- The calls that change the database, OperatorDatabase.h:142-157, 184-188. -/
inductive Call (κ : Type) where
  | register (k : κ) (p : Nat)
  | empty

/-- One call, OperatorDatabase.h:142-188. -/
def step (d : OpDb κ) : Call κ → OpDb κ
  | .register k p => (d.register k p).1
  | .empty => d.empty

/-- A history, OperatorDatabase.h:142-188 repeated. -/
def run (d : OpDb κ) (h : List (Call κ)) : OpDb κ := h.foldl step d

end OpDb
end SpatialOps
