import Verif.Base

/-!
# Model of the memory pool

spatialops/structured/MemoryPool.h and MemoryPool.cpp, CPU part (`LOCAL_RAM`;
the build without CUDA). Addresses are natural numbers. `new T[n]` returns an
address chosen by the environment; that choice is an argument of `get`.
-/

namespace SpatialOps

/-- `Pool<T>` members, MemoryPool.h:38-46. `classes` is `cpufqm_`, a `std::map`
from size to a stack of blocks, as a list in key order; a stack is a list with
its top first. `fsm` is `fsm_` read through `operator[]` (unknown pointers give
0). -/
structure Pool where
  pad : Nat
  classes : List (Nat × List Nat)
  fsm : Nat → Nat
  highWater : Nat
  destroyed : Bool

/-- What `get` did: the new pool, the block returned, and the size passed to
`new T[n]` if it allocated. MemoryPool.cpp:115-200. -/
structure GetResult where
  pool : Pool
  addr : Nat
  alloc : Option Nat

namespace Pool

/-- Constructor, MemoryPool.cpp:42-52. -/
def init : Pool := ⟨0, [], fun _ => 0, 0, false⟩

/-- `std::map::lower_bound`: the first entry, in key order, with key ≥ n.
MemoryPool.cpp:125, 172, 217, 225. -/
def lowerBound (cs : List (Nat × List Nat)) (n : Nat) : Option (Nat × List Nat) :=
  cs.find? (fun e => decide (n ≤ e.1))

/-- Change the stack of the entry `lower_bound(n)` points to. MemoryPool.cpp:165, 187, 219, 227. -/
def modifyAt (cs : List (Nat × List Nat)) (n : Nat) (f : List Nat → List Nat) : List (Nat × List Nat) :=
  match cs with
  | [] => []
  | e :: es => if n ≤ e.1 then (e.1, f e.2) :: es else e :: modifyAt es n f

/-- `Pool::get(LOCAL_RAM, n0)`, MemoryPool.cpp:113-168. `fresh` is the address
`new T[n]` returns if it is called. Allocation failure is not modelled. -/
def get (p : Pool) (n0 fresh : Nat) : Outcome GetResult := do
  Outcome.assert (p.destroyed = false)
  let pad := if p.pad = 0 then n0 / 10 else p.pad
  let n := n0 + pad
  match lowerBound p.classes n with
  | none =>
    -- new size class at the end of the map, empty stack: allocate
    return ⟨{ p with
      pad := pad
      classes := p.classes ++ [(n, [])]
      fsm := fun a => if a = fresh then n else p.fsm a
      highWater := p.highWater + 1 }, fresh, some n⟩
  | some (k, []) =>
    return ⟨{ p with
      pad := pad
      fsm := fun a => if a = fresh then k else p.fsm a
      highWater := p.highWater + 1 }, fresh, some k⟩
  | some (_, a :: _) =>
    return ⟨{ p with pad := pad, classes := modifyAt p.classes n List.tail }, a, none⟩

/-- `Pool::put(LOCAL_RAM, t)`, MemoryPool.cpp:203-221. -/
def put (p : Pool) (t : Nat) : Outcome Pool :=
  if p.destroyed then .ok p
  else do
    let n := p.fsm t
    Outcome.assert ((lowerBound p.classes n).isSome = true)
    return { p with classes := modifyAt p.classes n (t :: ·) }

/-- All queued blocks, in map order. Observer on `cpufqm_`, MemoryPool.cpp:125. -/
def queued (p : Pool) : List Nat := p.classes.flatMap (·.2)

/-- `Pool::active()`, MemoryPool.cpp:242-250 (`size_t` subtraction, which would
wrap; the accounting theorem shows it never does). -/
def active (p : Pool) : Int := (p.highWater : Int) - (p.queued.length : Int)

/-- `Pool::total()`, MemoryPool.h:58. -/
def total (p : Pool) : Nat := p.highWater

/-- `~Pool()`, MemoryPool.cpp:54-79: marks the pool destroyed and frees every
queued block; returns the freed addresses. -/
def destroy (p : Pool) : Pool × List Nat :=
  ({ p with destroyed := true, classes := p.classes.map (fun e => (e.1, [])) }, p.queued)

end Pool
end SpatialOps
