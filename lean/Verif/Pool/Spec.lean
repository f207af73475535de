import Verif.Pool.Model

/-!
# Specification of the pool's environment

A world is the pool together with what an outside observer knows: the blocks
obtained from `new` with their sizes, and the blocks currently held by users.
-/

namespace SpatialOps

/-- Pool plus observer state. -/
structure PoolWorld where
  pool : Pool
  heap : List (Nat × Nat)
  held : List Nat

/-- Client calls. `get n fresh`: request `n` elements, `new` would return
`fresh`. `put a`: give back block `a`. -/
inductive PoolEv where
  | get (n fresh : Nat)
  | put (a : Nat)
  deriving DecidableEq, Repr

namespace PoolWorld

/-- Start of the program. -/
def init : PoolWorld := ⟨Pool.init, [], []⟩

/-- A call is legal if `new` returns memory that is not already allocated, and
users only give back what they hold. -/
def Legal (w : PoolWorld) : PoolEv → Prop
  | .get _ fresh => fresh ∉ w.heap.map Prod.fst
  | .put a => a ∈ w.held

instance (w : PoolWorld) (e : PoolEv) : Decidable (w.Legal e) := by
  cases e <;> unfold Legal <;> infer_instance

/-- Effect of a call on the world. -/
def step (w : PoolWorld) : PoolEv → Outcome PoolWorld
  | .get n fresh => do
    let r ← w.pool.get n fresh
    return ⟨r.pool, (match r.alloc with | some s => (r.addr, s) :: w.heap | none => w.heap),
      r.addr :: w.held⟩
  | .put a => do
    let p ← w.pool.put a
    return ⟨p, w.heap, w.held.erase a⟩

/-- Worlds reachable by legal calls. -/
inductive Reach : PoolWorld → Prop
  | init : Reach PoolWorld.init
  | step {w w' : PoolWorld} {e : PoolEv} : Reach w → w.Legal e → w.step e = .ok w' → Reach w'

end PoolWorld
end SpatialOps
