import Verif.DevPool.Model

/-!
# Specification of the environment of the CUDA-build pool
-/

namespace SpatialOps

/-- The pool, the blocks allocated for each memory type (address, size, how it was
obtained) and those held by users. -/
structure DWorld where
  pool : DPool
  heap : MemKind → List (Nat × Nat × Alloc)
  held : MemKind → List Nat

/-- Client calls. -/
inductive DEv where
  | get (k : MemKind) (n fresh : Nat) (pinOk : Bool)
  | put (k : MemKind) (a : Nat)

namespace DWorld

/-- Start of the program. -/
def init : DWorld := ⟨DPool.init, fun _ => [], fun _ => []⟩

/-- The addresses allocated for memory type `k`. -/
def addrs (w : DWorld) (k : MemKind) : List Nat := (w.heap k).map Prod.fst

/-- Allocators return memory that is not in use for either memory type; users give
back only what they hold, with the memory type it was obtained for. -/
def Legal (w : DWorld) : DEv → Prop
  | .get _ _ fresh _ => ∀ k, fresh ∉ w.addrs k
  | .put k a => a ∈ w.held k

/-- Effect of a call. -/
def step (w : DWorld) : DEv → Outcome DWorld
  | .get k n fresh pinOk => do
    let r ← w.pool.get k n fresh pinOk
    return ⟨r.pool,
      fun k' => if k' = k then (match r.alloc with | some s => (r.addr, s) :: w.heap k | none => w.heap k) else w.heap k',
      fun k' => if k' = k then r.addr :: w.held k else w.held k'⟩
  | .put k a => do
    let p ← w.pool.put k a
    return ⟨p, w.heap, fun k' => if k' = k then (w.held k).erase a else w.held k'⟩

/-- Worlds reachable by legal calls. -/
inductive Reach : DWorld → Prop
  | init : Reach DWorld.init
  | step {w w' : DWorld} {e : DEv} : Reach w → w.Legal e → w.step e = .ok w' → Reach w'

end DWorld
end SpatialOps
