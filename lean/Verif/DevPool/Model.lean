import Verif.Pool.Model

/-!
# Model of the memory pool in a CUDA build

spatialops/structured/MemoryPool.h and MemoryPool.cpp with `ENABLE_CUDA`: one pool
object serves both CPU and GPU memory. The two branches of `get` and of `put` are
the same code applied to `cpufqm_`/`cpuhighWater_` and `gpufqm_`/`gpuhighWater_`, while
`fsm_` and `pad_` are shared. CPU and GPU addresses are numbers of one address
space (unified addressing). Failure of a device allocation is not modelled.
-/

namespace SpatialOps

/-- The two memory types the pool serves, MemoryPool.cpp:123 and 170. -/
inductive MemKind where
  | cpu
  | gpu
  deriving DecidableEq, Repr

/-- Members of `Pool<T>` in a CUDA build, MemoryPool.h:41-46. `classes` is `cpufqm_` and
`gpufqm_`, `high` is `cpuhighWater_` and `gpuhighWater_`. -/
structure DPool where
  pad : Nat
  classes : MemKind → List (Nat × List Nat)
  fsm : Nat → Nat
  high : MemKind → Nat
  pinned : Bool
  destroyed : Bool

/-- How a block was obtained: `cudaMallocHost`, `new T[n]` or `cudaMalloc`, and
correspondingly how it may be released. MemoryPool.cpp:65-73, 85, 143-149, 183. -/
inductive Alloc where
  | pinned
  | pageable
  | device
  deriving DecidableEq, Repr

/-- What `get` did: the new pool, the block returned, and the size and method of the
allocation if there was one. MemoryPool.cpp:115-200. -/
structure DGet where
  pool : DPool
  addr : Nat
  alloc : Option (Nat × Alloc)

namespace DPool

/-- Constructor, MemoryPool.cpp:42-52. -/
def init : DPool := ⟨0, fun _ => [], fun _ => 0, fun _ => 0, true, false⟩

/-- The members used by the branch for memory type `k`, MemoryPool.cpp:123-168, 170-190. -/
def side (p : DPool) (k : MemKind) : Pool := ⟨p.pad, p.classes k, p.fsm, p.high k, p.destroyed⟩

/-- The pool after the branch for `k` changed its members to `q`.
MemoryPool.cpp:123-168, 170-190. -/
def setSide (p : DPool) (k : MemKind) (q : Pool) : DPool :=
  { p with
    pad := q.pad
    classes := fun k' => if k' = k then q.classes else p.classes k'
    fsm := q.fsm
    high := fun k' => if k' = k then q.highWater else p.high k' }

/-- `Pool::get(mtype,n)`, MemoryPool.cpp:113-201. `fresh` is the address an allocation
would return; `pinOk` is whether `cudaMallocHost` succeeds (if not, `new` is used and
`pinned_` cleared). -/
def get (p : DPool) (k : MemKind) (n fresh : Nat) (pinOk : Bool) : Outcome DGet := do
  let r ← (p.side k).get n fresh
  let q := p.setSide k r.pool
  match r.alloc with
  | none => return ⟨q, r.addr, none⟩
  | some s =>
    match k with
    | .gpu => return ⟨q, r.addr, some (s, .device)⟩
    | .cpu =>
      if pinOk then return ⟨q, r.addr, some (s, .pinned)⟩
      else return ⟨{ q with pinned := false }, r.addr, some (s, .pageable)⟩

/-- `Pool::put(mtype,t)`, MemoryPool.cpp:203-240. -/
def put (p : DPool) (k : MemKind) (t : Nat) : Outcome DPool := do
  let q ← (p.side k).put t
  return p.setSide k q

/-- `Pool::active()`, MemoryPool.cpp:242-250: CPU memory only. -/
def active (p : DPool) : Int := (p.side .cpu).active

/-- `Pool::total()`, MemoryPool.h:58. -/
def total (p : DPool) : Nat := p.high .cpu

/-- `~Pool()`, MemoryPool.cpp:54-90: the blocks released, each with the method by which
it is released. -/
def destroy (p : DPool) : List (Nat × Alloc) :=
  (p.side .cpu).queued.map (fun a => (a, if p.pinned then .pinned else .pageable)) ++
  (p.side .gpu).queued.map (fun a => (a, .device))

end DPool
end SpatialOps
