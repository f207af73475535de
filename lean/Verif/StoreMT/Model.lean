import Verif.Pool.Model

/-!
# Model of the field store used by several threads

SpatialFieldStore.h:438-510 (`get_from_window`, `restore_field`) with `ENABLE_THREADS`, on top of
MemoryPool.cpp:113-221. `Verif.Pool.Model` has `Pool::get` and `Pool::put` as single steps; here every
statement that touches the pool is a step of its own, so calls of different threads can
interleave. The pool has no lock (MemoryPool.cpp); callers may have one: the store's mutex
(SpatialFieldStore.h:284), the mutex of `add_consumer` (SpatialField.h:150-157), or none (the constructor
and destructor of a field, SpatialField.h:602, 722-736). One pool (one value type) and CPU memory.
-/

namespace SpatialOps
namespace StoreMT

/-- Which mutex the caller of the pool holds during the call: `store` in `get_from_window` and
`restore_field` (SpatialFieldStore.h:453, 501), `exec` in `add_consumer` (SpatialField.h:921), `bare` (none) in
constructors and destructors of fields (SpatialField.h:602, 722-736). -/
inductive Guard where
  | store
  | exec
  | bare
  deriving DecidableEq, Repr

/-- A call of the pool: `get(LOCAL_RAM, n)` or `put(LOCAL_RAM, a)`. MemoryPool.cpp:115, 205. -/
inductive Call where
  | get (n : Nat)
  | put (a : Nat)
  deriving DecidableEq, Repr

/-- Where a thread is, with the local variables that are still needed. MemoryPool.cpp:113-221. -/
inductive Pc where
  /-- Not in a call. -/
  | idle
  /-- Before `scoped_lock lock(get_mutex())`. SpatialFieldStore.h:453, 501. -/
  | enter (c : Call)
  /-- Before `assert(!destroyed_)` and the padding. MemoryPool.cpp:117-120. -/
  | pad (n0 : Nat)
  /-- Before `lower_bound(n)` and `insert`. MemoryPool.cpp:125-131. -/
  | find (n0 n : Nat)
  /-- Before `fq.empty()`; `k` is the key of the entry found. MemoryPool.cpp:132-133. -/
  | test (n0 k : Nat)
  /-- Before `++cpuhighWater_`. MemoryPool.cpp:134. -/
  | count (n0 k : Nat)
  /-- Before `new T[n]` and `fsm_[field] = n`. MemoryPool.cpp:135-162. -/
  | alloc (n0 k : Nat)
  /-- Before `field = fq.top()`. MemoryPool.cpp:165. -/
  | top (n0 k : Nat)
  /-- Before `fq.pop()`. MemoryPool.cpp:165. -/
  | pop (n0 k a : Nat)
  /-- Before `if(destroyed_) return` and `n = fsm_[t]`. MemoryPool.cpp:212-216. -/
  | size (a : Nat)
  /-- Before `lower_bound(n)`, its assertion and `push(t)`. MemoryPool.cpp:217-219. -/
  | push (a n : Nat)
  /-- Before the mutex is released, with the block to be returned by `get(n0)`. -/
  | got (n0 a : Nat)
  /-- Before the mutex is released, at the end of `put(a)`. -/
  | gave (a : Nat)
  deriving DecidableEq, Repr

/-- Is the thread executing pool code (between taking and releasing the caller's mutex)?
MemoryPool.cpp:113-221. -/
def Pc.inside : Pc → Bool
  | .idle | .enter _ => false
  | _ => true

/-- The stack of the entry with key `k` (an iterator of `std::map` stays valid). MemoryPool.cpp:132. -/
def stackAt (p : Pool) (k : Nat) : List Nat :=
  match p.classes.find? (fun e => decide (e.1 = k)) with
  | some e => e.2
  | none => []

/-- One statement of `Pool::get` or `Pool::put` by a thread at the given place; `fresh` is what `new`
returns if it is called. Also returns the size allocated, if any. Taking `top()` of or popping an empty stack is undefined.
MemoryPool.cpp:113-221. -/
def micro (p : Pool) (fresh : Nat) : Pc → Outcome (Pool × Pc × Option Nat)
  | .pad n0 => do
    Outcome.assert (p.destroyed = false)
    let pad := if p.pad = 0 then n0 / 10 else p.pad
    return ({ p with pad := pad }, .find n0 (n0 + pad), none)
  | .find n0 n =>
    match Pool.lowerBound p.classes n with
    | none => return ({ p with classes := p.classes ++ [(n, [])] }, .test n0 n, none)
    | some (k, _) => return (p, .test n0 k, none)
  | .test n0 k => return (p, if stackAt p k = [] then .count n0 k else .top n0 k, none)
  | .count n0 k => return ({ p with highWater := p.highWater + 1 }, .alloc n0 k, none)
  | .alloc n0 k => return ({ p with fsm := fun a => if a = fresh then k else p.fsm a }, .got n0 fresh, some k)
  | .top n0 k =>
    match stackAt p k with
    | [] => .ub
    | a :: _ => return (p, .pop n0 k a, none)
  | .pop n0 k a => do
    Outcome.ubUnless (stackAt p k ≠ [])
    return ({ p with classes := Pool.modifyAt p.classes k List.tail }, .got n0 a, none)
  | .size a => return (p, if p.destroyed then .gave a else .push a (p.fsm a), none)
  | .push a n => do
    Outcome.assert ((Pool.lowerBound p.classes n).isSome = true)
    return ({ p with classes := Pool.modifyAt p.classes n (a :: ·) }, .gave a, none)
  | pc => return (p, pc, none)

/-- The first statement of a call. MemoryPool.cpp:117, 212. -/
def Call.first : Call → Pc
  | .get n => .pad n
  | .put a => .size a

/-- The allocated memory after a statement that allocated `al` elements, if any. Observer of `new T[n]`, MemoryPool.cpp:154. -/
def grown (heap : List (Nat × Nat)) (fresh : Nat) : Option Nat → List (Nat × Nat)
  | some k => (fresh, k) :: heap
  | none => heap

/-- A finished call: thread `t` got block `a` for a request of `n` elements, or gave `a` back.
Observer of the returns of SpatialFieldStore.h:453-510. -/
inductive Done where
  | got (t n a : Nat)
  | gave (t a : Nat)
  deriving DecidableEq, Repr

/-- The threads, the two mutexes (with their owners) and the pool; and, for the observer, the memory allocated
(address, size), the blocks held by users (address, size asked for) and the finished calls in the order in which
they finished. SpatialFieldStore.h:284, SpatialField.h:153, MemoryPool.h:38-46. -/
structure World where
  pool : Pool
  storeMutex : Option Nat
  execMutex : Option Nat
  threads : List (Guard × Pc)
  heap : List (Nat × Nat)
  held : List (Nat × Nat)
  log : List Done

namespace World

/-- `N` threads, nothing done yet. Pool constructor MemoryPool.cpp:42-52. -/
def init (N : Nat) : World := ⟨Pool.init, none, none, List.replicate N (.bare, .idle), [], [], []⟩

/-- Owner of the mutex a call uses. SpatialFieldStore.h:284, SpatialField.h:153. -/
def owner (w : World) : Guard → Option Nat
  | .store => w.storeMutex
  | .exec => w.execMutex
  | .bare => none

/-- Change the owner of the mutex a call uses. SpatialFieldStore.h:284, SpatialField.h:153. -/
def setOwner (w : World) (g : Guard) (o : Option Nat) : World :=
  match g with
  | .store => { w with storeMutex := o }
  | .exec => { w with execMutex := o }
  | .bare => w

/-- Put thread `t` at another place. Control flow of SpatialFieldStore.h:453-510. -/
def setPc (w : World) (t : Nat) (g : Guard) (pc : Pc) : World := { w with threads := w.threads.set t (g, pc) }

/-- What can happen: a thread starts a call; a thread executes its next statement
(SpatialFieldStore.h:453-510, MemoryPool.cpp:113-221). -/
inductive Ev where
  | call (t : Nat) (g : Guard) (c : Call)
  | go (t : Nat) (fresh : Nat)
  deriving DecidableEq, Repr

/-- When it can happen. A thread is in one call at a time; users give back blocks they hold; a
locked mutex blocks; `new` returns memory that is not in use.
SpatialFieldStore.h:453, 501; MemoryPool.cpp:154. -/
def Enabled (w : World) : Ev → Prop
  | .call t _ c =>
    (match w.threads[t]? with | some (_, .idle) => True | _ => False) ∧
    (match c with | .get _ => True | .put a => a ∈ w.held.map Prod.fst)
  | .go t fresh =>
    match w.threads[t]? with
    | none | some (_, .idle) => False
    | some (g, .enter _) => w.owner g = none
    | some (_, .alloc _ _) => fresh ∉ w.heap.map Prod.fst
    | _ => True

/-- What it does. SpatialFieldStore.h:453-510, MemoryPool.cpp:113-221. -/
def step (w : World) : Ev → Outcome World
  | .call t g c =>
    let held := match c with | .get _ => w.held | .put a => w.held.eraseP (fun b => b.1 == a)
    .ok ({ w with held := held }.setPc t g (.enter c))
  | .go t fresh =>
    match w.threads[t]? with
    | none => .ok w
    | some (_, .idle) => .ok w
    | some (g, .enter c) =>
      .ok ((w.setOwner g (some t)).setPc t g c.first)
    | some (g, .got n a) =>
      .ok ({ w.setOwner g none with held := (a, n) :: w.held, log := w.log ++ [Done.got t n a] }.setPc t g .idle)
    | some (g, .gave a) => .ok ({ w.setOwner g none with log := w.log ++ [Done.gave t a] }.setPc t g .idle)
    | some (g, pc) => do
      let (p, pc', al) ← micro w.pool fresh pc
      return { w with pool := p, heap := grown w.heap fresh al }.setPc t g pc'

end World
end StoreMT
end SpatialOps
