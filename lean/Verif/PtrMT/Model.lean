import Verif.Base

/-!
# Model of SpatFldPtr handles used by several threads

SpatialFieldStore.h:299-433. `Verif.Ptr.Model` has every operation on a handle as one step; here reading and
writing the shared counter are steps of their own (`++(*count_)` and `--(*count_)` are not atomic and no lock is
taken), so operations of different threads on handles to the same field can interleave. Null handles, `detach` of
a handle that stays in scope, self-assignment and assignment of a plain field pointer are left to C15.
-/

namespace SpatialOps
namespace PtrMT

/-- A handle: its field, its counter and whether the field came from the store. SpatialFieldStore.h:163-165. -/
structure Hdl where
  f : Nat
  c : Nat
  built : Bool
  deriving DecidableEq, Repr

/-- The second half of an assignment `p = q`: the variables and the members of `q`. SpatialFieldStore.h:367-374. -/
structure Next where
  h : Nat
  g : Nat
  q : Hdl
  deriving DecidableEq, Repr

/-- Where a thread is, with what it still needs. SpatialFieldStore.h:326-334, 350-377, 412-433. -/
inductive Pc where
  /-- Not in an operation. -/
  | idle
  /-- Before reading `*count_` in `++(*count_)`: copying variable `g` (members `q`) into a new
  variable (`dst = none`, 333) or into variable `dst` (374). -/
  | incRead (g : Nat) (q : Hdl) (dst : Option Nat)
  /-- Before writing `v + 1` to `*count_`. SpatialFieldStore.h:333, 374. -/
  | incWrite (g : Nat) (q : Hdl) (v : Int) (dst : Option Nat)
  /-- Before reading `*count_` in `--(*count_)`; `next` is the rest of an assignment. SpatialFieldStore.h:355, 416. -/
  | decRead (p : Hdl) (next : Option Next)
  /-- Before writing `v - 1` to `*count_`. SpatialFieldStore.h:355, 416. -/
  | decWrite (p : Hdl) (v : Int) (next : Option Next)
  /-- Before `if(*count_ == 0)`. SpatialFieldStore.h:357, 417. -/
  | test (p : Hdl) (next : Option Next)
  /-- Before `SpatialFieldStore::restore_field`. SpatialFieldStore.h:359, 420. -/
  | restore (p : Hdl) (next : Option Next)
  /-- Before `delete f_` and `delete count_`. SpatialFieldStore.h:361-362, 422-423. -/
  | delete (p : Hdl) (next : Option Next)
  deriving DecidableEq, Repr

/-- The handle variables (`none`: destroyed, or being destroyed or overwritten), the counters (`none`: freed), the fields
given to `restore_field`, the fields deleted, the fields ever wrapped (observer), and the threads.
SpatialFieldStore.h:163-167. -/
structure World where
  handles : List (Option Hdl)
  counters : List (Option Int)
  restored : List Nat
  deleted : List Nat
  wrapped : List (Nat × Bool)
  threads : List Pc
  deriving DecidableEq, Repr

/-- What can happen: a thread wraps a field in a first handle, starts copying, destroying or assigning a
handle, or executes its next access. SpatialFieldStore.h:299-433. -/
inductive Ev where
  | new (f : Nat) (built : Bool)
  | copy (t g : Nat)
  | destroy (t h : Nat)
  | assign (t h g : Nat)
  | go (t : Nat)
  deriving DecidableEq, Repr

namespace World

/-- `N` threads and no handles. Before the first constructor, SpatialFieldStore.h:300. -/
def init (N : Nat) : World := ⟨[], [], [], [], [], List.replicate N .idle⟩

/-- Put thread `t` at another place. Control flow of SpatialFieldStore.h:299-433. -/
def setPc (w : World) (t : Nat) (pc : Pc) : World := { w with threads := w.threads.set t pc }

/-- After the old reference of a handle was dropped: done, or on with the assignment. SpatialFieldStore.h:367, 426. -/
def after : Option Next → Pc
  | none => .idle
  | some n => .incRead n.g n.q (some n.h)

/-- Read the members of a handle variable. SpatialFieldStore.h:327-331. -/
def handle (w : World) (h : Nat) : Outcome Hdl :=
  match w.handles[h]? with
  | some (some p) => .ok p
  | _ => .ub

/-- Read `*count_`; undefined if it was freed. SpatialFieldStore.h:333, 355, 357, 374, 416, 417. -/
def load (w : World) (c : Nat) : Outcome Int :=
  match w.counters[c]? with
  | some (some v) => .ok v
  | _ => .ub

/-- Write `*count_`; undefined if it was freed. SpatialFieldStore.h:333, 355, 374, 416. -/
def store (w : World) (c : Nat) (v : Int) : Outcome World :=
  match w.counters[c]? with
  | some (some _) => .ok { w with counters := w.counters.set c (some v) }
  | _ => .ub

/-- The effect of an event. SpatialFieldStore.h:299-433. -/
def step (w : World) : Ev → Outcome World
  | .new f b => .ok { w with
      handles := w.handles ++ [some ⟨f, w.counters.length, b⟩]
      counters := w.counters ++ [some 1]
      wrapped := w.wrapped ++ [(f, b)] }
  | .copy t g => do
    let q ← w.handle g
    return w.setPc t (.incRead g q none)
  | .destroy t h => do
    let p ← w.handle h
    return { w with handles := w.handles.set h none }.setPc t (.decRead p none)
  | .assign t h g => do
    let p ← w.handle h
    let q ← w.handle g
    return { w with handles := w.handles.set h none }.setPc t (.decRead p (some ⟨h, g, q⟩))
  | .go t =>
    match w.threads[t]? with
    | none | some .idle => .ok w
    | some (.incRead g q dst) => do
      let v ← w.load q.c
      return w.setPc t (.incWrite g q v dst)
    | some (.incWrite _ q v dst) => do
      let w1 ← w.store q.c (v + 1)
      let hs := match dst with
        | none => w.handles ++ [some q]
        | some h => w.handles.set h (some q)
      return { w1 with handles := hs }.setPc t .idle
    | some (.decRead p n) => do
      let v ← w.load p.c
      return w.setPc t (.decWrite p v n)
    | some (.decWrite p v n) => do
      let w1 ← w.store p.c (v - 1)
      return w1.setPc t (.test p n)
    | some (.test p n) => do
      let v ← w.load p.c
      return w.setPc t (if v = 0 then (if p.built then .restore p n else .delete p n) else after n)
    | some (.restore p n) => do
      Outcome.ubUnless (p.f ∉ w.deleted)
      return { w with restored := p.f :: w.restored }.setPc t (.delete p n)
    | some (.delete p n) => do
      Outcome.ubUnless (p.f ∉ w.deleted)
      let _ ← w.load p.c
      return { w with deleted := p.f :: w.deleted, counters := w.counters.set p.c none }.setPc t (after n)

/-- A schedule. Observer of SpatialFieldStore.h:299-433. -/
def run (w : World) : List Ev → Outcome World
  | [] => .ok w
  | e :: es => w.step e >>= fun w' => w'.run es

end World
end PtrMT
end SpatialOps
