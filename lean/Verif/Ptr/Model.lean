import Verif.Base

/-!
# Model of SpatFldPtr

spatialops/structured/SpatialFieldStore.h:77-174 and 297-433. Handles live in
numbered variables; counters (`new int`) get numbers that are not reused;
fields are numbers given by the client. Accessing a null or freed counter,
dereferencing a null or deleted field and deleting twice are undefined
behaviour. `memType_` and `deviceIndex_` do not influence control flow here and
are omitted.
-/

namespace SpatialOps

/-- `SpatFldPtr` members f_, count_, builtFromStore_, SpatialFieldStore.h:163-165. -/
structure FPtr where
  f : Option Nat
  count : Option Nat
  built : Bool
  deriving DecidableEq, Repr

/-- Program state: the handle variables (`none` = destroyed), the counters
(`none` = freed), the fields given to `restore_field`, the fields deleted, and
(observer only) the fields ever wrapped with their built-from-store flag.
SpatialFieldStore.h:163-167 (members of every handle). -/
structure PtrWorld where
  handles : List (Option FPtr)
  counters : List (Option Int)
  restored : List Nat
  deleted : List Nat
  wrapped : List (Nat × Bool)
  deriving DecidableEq, Repr

namespace PtrWorld

/-- The state before the first SpatialFieldStore.h:300 constructor call. -/
def init : PtrWorld := ⟨[], [], [], [], []⟩

/-- `SpatialFieldStore::restore_field(memType_, *f_)` as seen from the handle.
SpatialFieldStore.h:359, 389, 420, 498-510. -/
def restore (w : PtrWorld) (f : Option Nat) : Outcome PtrWorld :=
  match f with
  | none => .ub
  | some a => if a ∈ w.deleted then .ub else .ok { w with restored := a :: w.restored }

/-- `delete f_` (deleting a null pointer does nothing). SpatialFieldStore.h:361, 392, 423. -/
def delete (w : PtrWorld) (f : Option Nat) : Outcome PtrWorld :=
  match f with
  | none => .ok w
  | some a => if a ∈ w.deleted then .ub else .ok { w with deleted := a :: w.deleted }

/-- The common block of `operator=` (353-366), `operator=(FieldT*)` (384-398) and
`detach` (413-425): decrement; at zero restore, delete, and null the handle's
pointers. Returns the handle's new members. SpatialFieldStore.h:353-366, 384-398, 413-425. -/
def dropRef (w : PtrWorld) (p : FPtr) : Outcome (PtrWorld × FPtr) :=
  match p.count with
  | none => .ok (w, p)
  | some c =>
    match w.counters[c]? with
    | some (some v) =>
      if v - 1 = 0 then do
        let w1 ← (if p.built then w.restore p.f else .ok w : Outcome PtrWorld)
        let w2 ← w1.delete p.f
        return ({ w2 with counters := w2.counters.set c none }, { p with f := none, count := none })
      else
        .ok ({ w with counters := w.counters.set c (some (v - 1)) }, p)
    | _ => .ub

/-- `++(*count_)`. SpatialFieldStore.h:333, 374. -/
def incr (w : PtrWorld) (count : Option Nat) : Outcome PtrWorld :=
  match count with
  | none => .ub
  | some c =>
    match w.counters[c]? with
    | some (some v) => .ok { w with counters := w.counters.set c (some (v + 1)) }
    | _ => .ub

/-- Read an alive handle variable (using a destroyed one is undefined).
Observer, SpatialFieldStore.h:163-167. -/
def handle (w : PtrWorld) (h : Nat) : Outcome FPtr :=
  match w.handles[h]? with
  | some (some p) => .ok p
  | _ => .ub

/-- Write a handle variable. Member writes in SpatialFieldStore.h:299-433. -/
def setHandle (w : PtrWorld) (h : Nat) (o : Option FPtr) : PtrWorld :=
  { w with handles := w.handles.set h o }

/-- Client operations on handles. SpatialFieldStore.h:299-433. -/
inductive Op where
  /-- `SpatFldPtr p(f)` / from the store: 300-321. -/
  | new (f : Nat) (built : Bool)
  /-- `SpatFldPtr p`: 339-345. -/
  | dflt
  /-- `SpatFldPtr p(q)`: 326-334. -/
  | copy (g : Nat)
  /-- `p = q`: 350-377. -/
  | assign (h g : Nat)
  /-- `p = f`: 381-407. -/
  | assignField (h f : Nat)
  /-- `p.detach()`: 412-426. -/
  | detach (h : Nat)
  /-- `~SpatFldPtr()`: 431-433. -/
  | destroy (h : Nat)
  deriving DecidableEq, Repr

/-- Effect of one operation. New handles are appended to the variables.
SpatialFieldStore.h:299-433. -/
def step (w : PtrWorld) : Op → Outcome PtrWorld
  | .new f b => .ok { w with
      handles := w.handles ++ [some ⟨some f, some w.counters.length, b⟩]
      counters := w.counters ++ [some 1]
      wrapped := w.wrapped ++ [(f, b)] }
  | .dflt => .ok { w with handles := w.handles ++ [some ⟨none, none, false⟩] }
  | .copy g => do
    let q ← w.handle g
    let w1 ← w.incr q.count
    return { w1 with handles := w1.handles ++ [some q] }
  | .assign h g => do
    let p ← w.handle h
    let (w1, p1) ← w.dropRef p
    let w2 := w1.setHandle h (some p1)
    -- the source is read after the release (it may be this very handle)
    let q ← w2.handle g
    let w3 := w2.setHandle h (some q)
    w3.incr q.count
  | .assignField h f => do
    let p ← w.handle h
    let (w1, _) ← w.dropRef p
    return { w1 with
      handles := w1.handles.set h (some ⟨some f, some w1.counters.length, false⟩)
      counters := w1.counters ++ [some 1]
      wrapped := w1.wrapped ++ [(f, false)] }
  | .detach h => do
    let p ← w.handle h
    let (w1, p1) ← w.dropRef p
    return w1.setHandle h (some p1)
  | .destroy h => do
    let p ← w.handle h
    let (w1, _) ← w.dropRef p
    return w1.setHandle h none

/-- A history. Client program over SpatialFieldStore.h:299-433. -/
def run (w : PtrWorld) : List Op → Outcome PtrWorld
  | [] => .ok w
  | o :: os => w.step o >>= fun w' => w'.run os

end PtrWorld
end SpatialOps
