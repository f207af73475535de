import Verif.NeboPar.Model
import Verif.Threads.Model

/-!
# Model of threads that perform thread-parallel assignments on one pool

Several threads of a program (callers), each performing a list of thread-parallel
assignments, NeboLhs.h:171-226. All of them hand their partition tasks to the one pool
`ThreadPoolFIFO::self()`, the transition system of area Threads
(detail/pool_core.hpp); the tasks are those of area NeboPar, memory access by memory
access; and each call has a semaphore of its own among its local variables
(NeboLhs.h:180), taken apart here into the steps of locking its mutex, changing its
value and unlocking (Semaphore.h:29-44). The semaphore ceases to exist when the call
returns, and a task holds a plain pointer to it (NeboLhs.h:209-215).

Nobody resizes, clears or shuts down the pool meanwhile. Memory is sequentially
consistent at the level of single accesses.
-/

namespace SpatialOps.Concur
open Nebo
open Threads (Push)

/-- One assignment `lhs <<= rhs` (`useGhost`) or `interior_assign(lhs, rhs)`, run in as
many parts as the field says. NeboLhs.h:171-226, NeboAssignment.h:28-59. -/
structure Stmt (V : Type) where
  useGhost : Bool
  lhs : FieldObj
  count : Int
  rhs : Expr V .num

/-- The partition tasks of an assignment, NeboLhs.h:182-218. The expression is resized
(and its single-value fields are read) when the call begins, NeboLhs.h:203. -/
def Stmt.spawn {V : Type} [Add V] [Mul V] (σ : Stmt V) (m : Mem V) : Outcome (List (Nebo.Act V)) := do
  let s ← parallelAssign σ.useGhost σ.lhs σ.count σ.rhs m
  return s.tasks.filterMap id

/-- Task `k` of assignment `b` of caller `c`. NeboLhs.h:208-216. -/
abbrev Task := Nat × Nat × Nat

/-- Where a caller is in its assignment `b`. NeboLhs.h:171-226, Semaphore.h:39-44. -/
inductive Pc where
  /-- about to begin assignment `b`; everything before has returned -/
  | start (b : Nat)
  /-- in the scheduling loop, `k` tasks scheduled, NeboLhs.h:208-218 -/
  | call (b k : Nat)
  /-- in the waiting loop, `w` waits done, NeboLhs.h:220 -/
  | enter (b w : Nat)
  /-- in `wait()`, holding the mutex, at the test of the loop -/
  | test (b w : Nat)
  /-- in `wait()`, asleep in `cond_.wait` -/
  | asleep (b w : Nat)
  /-- in `wait()`, woken and in need of the mutex -/
  | woken (b w : Nat)
  /-- in `wait()`, past the decrement, about to unlock -/
  | leave (b w : Nat)
  deriving DecidableEq, Repr

/-- How far a task is. NeboLhs.h:402-414, Semaphore.h:29-33. -/
inductive Phase (V : Type) where
  /-- still to perform these accesses -/
  | code (A : Nebo.Act V)
  /-- in `post()`, about to lock -/
  | toLock
  /-- in `post()`, holding the mutex -/
  | held
  /-- in `post()`, value incremented and waiter notified, about to unlock -/
  | noted
  /-- `post()` has returned -/
  | over

/-- Who holds a mutex. Semaphore.h:30, 40. -/
inductive Who where
  | caller
  | worker (i : Nat)
  deriving DecidableEq, Repr

/-- `Semaphore`: its value and who holds its mutex. Semaphore.h:46-49. -/
structure Sem where
  val : Int
  lock : Option Who
  deriving DecidableEq, Repr

/-- The pool, the memory of the fields, the tasks, the semaphores of the calls (`none`:
does not exist), how many tasks the present call of each caller has, the callers, and
whether anybody has used a semaphore that does not exist, or destroyed one whose mutex
is held (undefined behaviour). NeboLhs.h:171-226. -/
structure Sys (V : Type) where
  pool : Threads.Pool Task
  mem : Mem V
  phase : Task → Phase V
  sem : Nat → Nat → Option Sem
  num : Nat → Nat
  pc : Nat → Pc
  bad : Bool

/-- Steps of the callers, of the workers and of the system. NeboLhs.h:171-226,
detail/pool_core.hpp:172-438. -/
inductive Move where
  /-- the next step of caller `c`, if it is not a call of `schedule` -/
  | caller (c : Nat)
  /-- caller `c` schedules its next task; `who` is the sleeping worker picked by
  `notify_one` -/
  | schedule (c : Nat) (who : Option Nat)
  /-- spurious wake-up of caller `c` -/
  | callerSpurious (c : Nat)
  | fetch (i : Nat)
  | resume (i : Nat)
  | spurious (i : Nat)
  /-- the next step of the task that worker `i` executes -/
  | work (i : Nat)
  | finish (i : Nat)
  | exit (i : Nat)
  deriving DecidableEq, Repr

namespace Sys
variable {V : Type}

/-- Before the first assignment. NeboLhs.h:171. -/
def init (p : Threads.Pool Task) (m : Mem V) : Sys V :=
  ⟨p, m, fun _ => .code .fail, fun _ _ => none, fun _ => 0, fun _ => .start 0, false⟩

/-- Caller `c` goes to `p`. NeboLhs.h:171-226. -/
def goto (s : Sys V) (c : Nat) (p : Pc) : Sys V := { s with pc := fun c' => if c' = c then p else s.pc c' }

/-- Task `t` proceeds. NeboLhs.h:402-414. -/
def advance (s : Sys V) (t : Task) (p : Phase V) : Sys V := { s with phase := fun u => if u = t then p else s.phase u }

/-- New state (`none`: destroyed) of the semaphore of assignment `b` of caller `c`.
Semaphore.h:46-49. -/
def setSem (s : Sys V) (c b : Nat) (S : Option Sem) : Sys V :=
  { s with sem := fun c' b' => if c' = c ∧ b' = b then S else s.sem c' b' }

/-- A use of the semaphore of assignment `b` of caller `c`. NeboLhs.h:215, 220, 413. -/
def use (s : Sys V) (c b : Nat) (f : Sem → Option (Sys V)) : Option (Sys V) :=
  match s.sem c b with
  | none => some { s with bad := true }
  | some S => f S

/-- The next step of caller `c`. NeboLhs.h:180-220, Semaphore.h:39-44. -/
def callerStep [Add V] [Mul V] (progs : List (List (Stmt V))) (s : Sys V) (c : Nat) : Option (Sys V) :=
  match s.pc c with
  | .start b =>
    match progs[c]?.bind (·[b]?) with
    | none => none
    | some σ =>
      match σ.spawn s.mem with
      | .ok As =>
        let s1 := { s with
          phase := fun t => if t.1 = c ∧ t.2.1 = b then .code (As[t.2.2]?.getD .fail) else s.phase t
          num := fun c' => if c' = c then As.length else s.num c' }
        some ((s1.setSem c b (some ⟨0, none⟩)).goto c (.call b 0))
      | _ => none
  | .call b k => if k < s.num c then none else some (s.goto c (.enter b 0))
  | .enter b w => s.use c b fun S =>
    if w < s.num c then
      if S.lock = none then some ((s.setSem c b (some { S with lock := some .caller })).goto c (.test b w)) else none
    else
      let s1 := { s with bad := s.bad || S.lock.isSome }
      some ((s1.setSem c b none).goto c (.start (b + 1)))
  | .test b w => s.use c b fun S =>
    if S.val ≤ 0 then some ((s.setSem c b (some { S with lock := none })).goto c (.asleep b w))
    else some ((s.setSem c b (some { S with val := S.val - 1 })).goto c (.leave b w))
  | .asleep _ _ => none
  | .woken b w => s.use c b fun S =>
    if S.lock = none then some ((s.setSem c b (some { S with lock := some .caller })).goto c (.test b w)) else none
  | .leave b w => s.use c b fun S => some ((s.setSem c b (some { S with lock := none })).goto c (.enter b (w + 1)))

/-- `notify_one` on the semaphore of assignment `b`: the only thread that can be asleep
there is the caller. Semaphore.h:32. -/
def notified (b : Nat) : Pc → Pc
  | .asleep b' w => if b' = b then .woken b' w else .asleep b' w
  | p => p

/-- The next step of task `t`, executed by worker `i`. NeboLhs.h:402-414, 441-457,
Semaphore.h:29-33. A task that throws (`fail`) is not followed any further. -/
def taskStep (s : Sys V) (i : Nat) (t : Task) : Option (Sys V) :=
  match s.phase t with
  | .code .fail => none
  | .code (.read b a k) => some (s.advance t (.code (k (s.mem b a))))
  | .code (.write b a v k) =>
    let s1 := { s with mem := s.mem.write b a v }
    some (s1.advance t (.code k))
  | .code .done => some (s.advance t .toLock)
  | .toLock => s.use t.1 t.2.1 fun S =>
    if S.lock = none then some ((s.setSem t.1 t.2.1 (some { S with lock := some (.worker i) })).advance t .held) else none
  | .held => s.use t.1 t.2.1 fun S =>
    some (((s.setSem t.1 t.2.1 (some { S with val := S.val + 1 })).goto t.1 (notified t.2.1 (s.pc t.1))).advance t .noted)
  | .noted => s.use t.1 t.2.1 fun S =>
    some ((s.setSem t.1 t.2.1 (some { S with lock := none })).advance t .over)
  | .over => none

/-- One step; `none` if it is not possible. NeboLhs.h:171-226, 402-414,
detail/pool_core.hpp:172-438. -/
def step [Add V] [Mul V] (push : Push Task) (progs : List (List (Stmt V))) (s : Sys V) : Move → Option (Sys V)
  | .caller c => s.callerStep progs c
  | .schedule c who => match s.pc c with
    | .call b k =>
      if k < s.num c then
        (s.pool.step push (.schedule (c, b, k) who)).map fun p => { s with pool := p }.goto c (.call b (k + 1))
      else none
    | _ => none
  | .callerSpurious c => match s.pc c with
    | .asleep b w => some (s.goto c (.woken b w))
    | _ => none
  | .fetch i => (s.pool.step push (.fetch i)).map fun p => { s with pool := p }
  | .resume i => (s.pool.step push (.resume i)).map fun p => { s with pool := p }
  | .spurious i => (s.pool.step push (.spurious i)).map fun p => { s with pool := p }
  | .work i => match s.pool.workers[i]? with
    | some (.running t) => s.taskStep i t
    | _ => none
  | .finish i => match s.pool.workers[i]? with
    | some (.running t) => match s.phase t with
      | .over => (s.pool.step push (.finish i)).map fun p => { s with pool := p }
      | _ => none
    | _ => none
  | .exit i => (s.pool.step push (.exit i)).map fun p => { s with pool := p }

/-- A run. NeboLhs.h:171-226. -/
def run [Add V] [Mul V] (push : Push Task) (progs : List (List (Stmt V))) (s : Sys V) : List Move → Option (Sys V)
  | [] => some s
  | a :: as => (s.step push progs a).bind fun s' => s'.run push progs as

end Sys
end SpatialOps.Concur
