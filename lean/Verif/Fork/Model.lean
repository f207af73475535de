import Verif.Threads.Model

/-!
# Model of a client that hands batches of jobs to a thread pool

spatialops/threadpool/example/mergesort/mergesort.cpp, the way the pool is meant to
be used by a program of its own: schedule a batch of jobs that work on shared
memory, `wait()`, schedule the next batch. The pool is the transition system of
area Threads (pool_core.hpp); what is added here is the client's program, the shared
memory and what the jobs do between two of their memory accesses.

One client uses the pool. Jobs do not throw, and nobody resizes, clears or shuts down
the pool while the program runs. Memory is sequentially consistent at the level of
single accesses.
-/

namespace SpatialOps.Fork
open Threads

/-- The next thing a job does with the shared memory. What happens between two
accesses is private to the job and part of the change of its local state.
mergesort.cpp:96-112. -/
inductive Op (V L : Type) where
  /-- read cell `c` and continue depending on the value -/
  | read (c : Nat) (k : V → L)
  /-- write `v` into cell `c` and continue -/
  | write (c : Nat) (v : V) (l : L)
  /-- the job returns -/
  | ret

/-- A job: a function object handed to `schedule`, mergesort.cpp:165-167. Its code is
given access by access. -/
structure Job (V L : Type) where
  init : L
  code : L → Op V L

/-- Write of one cell. mergesort.cpp:109. -/
def upd {V : Type} (m : Nat → V) (c : Nat) (v : V) : Nat → V := fun d => if d = c then v else m d

/-- One memory access of a job; `none` once it has returned. mergesort.cpp:96-112. -/
def Job.next {V L : Type} (j : Job V L) (l : L) (m : Nat → V) : Option (L × (Nat → V)) :=
  match j.code l with
  | .read c k => some (k (m c), m)
  | .write c v l' => some (l', upd m c v)
  | .ret => none

/-- The jobs of a program in batches: the inner list are the jobs scheduled between
two calls of `wait()`, mergesort.cpp:156-171. -/
abbrev Prog (V L : Type) := List (List (Job V L))

/-- A job is identified by the number of its batch and its number in the batch.
mergesort.cpp:156, 162. -/
abbrev Task := Nat × Nat

/-- The job of a task. mergesort.cpp:165. -/
def job {V L : Type} (prog : Prog V L) (t : Task) : Option (Job V L) := prog[t.1]?.bind (·[t.2]?)

/-- Where the client is: about to make call number `k` of batch `b` (`schedule`, or
`wait` when all jobs of the batch are scheduled), or inside the `wait` of batch `b`.
mergesort.cpp:156-171. -/
inductive Pc where
  | call (b k : Nat)
  | inWait (b : Nat)
  deriving DecidableEq, Repr

/-- The pool, the shared memory, the local state of the task each worker executes,
and the client. mergesort.cpp:139, 152-171. -/
structure Sys (V L : Type) where
  pool : Pool Task
  mem : Nat → V
  loc : Nat → Option L
  pc : Pc

/-- Moves of the client, of the workers and of the system. mergesort.cpp:156-171 and
detail/pool_core.hpp:172-438. -/
inductive Move where
  /-- the client schedules its next job; `who` is the sleeper picked by `notify_one` -/
  | schedule (who : Option Nat)
  /-- the client calls `wait()` -/
  | wait
  | clientResume
  | clientSpurious
  /-- `wait()` has returned and the client goes on -/
  | ret
  | fetch (i : Nat)
  | resume (i : Nat)
  | spurious (i : Nat)
  /-- one memory access by the job of worker `i` -/
  | work (i : Nat)
  | finish (i : Nat)
  | exit (i : Nat)
  deriving DecidableEq, Repr

namespace Sys
variable {V L : Type}

/-- The program starts with a pool and a memory. mergesort.cpp:139-153. -/
def start (p : Pool Task) (m : Nat → V) : Sys V L := ⟨p, m, fun _ => none, .call 0 0⟩

/-- Worker `i` has looked for a task; if it has got one, the job is at its
beginning. detail/pool_core.hpp:417-425. -/
def began (prog : Prog V L) (s : Sys V L) (i : Nat) (p : Pool Task) : Sys V L :=
  match p.workers[i]? with
  | some (.running t) =>
    { s with pool := p, loc := fun i' => if i' = i then (job prog t).map (·.init) else s.loc i' }
  | _ => { s with pool := p }

/-- One move; `none` if it is not possible. mergesort.cpp:96-112, 156-171,
detail/pool_core.hpp:172-438. -/
def step (push : Push Task) (prog : Prog V L) (s : Sys V L) : Move → Option (Sys V L)
  | .schedule who => match s.pc with
    | .call b k => match prog[b]? with
      | some js =>
        if k < js.length then
          (s.pool.step push (.schedule (b, k) who)).map fun p => { s with pool := p, pc := .call b (k + 1) }
        else none
      | none => none
    | .inWait _ => none
  | .wait => match s.pc with
    | .call b k => match prog[b]? with
      | some js =>
        if k < js.length then none
        else (s.pool.step push (.wait (.tasks 0))).map fun p => { s with pool := p, pc := .inWait b }
      | none => none
    | .inWait _ => none
  | .clientResume => match s.pc with
    | .inWait b => (s.pool.step push (.clientResume b)).map fun p => { s with pool := p }
    | .call _ _ => none
  | .clientSpurious => match s.pc with
    | .inWait b => (s.pool.step push (.clientSpurious b)).map fun p => { s with pool := p }
    | .call _ _ => none
  | .ret => match s.pc with
    | .inWait b => match s.pool.clients[b]? with
      | some (.returned _) => some { s with pc := .call (b + 1) 0 }
      | _ => none
    | .call _ _ => none
  | .fetch i => (s.pool.step push (.fetch i)).map (began prog s i)
  | .resume i => (s.pool.step push (.resume i)).map (began prog s i)
  | .spurious i => (s.pool.step push (.spurious i)).map fun p => { s with pool := p }
  | .work i => match s.pool.workers[i]? with
    | some (.running t) => match job prog t, s.loc i with
      | some j, some l => (j.next l s.mem).map fun r =>
        { s with mem := r.2, loc := fun i' => if i' = i then some r.1 else s.loc i' }
      | _, _ => none
    | _ => none
  | .finish i => match s.pool.workers[i]? with
    | some (.running t) => match job prog t, s.loc i with
      | some j, some l => match j.code l with
        | .ret => (s.pool.step push (.finish i)).map fun p => { s with pool := p }
        | _ => none
      | _, _ => none
    | _ => none
  | .exit i => (s.pool.step push (.exit i)).map fun p => { s with pool := p }

/-- A run. mergesort.cpp:152-171. -/
def run (push : Push Task) (prog : Prog V L) (s : Sys V L) : List Move → Option (Sys V L)
  | [] => some s
  | a :: as => (s.step push prog a).bind fun s' => s'.run push prog as

end Sys

/-- The jobs of the merge sort example: step `s + 1` merges the two halves of each of
the partitions of `2^(s+1)` elements; `merge pos len` is the job
`merge_job(data, pos, len)`. mergesort.cpp:134-135, 156-169. -/
def sortProg {V L : Type} (merge : Nat → Nat → Job V L) (exponent : Nat) : Prog V L :=
  (List.range exponent).map fun s =>
    let size := 2 ^ (s + 1)
    (List.range (2 ^ exponent / size)).map fun partition => merge (partition * size) size

/-- The pool of the merge sort example: `pool tp; tp.size_controller().resize(5)`; the
system grants `made` of the five threads. mergesort.cpp:152-153, pool.hpp:93-98,
size_policies.hpp:89-96. -/
def examplePool (made : Nat) : Pool Task := (Pool.create 0 0).resize 5 made

end SpatialOps.Fork
