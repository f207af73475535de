import Verif.NeboGpu.Model

/-!
# Model of programs that use GPU streams

`lhs <<= rhs` on a GPU launches a kernel in the stream of the destination
(`SpatialField::set_stream`, SpatialField.h:419-421; stream 0 unless it is called, 566) and returns.
Only the debug build waits for the stream, before and after the launch (NeboLhs.h:272-286, 301-313).
Copies between devices and host use `cudaMemcpy` and `cudaMemcpyPeer` (CudaMemoryAllocator.cu:99-140),
hence the default stream.

The rules of the CUDA runtime that are modelled: the jobs of a stream run one after the other; a job
of the default stream 0 runs after all jobs issued earlier in streams that are not created with
`cudaStreamNonBlocking`, and jobs issued in these streams later run after it; there is no other order
among jobs. Everything happens on one device. The host is one thread.
-/

namespace SpatialOps
namespace Str
open Nebo

/-- Who executes a step of the program: the host itself, a stream, or the host waiting for a stream (NeboLhs.h:272-313). -/
inductive Kind where
  | host
  | dev (s : Nat)
  | wait (s : Nat)
  deriving DecidableEq, Repr

/-- A step of the program: its remaining accesses (one list entry per thread, `none` once the thread
has ended; NeboLhs.h:461-535) and whether it is over. -/
structure Item (V : Type) where
  kind : Kind
  tasks : List (Option (Act V))
  over : Bool

/-- The steps of the program, how many of them the host has passed, and the memory (of host and
device, SpatialField.h:126-140). -/
structure St (V : Type) where
  items : List (Item V)
  pc : Nat
  mem : Mem V

/-- Whether a job in stream `t` waits for the earlier jobs in stream `s`; `blocking` are the streams
created without `cudaStreamNonBlocking` (streams of NeboLhs.h:288-299; 0 for SpatialField.h:566 and
CudaMemoryAllocator.cu:107, 129). -/
def ordered (blocking : Nat → Bool) (s t : Nat) : Bool :=
  s == t || (s == 0 && blocking t) || (t == 0 && blocking s)

/-- Step `j` may run now. The host executes its own steps in turn; `cudaStreamSynchronize`
(NeboLhs.h:275, 302) returns when the jobs of the stream are over; a job runs after the jobs it is
ordered after. -/
def Active {V : Type} (blocking : Nat → Bool) (s : St V) (j : Nat) : Prop :=
  ∃ it, s.items[j]? = some it ∧ it.over = false ∧
    match it.kind with
    | .host => j = s.pc
    | .wait t => j = s.pc ∧ ∀ i it', i < j → s.items[i]? = some it' → it'.kind = .dev t → it'.over = true
    | .dev t => j < s.pc ∧ ∀ i it' t', i < j → s.items[i]? = some it' → it'.kind = .dev t' →
        ordered blocking t' t = true → it'.over = true

/-- One access, or the end, of one thread (NeboLhs.h:482-516): new remainder and new memory. -/
inductive TaskStep {V : Type} : List (Option (Act V)) → Mem V → List (Option (Act V)) → Mem V → Prop where
  | read {ts : List (Option (Act V))} {m : Mem V} {i b a k} : ts[i]? = some (some (.read b a k)) →
      TaskStep ts m (ts.set i (some (k (m b a)))) m
  | write {ts : List (Option (Act V))} {m : Mem V} {i b a v k} : ts[i]? = some (some (.write b a v k)) →
      TaskStep ts m (ts.set i (some k)) (m.write b a v)
  | stop {ts : List (Option (Act V))} {m : Mem V} {i} : ts[i]? = some (some .done) → TaskStep ts m (ts.set i none) m

/-- What the end of a step means for the host: it goes on after its own steps (NeboLhs.h:272-313). -/
def Kind.pass : Kind → Nat → Nat
  | .dev _, pc => pc
  | .host, pc | .wait _, pc => pc + 1

/-- One step of host and device (NeboLhs.h:272-313): a thread of a running step does something, a running step all of whose
threads have ended is over (the host then passes it, if it is its own), or the host launches a job. -/
inductive Step {V : Type} (blocking : Nat → Bool) : St V → St V → Prop where
  | task {s : St V} {j it ts m} : Active blocking s j → s.items[j]? = some it → TaskStep it.tasks s.mem ts m →
      Step blocking s { s with items := s.items.set j { it with tasks := ts }, mem := m }
  | finish {s : St V} {j it} : Active blocking s j → s.items[j]? = some it → (∀ t ∈ it.tasks, t = none) →
      Step blocking s { s with
        items := s.items.set j { it with over := true }
        pc := it.kind.pass s.pc }
  | issue {s : St V} {it t} : s.items[s.pc]? = some it → it.kind = .dev t → Step blocking s { s with pc := s.pc + 1 }

/-- A statement of a program: `lhs <<= e` or `interior_assign` with the stream the destination has then
(NeboLhs.h:239-319); a copy of `n` elements between two blocks, for whose end the host waits if it is to or
from the host (CudaMemoryAllocator.cu:99-140, `cudaMemcpy`) and does not wait between devices
(`cudaMemcpyPeer`, device to device); accesses of the host, as in an assignment on the CPU
(NeboLhs.h:136-169); `cudaStreamSynchronize` called by the program. -/
inductive Op (V : Type) where
  | assign (useGhost : Bool) (l : FieldObj) (stream : Nat) (e : Expr V .num)
  | copy (dst src : Nat) (n : Nat) (waits : Bool)
  | host (A : Act V)
  | sync (s : Nat)

/-- The accesses of a copy, CudaMemoryAllocator.cu:107, 129: elements `i, i + 1, ...`, `n` of them. -/
def copyActs {V : Type} (dst src : Nat) : Nat → Int → Act V
  | 0, _ => .done
  | n + 1, i => .read src i fun v => .write dst i v (copyActs dst src n (i + 1))

/-- The steps of a statement. The threads of an assignment are those of NeboLhs.h:239-319 (the checks of its
arguments are those of the debug build); the debug build waits before and after, NeboLhs.h:272-286, 301-313. -/
def Op.items {V : Type} [Add V] [Mul V] (debug : Bool) (m : Mem V) : Op V → Outcome (List (Item V))
  | .assign useGhost l s e => do
    let k ← gpuAssign useGhost l e m
    let job : Item V := ⟨.dev s, k.tasks, false⟩
    return if debug then [⟨.wait s, [], false⟩, job, ⟨.wait s, [], false⟩] else [job]
  | .copy dst src n waits =>
    let job : Item V := ⟨.dev 0, [some (copyActs dst src n 0)], false⟩
    .ok (if waits then [job, ⟨.wait 0, [], false⟩] else [job])
  | .host A => .ok [⟨.host, [some A], false⟩]
  | .sync s => .ok [⟨.wait s, [], false⟩]

/-- The steps of a program (NeboLhs.h:239-319, CudaMemoryAllocator.cu:99-140). `m` is passed to `gpuAssign`, which stores it only. -/
def items {V : Type} [Add V] [Mul V] (debug : Bool) (m : Mem V) : List (Op V) → Outcome (List (Item V))
  | [] => .ok []
  | o :: p => do
    let a ← o.items debug m
    let b ← items debug m p
    return a ++ b

/-- The state in which a program starts (SpatialField.h:566). -/
def begin {V : Type} [Add V] [Mul V] (debug : Bool) (p : List (Op V)) (m : Mem V) : Outcome (St V) := do
  let l ← items debug m p
  return ⟨l, 0, m⟩

end Str
end SpatialOps
