import Verif.Concur.Model
import Verif.Nebo.Spec
import Verif.Threads.Spec

/-!
# Specification vocabulary for concurrent thread-parallel assignments
-/

namespace SpatialOps.Concur
open Nebo
variable {V : Type}

/-- Memory block `blk` belongs to a field that occurs in the expression. -/
def Mentions (blk : Nat) : {t : Ty} → Expr V t → Prop
  | _, .scalar _ | _, .mask _ => False
  | _, .field f | _, .single f => f.values = some blk
  | _, .maskShift _ a => Mentions blk a
  | _, .un _ a => Mentions blk a
  | _, .bin _ a b | _, .and a b | _, .or a b => Mentions blk a ∨ Mentions blk b
  | _, .cond t a b => Mentions blk t ∨ Mentions blk a ∨ Mentions blk b
  | _, .stencil _ a => Mentions blk a
  | _, .sumStencil _ a => Mentions blk a

/-- The assignment writes into memory block `blk`. -/
def Stmt.Writes (σ : Stmt V) (blk : Nat) : Prop := σ.lhs.values = some blk

/-- The assignment reads or writes memory block `blk`. -/
def Stmt.Uses (σ : Stmt V) (blk : Nat) : Prop := σ.Writes blk ∨ Mentions blk σ.rhs

/-- The assignment is one that C22 and C23 speak about: destination and operands live
on one mesh, the expression has a value at every interior cell of the destination and
reads the destination at most at the cell being assigned, and at least one part is
asked for. -/
def Stmt.Ok (σ : Stmt V) : Prop :=
  ∃ n b, IntVec.Lt 0 n ∧ Target n σ.lhs b ∧ σ.rhs.Wf n ∧
    (∀ c, Interior n σ.lhs c → σ.rhs.DefinedAt n c) ∧ σ.rhs.Independent σ.lhs 0 ∧ 1 ≤ σ.count

/-- Assignments performed one after another by a single thread. -/
def inTurn [Add V] [Mul V] : List (Stmt V) → Mem V → Outcome (Mem V)
  | [], m => .ok m
  | σ :: rest, m => sequentialAssign σ.useGhost σ.lhs σ.rhs m >>= inTurn rest

/-- No caller writes memory that another caller reads or writes. -/
def Apart (progs : List (List (Stmt V))) : Prop :=
  ∀ (c c' : Nat) (p p' : List (Stmt V)), progs[c]? = some p → progs[c']? = some p' → c ≠ c' →
    ∀ σ ∈ p, ∀ σ' ∈ p', ∀ blk, σ'.Writes blk → ¬ σ.Uses blk

/-- Some caller other than `c` writes into block `blk`. -/
def Foreign (progs : List (List (Stmt V))) (c blk : Nat) : Prop :=
  ∃ (c' : Nat) (p' : List (Stmt V)), c' ≠ c ∧ progs[c']? = some p' ∧ ∃ σ ∈ p', σ.Writes blk

/-- Steps that are not spurious wake-ups. -/
def proper : Move → Bool
  | .spurious _ => false
  | .callerSpurious _ => false
  | _ => true

/-- Every caller has returned from its last assignment. -/
def Finished (progs : List (List (Stmt V))) (s : Sys V) : Prop :=
  ∀ (c : Nat) (p : List (Stmt V)), progs[c]? = some p → s.pc c = .start p.length

/-- Worker `i` is about to perform this access to an element: `true` for a write. -/
def About (s : Sys V) (i : Nat) (blk : Nat) (a : Int) (w : Bool) : Prop :=
  ∃ t, s.pool.workers[i]? = some (.running t) ∧
    ((w = false ∧ ∃ k, s.phase t = .code (.read blk a k)) ∨ (w = true ∧ ∃ v k, s.phase t = .code (.write blk a v k)))

end SpatialOps.Concur
