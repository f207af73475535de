import Verif.Fork.Model

/-!
# Specification vocabulary for batches of jobs

A job run alone, jobs run one after another, and when the jobs of a batch do not
disturb each other.
-/

namespace SpatialOps.Fork
variable {V L : Type}

/-- Job `j` run alone makes `n` accesses, from one local state and memory to another. -/
inductive Steps (j : Job V L) : Nat → L → (Nat → V) → L → (Nat → V) → Prop
  | refl {l : L} {m : Nat → V} : Steps j 0 l m l m
  | read {n : Nat} {l l1 : L} {m m1 : Nat → V} {c : Nat} {k : V → L} :
      Steps j n l m l1 m1 → j.code l1 = .read c k → Steps j (n + 1) l m (k (m1 c)) m1
  | write {n : Nat} {l l1 l2 : L} {m m1 : Nat → V} {c : Nat} {v : V} :
      Steps j n l m l1 m1 → j.code l1 = .write c v l2 →
      Steps j (n + 1) l m l2 (fun d => if d = c then v else m1 d)

/-- Job `j` run alone on memory `m` returns after `n` accesses, leaving memory `m'`. -/
def Solo (j : Job V L) (m : Nat → V) (n : Nat) (m' : Nat → V) : Prop :=
  ∃ l, Steps j n j.init m l m' ∧ j.code l = .ret

/-- The jobs run one after another on memory `m` all return, and leave memory `m'`. -/
inductive Seq : List (Job V L) → (Nat → V) → (Nat → V) → Prop
  | nil {m : Nat → V} : Seq [] m m
  | cons {j : Job V L} {js : List (Job V L)} {n : Nat} {m m1 m' : Nat → V} :
      Solo j m n m1 → Seq js m1 m' → Seq (j :: js) m m'

/-- The access is a read of a cell in `acc` or a write of a cell in `wr`. -/
def Allowed (acc wr : Nat → Prop) : Op V L → Prop
  | .read c _ => acc c
  | .write c _ _ => wr c
  | .ret => True

/-- The job only accesses cells in `acc` and only writes cells in `wr`. -/
def Within (j : Job V L) (acc wr : Nat → Prop) : Prop :=
  (∀ c, wr c → acc c) ∧ ∀ l, Allowed acc wr (j.code l)

/-- No job writes a cell that another job of the same batch reads or writes. -/
def RaceFree (prog : Prog V L) : Prop :=
  ∃ acc wr : Task → Nat → Prop,
    (∀ t j, job prog t = some j → Within j (acc t) (wr t)) ∧
    ∀ b k k' c, (job prog (b, k)).isSome → (job prog (b, k')).isSome → wr (b, k) c → acc (b, k') c → k = k'

/-- Moves that are not spurious wake-ups. -/
def proper : Move → Bool
  | .spurious _ => false
  | .clientSpurious => false
  | _ => true

/-- Contents of `len` cells from `pos` on. -/
def cells (m : Nat → V) (pos len : Nat) : List V := (List.range len).map fun i => m (pos + i)

/-- `merge pos len` is a job that merges the two halves of `[pos, pos + len)` the way
`std::inplace_merge` promises: it accesses nothing else, and if both halves are
sorted it returns, with the cells holding the stable merge of the two. -/
structure InplaceMerge (le : V → V → Bool) (merge : Nat → Nat → Job V L) : Prop where
  within : ∀ pos len, Within (merge pos len) (fun c => pos ≤ c ∧ c < pos + len) (fun c => pos ≤ c ∧ c < pos + len)
  merges : ∀ pos half (m : Nat → V),
    (cells m pos half).Pairwise (fun a b => le a b) → (cells m (pos + half) half).Pairwise (fun a b => le a b) →
    ∃ n m', Solo (merge pos (2 * half)) m n m' ∧
      cells m' pos (2 * half) = List.merge (cells m pos half) (cells m (pos + half) half) le

end SpatialOps.Fork
