import Verif.First.Model
import Verif.Sync.Spec

/-!
# Specification vocabulary for the first use of the library's pools
-/

namespace SpatialOps.First

open Threads (Pool Push Act)
open Sync (Mgr upd)

/-- The calls made one after the other by a single thread, each with its value: a pool is created and registered, as a whole,
before the first call about it. Between calls the workers of the pools do what they do. -/
inductive Serial {T : Type} (push : Push T) (nt : Nat) : List (Nat × Call × Int) → Mgr T → Prop
  | none : Serial push nt [] Mgr.empty
  | first {h m} (id made : Nat) : Serial push nt h m → Serial push nt h (m.self id nt made)
  | pool {h m m'} (id : Nat) (a : Act T) : Serial push nt h m → m.step push (.pool id a) = some m' → Serial push nt h m'
  | call {h m} (i : Nat) (c : Call) (made : Nat) : Serial push nt h m → m.pools c.pool ≠ Option.none →
      Serial push nt (h ++ [(i, c, (c.run m made).1)]) (c.run m made).2

/-- What a call has to return, whatever other threads do: `resize_pool(n)` its argument, `set_pool_capacity(n)` the number in
effect, and the questions a number of threads (not -1, which stands for an unknown pool). -/
def Call.Answered : Call → Int → Prop
  | .resizePool _ n, v => v = n
  | .setCapacity _ n, v => v = max 1 n
  | .poolSize _, v => 0 ≤ v
  | .capacity _, v => 0 ≤ v

/-- All threads have made all their calls. -/
def St.through {T : Type} (s : St T) : Prop := ∀ t ∈ s.threads, t.todo = []

/-- Two threads are about to access the member `init_` of pool `id`, one of them in order to write it. Neither access is
guarded: this is a data race. -/
def St.Race {T : Type} (s : St T) (id : Nat) : Prop :=
  ∃ (i j : Nat) (c c' : Call) (r r' : List Call), i ≠ j ∧ c.pool = id ∧ c'.pool = id ∧ s.threads[i]? = some ⟨.mark, c :: r⟩ ∧
    (s.threads[j]? = some ⟨.test, c' :: r'⟩ ∨ s.threads[j]? = some ⟨.mark, c' :: r'⟩)

/-- Thread `i` is in `self()` of pool `id`. -/
def St.inSelf {T : Type} (s : St T) (i id : Nat) : Prop :=
  ∃ pc c r, s.threads[i]? = some ⟨pc, c :: r⟩ ∧ c.pool = id ∧ pc ∈ [Pc.making, .test, .insert, .inserting, .mark]

/-- The step is one of a thread that makes calls. -/
def Move.ofThread {T : Type} : Move T → Bool
  | .thread _ _ => true
  | .world _ _ => false

/-- The step is one of thread `k` or of a worker. -/
def Move.only {T : Type} (k : Nat) : Move T → Prop
  | .thread i _ => i = k
  | .world _ _ => True

/-- The results of registering pool `id`, in order: `false` comes with the warning that the pool already exists. -/
def St.registrations {T : Type} (s : St T) (id : Nat) : List Bool := (s.inserts.filter (·.2.1 = id)).map (·.2.2)

/-- The calls thread `i` has made, in order. -/
def St.made {T : Type} (s : St T) (i : Nat) : List Call := (s.log.filter (·.1 = i)).map (·.2.1)

end SpatialOps.First
