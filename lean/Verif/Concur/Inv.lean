import Verif.Concur.Spec
import Verif.NeboPar.Race
import Verif.Fork.PoolFacts

/-!
# The invariant of concurrent thread-parallel assignments

What each caller would do alone is laid down in a `Plan`; the invariant says that
every caller has come as far in its plan as its own steps have brought it.
-/

namespace SpatialOps.Concur
open Nebo
open Threads (Push Reach Keeps)
open Fork (Runs Same Starts Calm Facts facts)
variable {V : Type}

/-- What the callers do if each is alone: the number of their assignments; for
assignment `b` of caller `c` the number of tasks, their code, what each writes, the
memory it ends with and the number of its accesses; and the memory before the
assignment. `F c`: the blocks written by others. -/
structure Plan (V : Type) where
  stmts : Nat → Nat
  num : Nat → Nat → Nat
  act : Nat → Nat → Nat → Nebo.Act V
  M : Nat → Nat → Mem V
  W : Nat → Nat → Nat → Nat → Int → Prop
  fin : Nat → Nat → Nat → Mem V
  len : Nat → Nat → Nat → Nat
  F : Nat → Nat → Prop

def Plan.All (P : Plan V) (c b blk : Nat) (a : Int) : Prop := ∃ k, k < P.num c b ∧ P.W c b k blk a

/-- What a task must not read unless it writes it itself. -/
def Plan.Off (P : Plan V) (c b blk : Nat) (a : Int) : Prop := P.All c b blk a ∨ P.F c blk

structure Plan.Good [Add V] [Mul V] (P : Plan V) (progs : List (List (Stmt V))) (m0 : Mem V) : Prop where
  stmt : ∀ c b, (progs[c]?.bind (·[b]?)).isSome ↔ b < P.stmts c
  gen : ∀ c b σ m, progs[c]?.bind (·[b]?) = some σ → (∀ blk a, ¬ P.F c blk → m blk a = P.M c b blk a) →
    σ.spawn m = .ok ((List.range (P.num c b)).map (P.act c b))
  runs : ∀ c b k, b < P.stmts c → k < P.num c b →
    Act.Runs (P.W c b k) (P.Off c b) (P.M c b) (P.act c b k) (P.len c b k) (P.fin c b k)
  disj : ∀ c b k k' blk a, b < P.stmts c → k < P.num c b → k' < P.num c b → P.W c b k blk a →
    P.W c b k' blk a → k = k'
  own : ∀ c b k blk a, b < P.stmts c → k < P.num c b → P.W c b k blk a → ¬ P.F c blk
  other : ∀ c b k blk a c', b < P.stmts c → k < P.num c b → P.W c b k blk a → c' ≠ c → P.F c' blk
  first : ∀ c, P.M c 0 = m0
  next1 : ∀ c b k blk a, b < P.stmts c → k < P.num c b → P.W c b k blk a →
    P.M c (b + 1) blk a = P.fin c b k blk a
  next2 : ∀ c b blk a, b < P.stmts c → ¬ P.All c b blk a → P.M c (b + 1) blk a = P.M c b blk a

namespace Pc

/-- The assignment a caller is at. -/
def b : Pc → Nat
  | start b | call b _ | enter b _ | test b _ | asleep b _ | woken b _ | leave b _ => b

/-- The caller is inside the call. -/
def inside : Pc → Bool
  | start _ => false
  | _ => true

/-- How many tasks have been scheduled, of `N`. -/
def given (N : Nat) : Pc → Nat
  | start _ => 0
  | call _ k => k
  | _ => N

/-- How often the semaphore has been decremented. -/
def taken : Pc → Nat
  | start _ | call _ _ => 0
  | enter _ w | test _ w | asleep _ w | woken _ w => w
  | leave _ w => w + 1

/-- The caller holds the mutex. -/
def holds : Pc → Bool
  | test _ _ | leave _ _ => true
  | _ => false

/-- Bounds of the loops. -/
def Bounded (N : Nat) : Pc → Prop
  | start _ => True
  | call _ k => k ≤ N
  | enter _ w => w ≤ N
  | test _ w | asleep _ w | woken _ w | leave _ w => w < N

end Pc

/-- The task has posted. -/
def Phase.posted : Phase V → Bool
  | .noted | .over => true
  | _ => false

/-- The task holds the mutex. -/
def Phase.holds : Phase V → Bool
  | .held | .noted => true
  | _ => false

/-- How many tasks of an assignment have posted. -/
def posted (s : Sys V) (c b N : Nat) : Nat := (List.range N).countP fun k => (s.phase (c, b, k)).posted

/-- A task has come as far as it would have come alone; `left` accesses are left. -/
def TaskOk (P : Plan V) (mem : Mem V) (c b k left : Nat) : Phase V → Prop
  | .code A => ∃ v, Act.Runs (P.W c b k) (P.Off c b) v A left (P.fin c b k) ∧
      (∀ blk a, P.W c b k blk a → mem blk a = v blk a) ∧ (∀ blk a, ¬ P.W c b k blk a → v blk a = P.M c b blk a)
  | _ => ∀ blk a, P.W c b k blk a → mem blk a = P.fin c b k blk a

/-- The semaphore of the present call. -/
structure SemOk (P : Plan V) (s : Sys V) (c b : Nat) (p : Pc) (S : Sem) : Prop where
  exist : s.sem c b = some S
  pos : 0 ≤ S.val
  val : S.val + p.taken = posted s c b (P.num c b)
  lockC : S.lock = some .caller ↔ p.holds = true
  lockT : ∀ k, k < P.num c b → (s.phase (c, b, k)).holds = true →
    ∃ i, Runs s.pool i (c, b, k) ∧ S.lock = some (.worker i)
  lockW : ∀ i, S.lock = some (.worker i) →
    ∃ k, k < P.num c b ∧ Runs s.pool i (c, b, k) ∧ (s.phase (c, b, k)).holds = true
  sleep : ∀ w, p = .asleep b w → S.val ≤ 0

structure Inside (P : Plan V) (left : Task → Nat) (s : Sys V) (c b : Nat) (p : Pc) : Prop where
  blt : b < P.stmts c
  num : s.num c = P.num c b
  bnd : p.Bounded (P.num c b)
  task : ∀ k, k < P.num c b → TaskOk P s.mem c b k (left (c, b, k)) (s.phase (c, b, k))
  sem : ∃ S, SemOk P s c b p S
  closing : ∀ w, p = .enter b w → ¬ w < P.num c b → ∀ k, k < P.num c b → s.phase (c, b, k) = .over

/-- State of affairs of caller `c`, which is at `p` in assignment `b`. -/
structure Cinv (P : Plan V) (left : Task → Nat) (s : Sys V) (c b : Nat) (p : Pc) : Prop where
  ble : b ≤ P.stmts c
  sched : ∀ b' k, (c, b', k) ∈ s.pool.scheduled → b' < b ∨ (b' = b ∧ k < p.given (P.num c b))
  sched' : ∀ k, k < p.given (P.num c b) → (c, b, k) ∈ s.pool.scheduled
  past : ∀ b' k, (c, b', k) ∈ s.pool.scheduled → b' < b → s.phase (c, b', k) = .over
  future : ∀ b' k, b < b' ∨ (b' = b ∧ p.inside = false) →
    s.phase (c, b', k) = .code .fail ∧ left (c, b', k) = P.len c b' k
  rest : ∀ blk a, ¬ P.F c blk → ¬ (p.inside = true ∧ P.All c b blk a) → s.mem blk a = P.M c b blk a
  inn : p.inside = true → Inside P left s c b p

structure Inv (push : Push Task) (P : Plan V) (p0 : Threads.Pool Task) (left : Task → Nat) (s : Sys V) : Prop where
  reach : Reach push Calm p0 s.pool
  nodup : s.pool.scheduled.Nodup
  ended : ∀ t ∈ s.pool.finished, s.phase t = .over
  ok : s.bad = false
  each : ∀ c, Cinv P left s c (s.pc c).b (s.pc c)

theorem countP_range {p q : Nat → Bool} {k : Nat} (h : ∀ j, j ≠ k → q j = p j) {N : Nat} (hk : k < N) :
    (List.range N).countP q + (p k).toNat = (List.range N).countP p + (q k).toNat := by
  have same : ∀ N, N ≤ k → (List.range N).countP q = (List.range N).countP p := by
    intro N hN
    refine List.countP_congr fun j hj => ?_
    rw [List.mem_range] at hj
    rw [h j (by omega)]
  induction N with
  | zero => omega
  | succ N ih =>
    rw [List.range_succ, List.countP_append, List.countP_append]
    simp only [List.countP_cons, List.countP_nil]
    by_cases e : k = N
    · subst e
      rw [same k (Nat.le_refl _)]
      cases p k <;> cases q k <;> simp
    · have := ih (by omega)
      rw [h N (fun e' => e e'.symm)]
      omega

theorem countP_full {p : Nat → Bool} {N : Nat} (h : N ≤ (List.range N).countP p) : ∀ k, k < N → p k = true := by
  have h1 : (List.range N).countP p = (List.range N).length := by
    have := List.countP_le_length (p := p) (l := List.range N)
    rw [List.length_range] at this ⊢
    omega
  intro k hk
  exact List.countP_eq_length.1 h1 k (List.mem_range.2 hk)

section
variable {push : Push Task} {P : Plan V} {left left' : Task → Nat} {s s' : Sys V} {c b : Nat} {p : Pc}

theorem posted_congr (h : ∀ k, s'.phase (c, b, k) = s.phase (c, b, k)) (N : Nat) :
    posted s' c b N = posted s c b N := by
  unfold posted
  refine List.countP_congr fun k _ => ?_
  rw [h]

/-- Steps that do not concern caller `c`. -/
theorem Cinv.frame (h : Cinv P left s c b p)
    (hnum : s'.num c = s.num c) (hph : ∀ b k, s'.phase (c, b, k) = s.phase (c, b, k))
    (hleft : ∀ b k, left' (c, b, k) = left (c, b, k))
    (hsem : ∀ b, s'.sem c b = s.sem c b) (hmem : ∀ blk a, ¬ P.F c blk → s'.mem blk a = s.mem blk a)
    (hown : ∀ k blk a, b < P.stmts c → k < P.num c b → P.W c b k blk a → ¬ P.F c blk)
    (hsch : ∀ b k, (c, b, k) ∈ s'.pool.scheduled ↔ (c, b, k) ∈ s.pool.scheduled)
    (hrun : ∀ i b k, Runs s.pool i (c, b, k) → (s.phase (c, b, k)).holds = true → Runs s'.pool i (c, b, k)) :
    Cinv P left' s' c b p := by
  refine ⟨h.ble, ?_, ?_, ?_, ?_, ?_, ?_⟩
  · intro b' k hk; exact h.sched b' k ((hsch b' k).1 hk)
  · intro k hk; exact (hsch _ k).2 (h.sched' k hk)
  · intro b' k hk hb
    rw [hph]
    exact h.past b' k ((hsch b' k).1 hk) hb
  · intro b' k hk
    rw [hph, hleft]
    exact h.future b' k hk
  · intro blk a hF hA
    rw [hmem blk a hF]
    exact h.rest blk a hF hA
  · intro hin
    have I := h.inn hin
    obtain ⟨S, hS⟩ := I.sem
    refine ⟨I.blt, hnum.trans I.num, I.bnd, ?_, ⟨S, (hsem b).trans hS.exist, hS.pos, ?_, hS.lockC, ?_, ?_, hS.sleep⟩, ?_⟩
    · intro k hk
      have ht := I.task k hk
      rw [hph, hleft]
      cases e : s.phase (c, b, k) with
      | code A =>
        rw [e] at ht
        obtain ⟨v, h1, h2, h3⟩ := ht
        refine ⟨v, h1, fun blk a hw => ?_, h3⟩
        rw [hmem blk a (hown k blk a I.blt hk hw)]
        exact h2 blk a hw
      | _ =>
        rw [e] at ht
        intro blk a hw
        rw [hmem blk a (hown k blk a I.blt hk hw)]
        exact ht blk a hw
    · rw [posted_congr (hph b), hS.val]
    · intro k hk hh
      rw [hph] at hh
      obtain ⟨i, h1, h2⟩ := hS.lockT k hk hh
      exact ⟨i, hrun i b k h1 hh, h2⟩
    · intro i hi
      obtain ⟨k, h1, h2, h3⟩ := hS.lockW i hi
      exact ⟨k, h1, hrun i b k h2 h3, by rw [hph]; exact h3⟩
    · intro w hw hge k hk
      rw [hph]
      exact I.closing w hw hge k hk

end
end SpatialOps.Concur
