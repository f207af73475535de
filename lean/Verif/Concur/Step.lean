import Verif.Concur.Inv
import Mathlib.Algebra.BigOperators.Intervals

/-!
# Every step keeps the invariant
-/

namespace SpatialOps.Concur
open Nebo
open Threads (Push Reach Keeps)
open Fork (Runs Same Starts Calm Facts facts)
variable {V : Type}

section
variable {push : Push Task} {P : Plan V} {left left' : Task → Nat} {s s' : Sys V} {c b : Nat} {p p' : Pc}

theorem runs_inj {q : Threads.Pool Task} {i : Nat} {t t' : Task} (h : Runs q i t) (h' : Runs q i t') : t = t' := by
  unfold Runs at h h'
  rw [h] at h'
  injection h' with h'
  injection h' with h'

/-- A step of one task of caller `c` in the present call. -/
theorem Cinv.work (h : Cinv P left s c b p) (hin : p.inside = true) {k l : Nat} {q : Phase V} (hk : k < P.num c b)
    (hdisj : ∀ k' blk a, k' < P.num c b → P.W c b k' blk a → P.W c b k blk a → k' = k)
    (hph : ∀ u, s'.phase u = if u = (c, b, k) then q else s.phase u) (hnum : s'.num c = s.num c)
    (hpool : s'.pool = s.pool)
    (hmem : ∀ blk a, ¬ P.W c b k blk a → s'.mem blk a = s.mem blk a)
    (hleft : ∀ u, left' u = if u = (c, b, k) then l else left u)
    (htask : TaskOk P s'.mem c b k l q) (hno : s.phase (c, b, k) ≠ .over)
    (hp' : p' = p ∨ ∃ w, p = .asleep b w ∧ p' = .woken b w)
    (hsem : ∃ S', SemOk P s' c b p' S') : Cinv P left' s' c b p' := by
  have I := h.inn hin
  have hin' : p'.inside = true := by
    rcases hp' with rfl | ⟨w, rfl, rfl⟩
    · exact hin
    · rfl
  have hgiv : p'.given (P.num c b) = p.given (P.num c b) := by
    rcases hp' with rfl | ⟨w, rfl, rfl⟩ <;> rfl
  have hbnd : p'.Bounded (P.num c b) := by
    have := I.bnd
    rcases hp' with rfl | ⟨w, rfl, rfl⟩ <;> exact this
  have hne : ∀ b' k', b' ≠ b → ((c, b', k') : Task) ≠ (c, b, k) := by
    intro b' k' hb e
    injection e with _ e
    injection e with e _
    exact hb e
  refine ⟨h.ble, ?_, ?_, ?_, ?_, ?_, fun _ => ⟨I.blt, hnum.trans I.num, hbnd, ?_, hsem, ?_⟩⟩
  · intro b' k' hk'
    rw [hpool] at hk'
    rw [hgiv]
    exact h.sched b' k' hk'
  · intro k' hk'
    rw [hgiv] at hk'
    rw [hpool]
    exact h.sched' k' hk'
  · intro b' k' hk' hb
    rw [hpool] at hk'
    rw [hph, if_neg (hne b' k' (by omega))]
    exact h.past b' k' hk' hb
  · intro b' k' hb
    have hb' : b < b' := by
      rcases hb with hb | ⟨_, hb⟩
      · exact hb
      · rw [hin'] at hb; cases hb
    rw [hph, hleft, if_neg (hne b' k' (by omega)), if_neg (hne b' k' (by omega))]
    exact h.future b' k' (Or.inl hb')
  · intro blk a hF hA
    have hA' : ¬ P.All c b blk a := fun hc => hA ⟨hin', hc⟩
    rw [hmem blk a fun hw => hA' ⟨k, hk, hw⟩]
    exact h.rest blk a hF fun hc => hA' hc.2
  · intro k' hk'
    by_cases e : k' = k
    · subst e
      rw [hph, hleft, if_pos rfl, if_pos rfl]
      exact htask
    · have e' : ((c, b, k') : Task) ≠ (c, b, k) := by
        intro e'
        injection e' with _ e'
        injection e' with _ e'
        exact e e'
      rw [hph, hleft, if_neg e', if_neg e']
      have ht := I.task k' hk'
      have hm : ∀ blk a, P.W c b k' blk a → s'.mem blk a = s.mem blk a :=
        fun blk a hw => hmem blk a fun hw' => e (hdisj k' blk a hk' hw hw')
      cases eph : s.phase (c, b, k') with
      | code A =>
        rw [eph] at ht
        obtain ⟨v, h1, h2, h3⟩ := ht
        exact ⟨v, h1, fun blk a hw => (hm blk a hw).trans (h2 blk a hw), h3⟩
      | _ =>
        rw [eph] at ht
        exact fun blk a hw => (hm blk a hw).trans (ht blk a hw)
  · intro w hw hge
    rcases hp' with rfl | ⟨w', rfl, rfl⟩
    · exact absurd (I.closing w hw hge k hk) hno
    · cases hw

/-- The semaphore when a task proceeds without touching it. -/
theorem SemOk.same {S : Sem} (h : SemOk P s c b p S) (hsem : s'.sem c b = s.sem c b)
    (hph : ∀ k, (s'.phase (c, b, k)).posted = (s.phase (c, b, k)).posted ∧
      (s'.phase (c, b, k)).holds = (s.phase (c, b, k)).holds)
    (hrun : ∀ i k, Runs s.pool i (c, b, k) → Runs s'.pool i (c, b, k)) : SemOk P s' c b p S := by
  refine ⟨hsem.trans h.exist, h.pos, ?_, h.lockC, ?_, ?_, h.sleep⟩
  · rw [h.val]
    unfold posted
    congr 1
    refine List.countP_congr fun k _ => ?_
    rw [(hph k).1]
  · intro k hk hh
    rw [(hph k).2] at hh
    obtain ⟨i, h1, h2⟩ := h.lockT k hk hh
    exact ⟨i, hrun i k h1, h2⟩
  · intro i hi
    obtain ⟨k, h1, h2, h3⟩ := h.lockW i hi
    exact ⟨k, h1, hrun i k h2, by rw [(hph k).2]; exact h3⟩

/-- A step of the caller within the present call: only its place and the semaphore
change. -/
theorem Cinv.caller (h : Cinv P left s c b p) (hin : p.inside = true) (hin' : p'.inside = true)
    (hph : s'.phase = s.phase) (hnum : s'.num c = s.num c) (hpool : s'.pool = s.pool) (hmem : s'.mem = s.mem)
    (hgiv : p'.given (P.num c b) = p.given (P.num c b)) (hbnd : p'.Bounded (P.num c b))
    (hsem : ∃ S', SemOk P s' c b p' S')
    (hclose : ∀ w, p' = .enter b w → ¬ w < P.num c b → ∀ k, k < P.num c b → s.phase (c, b, k) = .over) :
    Cinv P left s' c b p' := by
  have I := h.inn hin
  refine ⟨h.ble, ?_, ?_, ?_, ?_, ?_, fun _ => ⟨I.blt, hnum.trans I.num, hbnd, ?_, hsem, ?_⟩⟩
  · rw [hpool, hgiv]; exact h.sched
  · rw [hpool, hgiv]; exact h.sched'
  · rw [hpool, hph]; exact h.past
  · rw [hph]
    intro b' k hb
    rcases hb with hb | ⟨_, hb⟩
    · exact h.future b' k (Or.inl hb)
    · rw [hin'] at hb; cases hb
  · rw [hmem]
    intro blk a hF hA
    exact h.rest blk a hF fun hc => hA ⟨hin', hc.2⟩
  · rw [hmem, hph]; exact I.task
  · rw [hph]; exact hclose

/-- The semaphore after a step of the caller. -/
theorem SemOk.caller {S S' : Sem} (h : SemOk P s c b p S) (hsem : s'.sem c b = some S')
    (hph : s'.phase = s.phase) (hpool : s'.pool = s.pool) (hpos : 0 ≤ S'.val)
    (hval : S'.val + p'.taken = S.val + p.taken) (hlc : S'.lock = some .caller ↔ p'.holds = true)
    (hlw : ∀ i, S'.lock = some (.worker i) ↔ S.lock = some (.worker i))
    (hsl : ∀ w, p' = .asleep b w → S'.val ≤ 0) : SemOk P s' c b p' S' := by
  refine ⟨hsem, hpos, ?_, hlc, ?_, ?_, hsl⟩
  · rw [hval, h.val]
    unfold posted
    rw [hph]
  · rw [hph, hpool]
    intro k hk hh
    obtain ⟨i, h1, h2⟩ := h.lockT k hk hh
    exact ⟨i, h1, (hlw i).2 h2⟩
  · rw [hph, hpool]
    intro i hi
    exact h.lockW i ((hlw i).1 hi)

end

/-! ## What is still to be done -/

/-- Cost of a task. -/
def Phase.cost (left : Nat) : Phase V → Nat
  | .code _ => left + 8
  | .toLock => 7
  | .held => 6
  | .noted => 2
  | .over => 1

/-- Cost of the assignments of caller `c` from `b` on. -/
def Plan.tail (P : Plan V) (c b : Nat) : Nat := ∑ b' ∈ Finset.Ico b (P.stmts c), (13 * P.num c b' + 3)

/-- Cost of a caller. -/
def Pc.cost (P : Plan V) (c : Nat) : Pc → Nat
  | start b => P.tail c b
  | call b k => 7 * (P.num c b - k) + 6 * P.num c b + 2 + P.tail c (b + 1)
  | enter b w => 6 * (P.num c b - w) + 1 + P.tail c (b + 1)
  | test b w => 6 * (P.num c b - w) + P.tail c (b + 1)
  | asleep b w => 6 * (P.num c b - w) - 1 + P.tail c (b + 1)
  | woken b w => 6 * (P.num c b - w) + 1 + P.tail c (b + 1)
  | leave b w => 6 * (P.num c b - w) - 2 + P.tail c (b + 1)

def Plan.tasks (P : Plan V) (nc : Nat) : Finset Task :=
  (Finset.range nc).biUnion fun c => (Finset.range (P.stmts c)).biUnion fun b =>
    (Finset.range (P.num c b)).image fun k => (c, b, k)

theorem Plan.mem_tasks {P : Plan V} {nc c b k : Nat} (h1 : c < nc) (h2 : b < P.stmts c) (h3 : k < P.num c b) :
    (c, b, k) ∈ P.tasks nc := by
  unfold Plan.tasks
  rw [Finset.mem_biUnion]
  refine ⟨c, Finset.mem_range.2 h1, ?_⟩
  rw [Finset.mem_biUnion]
  exact ⟨b, Finset.mem_range.2 h2, Finset.mem_image.2 ⟨k, Finset.mem_range.2 h3, rfl⟩⟩

/-- Bound on what is still to be done. -/
def todo (P : Plan V) (nc : Nat) (left : Task → Nat) (s : Sys V) : Nat :=
  Threads.fuel s.pool + (∑ t ∈ P.tasks nc, (s.phase t).cost (left t)) +
    ∑ c ∈ Finset.range nc, (s.pc c).cost P c

theorem sum_change {ι : Type} [DecidableEq ι] {S : Finset ι} {f g : ι → Nat} {x : ι} (hx : x ∈ S)
    (h : ∀ y ∈ S, y ≠ x → g y = f y) : S.sum g + f x = S.sum f + g x := by
  rw [← Finset.add_sum_erase S f hx, ← Finset.add_sum_erase S g hx]
  have : ∑ y ∈ S.erase x, g y = ∑ y ∈ S.erase x, f y :=
    Finset.sum_congr rfl fun y hy => h y (Finset.mem_of_mem_erase hy) (Finset.ne_of_mem_erase hy)
  omega

theorem tail_at {P : Plan V} {c b : Nat} (h : b < P.stmts c) :
    P.tail c b = 13 * P.num c b + 3 + P.tail c (b + 1) := by
  unfold Plan.tail
  rw [Finset.sum_eq_sum_Ico_succ_bot h]

end SpatialOps.Concur
