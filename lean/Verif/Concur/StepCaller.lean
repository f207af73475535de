import Verif.Concur.StepTask

/-!
# Steps of the callers and of the pool keep the invariant
-/

namespace SpatialOps.Concur
open Nebo
open Threads (Push Reach Keeps)
open Fork (Runs Same Starts Calm Facts facts)
variable {V : Type} [Add V] [Mul V]

variable {push : Push Task} {P : Plan V} {progs : List (List (Stmt V))} {m0 : Mem V} {n made : Nat}
  {left : Task → Nat} {s s' : Sys V}

/-- A step of caller `c`. -/
theorem inv_own (hP : P.Good progs m0) (h : Inv push P (Threads.Pool.create n made) left s) {c : Nat}
    (hC : Cinv P left s' c (s'.pc c).b (s'.pc c)) (hpool : s'.pool = s.pool) (hmem : s'.mem = s.mem)
    (hbad : s'.bad = false) (hph : ∀ c' b k, c' ≠ c → s'.phase (c', b, k) = s.phase (c', b, k))
    (hnum : ∀ c', c' ≠ c → s'.num c' = s.num c') (hsem : ∀ c' b, c' ≠ c → s'.sem c' b = s.sem c' b)
    (hpc : ∀ c', c' ≠ c → s'.pc c' = s.pc c') (hend : ∀ t ∈ s.pool.finished, s'.phase t = .over) :
    Inv push P (Threads.Pool.create n made) left s' := by
  refine ⟨by rw [hpool]; exact h.reach, by rw [hpool]; exact h.nodup, by rw [hpool]; exact hend, hbad, fun c' => ?_⟩
  by_cases e : c' = c
  · subst e; exact hC
  · rw [hpc c' e]
    exact (h.each c').frame (hnum c' e) (fun b k => hph c' b k e) (fun _ _ => rfl) (fun b => hsem c' b e)
      (fun _ _ _ => by rw [hmem]) (fun k blk a h1 h2 hw => hP.own c' _ k blk a h1 h2 hw) (by rw [hpool]; simp)
      (by rw [hpool]; intro _ _ _ h _; exact h)

omit [Add V] [Mul V] in
theorem todo_own {nc c : Nat} (hc : c < nc)
    (hcost : ∀ t, (s'.phase t).cost (left t) = (s.phase t).cost (left t))
    (hpc : ∀ c', c' ≠ c → s'.pc c' = s.pc c') :
    todo P nc left s' + (s.pc c).cost P c + Threads.fuel s.pool =
      todo P nc left s + (s'.pc c).cost P c + Threads.fuel s'.pool := by
  unfold todo
  have h1 : ∑ t ∈ P.tasks nc, (s'.phase t).cost (left t) = ∑ t ∈ P.tasks nc, (s.phase t).cost (left t) :=
    Finset.sum_congr rfl fun t _ => hcost t
  have h2 := sum_change (S := Finset.range nc) (f := fun c => (s.pc c).cost P c)
    (g := fun c => (s'.pc c).cost P c) (Finset.mem_range.2 hc) (by
      intro y _ hy
      rw [hpc y hy])
  beta_reduce at h2
  omega

section
variable {c b w : Nat}

omit [Add V] [Mul V] in
theorem goto_pc (s : Sys V) (c : Nat) (p : Pc) : (s.goto c p).pc c = p := if_pos rfl

omit [Add V] [Mul V] in
theorem goto_ne (s : Sys V) {c c' : Nat} (p : Pc) (h : c' ≠ c) : (s.goto c p).pc c' = s.pc c' := if_neg h

/-- A step of caller `c` within its call: only its place and its semaphore change. -/
theorem inv_within (hP : P.Good progs m0) (h : Inv push P (Threads.Pool.create n made) left s) {p : Pc} {S S' : Sem}
    (hin : (s.pc c).inside = true) (hb : (s.pc c).b = b) (hS : SemOk P s c b (s.pc c) S)
    (hpin : p.inside = true) (hpb : p.b = b)
    (hgiv : p.given (P.num c b) = (s.pc c).given (P.num c b)) (hbnd : p.Bounded (P.num c b))
    (hpos : 0 ≤ S'.val) (hval : S'.val + p.taken = S.val + (s.pc c).taken)
    (hlc : S'.lock = some .caller ↔ p.holds = true)
    (hlw : ∀ i, S'.lock = some (.worker i) ↔ S.lock = some (.worker i))
    (hsl : ∀ w, p = .asleep b w → S'.val ≤ 0)
    (hclose : ∀ w, p = .enter b w → ¬ w < P.num c b → ∀ k, k < P.num c b → s.phase (c, b, k) = .over) :
    Inv push P (Threads.Pool.create n made) left ((s.setSem c b (some S')).goto c p) ∧
      todo P progs.length left ((s.setSem c b (some S')).goto c p) + (s.pc c).cost P c =
        todo P progs.length left s + p.cost P c := by
  have hC : Cinv P left s c b (s.pc c) := hb ▸ h.each c
  have hsem : ∀ c' b', ((s.setSem c b (some S')).goto c p).sem c' b' = if c' = c ∧ b' = b then some S' else s.sem c' b' :=
    fun _ _ => rfl
  refine ⟨inv_own hP h (c := c) ?_ rfl rfl h.ok (fun _ _ _ _ => rfl) (fun _ _ => rfl) ?_ (fun c' e => goto_ne _ _ e) h.ended, ?_⟩
  · rw [goto_pc, hpb]
    refine hC.caller hin hpin rfl rfl rfl rfl hgiv hbnd
      ⟨S', hS.caller (by rw [hsem, if_pos ⟨rfl, rfl⟩]) rfl rfl hpos hval hlc hlw hsl⟩ hclose
  · intro c' b' e
    rw [hsem, if_neg (fun h => e h.1)]
  · have := todo_own (P := P) (left := left) (s := s) (s' := (s.setSem c b (some S')).goto c p)
      (hP.caller_lt (hC.inn hin).blt) (fun _ => rfl) (fun c' e => goto_ne _ _ e)
    rw [goto_pc] at this
    have e : Threads.fuel ((s.setSem c b (some S')).goto c p).pool = Threads.fuel s.pool := rfl
    omega

theorem inv_start (hp : Keeps push) (hP : P.Good progs m0) (h : Inv push P (Threads.Pool.create n made) left s)
    {σ : Stmt V} {As : List (Nebo.Act V)} (e : s.pc c = .start b) (hσ : progs[c]?.bind (·[b]?) = some σ)
    (hA : σ.spawn s.mem = .ok As) :
    Inv push P (Threads.Pool.create n made) left
      ((Sys.setSem { s with
          phase := fun t => if t.1 = c ∧ t.2.1 = b then .code (As[t.2.2]?.getD .fail) else s.phase t
          num := fun c' => if c' = c then As.length else s.num c' } c b (some ⟨0, none⟩)).goto c (.call b 0)) ∧
      todo P progs.length left ((Sys.setSem { s with
          phase := fun t => if t.1 = c ∧ t.2.1 = b then .code (As[t.2.2]?.getD .fail) else s.phase t
          num := fun c' => if c' = c then As.length else s.num c' } c b (some ⟨0, none⟩)).goto c (.call b 0)) + 1 ≤
        todo P progs.length left s := by
  generalize hs' : ((Sys.setSem { s with
          phase := fun t => if t.1 = c ∧ t.2.1 = b then .code (As[t.2.2]?.getD .fail) else s.phase t
          num := fun c' => if c' = c then As.length else s.num c' } c b (some ⟨0, none⟩)).goto c (.call b 0)) = s'
  have hC : Cinv P left s c b (.start b) := by
    have := h.each c
    rw [e] at this
    exact this
  have F := facts hp h.reach h.nodup
  have hblt : b < P.stmts c := (hP.stmt c b).1 (by rw [hσ]; rfl)
  have hM : ∀ blk a, ¬ P.F c blk → s.mem blk a = P.M c b blk a :=
    fun blk a hF => hC.rest blk a hF (fun hh => by cases hh.1)
  have hAs : As = (List.range (P.num c b)).map (P.act c b) := by
    have := hP.gen c b σ s.mem hσ hM
    rw [hA] at this
    injection this
  have hlen : As.length = P.num c b := by rw [hAs]; simp
  have hget : ∀ k, k < P.num c b → As[k]?.getD .fail = P.act c b k := by
    intro k hk
    rw [hAs, List.getElem?_map, List.getElem?_range hk]
    rfl
  have hpool : s'.pool = s.pool := by rw [← hs']; rfl
  have hmem : s'.mem = s.mem := by rw [← hs']; rfl
  have hph : ∀ t, s'.phase t = if t.1 = c ∧ t.2.1 = b then .code (As[t.2.2]?.getD .fail) else s.phase t := by
    intro t; rw [← hs']; rfl
  have hpcc : s'.pc c = .call b 0 := by rw [← hs']; exact goto_pc _ _ _
  have hpcO : ∀ c', c' ≠ c → s'.pc c' = s.pc c' := by
    intro c' e; rw [← hs']; exact goto_ne _ _ e
  have hnum : s'.num c = P.num c b := by
    rw [← hs', ← hlen]; exact if_pos rfl
  have hsem : s'.sem c b = some ⟨0, none⟩ := by
    rw [← hs']; exact if_pos ⟨rfl, rfl⟩
  have hfree : ∀ k, (c, b, k) ∉ s.pool.scheduled := by
    intro k hk
    rcases hC.sched b k hk with hh | ⟨_, hh⟩
    · omega
    · exact absurd hh (Nat.not_lt_zero _)
  constructor
  · refine inv_own hP h (c := c) ?_ hpool hmem (by rw [← hs']; exact h.ok) ?_ ?_ ?_ hpcO ?_
    · rw [hpcc]
      refine ⟨hC.ble, ?_, fun k hk => absurd hk (Nat.not_lt_zero _), ?_, ?_, ?_, fun _ => ⟨hblt, hnum, Nat.zero_le _, ?_,
        ⟨⟨0, none⟩, hsem, Int.le_refl _, ?_, ?_, ?_, ?_, ?_⟩, ?_⟩⟩
      · rw [hpool]; exact hC.sched
      · intro b' k hk hb
        rw [hpool] at hk
        have hb : b' < b := hb
        rw [hph, if_neg (by rintro ⟨_, h⟩; have h : b' = b := h; omega)]
        exact hC.past b' k hk hb
      · intro b' k hb
        have hb : b < b' := by
          rcases hb with hb | ⟨_, hb⟩
          · exact hb
          · cases hb
        rw [hph, if_neg (by rintro ⟨_, h⟩; have h : b' = b := h; omega)]
        exact hC.future b' k (Or.inl hb)
      · intro blk a hF _
        rw [hmem]
        exact hM blk a hF
      · intro k hk
        rw [hph, if_pos ⟨rfl, rfl⟩, hmem]
        dsimp only
        rw [show As[k]?.getD .fail = P.act c b k from hget k hk]
        refine ⟨P.M c b, ?_, fun blk a hw => hM blk a (hP.own c b k blk a hblt hk hw), fun _ _ _ => rfl⟩
        show Act.Runs (P.W c b k) (P.Off c b) (P.M c b) (P.act c b k) (left (c, b, k)) (P.fin c b k)
        rw [(hC.future b k (Or.inr ⟨rfl, rfl⟩)).2]
        exact hP.runs c b k hblt hk
      · have : posted s' c b (P.num c b) = 0 := by
          unfold posted
          rw [List.countP_eq_zero]
          intro k _
          rw [hph, if_pos ⟨rfl, rfl⟩]
          intro hc; cases hc
        show (0 : Int) + ((0 : Nat) : Int) = ((posted s' c b (P.num c b) : Nat) : Int)
        rw [this]; rfl
      · constructor <;> intro hc <;> cases hc
      · intro k _ hh
        rw [show (Pc.call b 0).b = b from rfl, hph, if_pos ⟨rfl, rfl⟩] at hh
        cases hh
      · intro i hi; cases hi
      · intro w hw; cases hw
      · intro w hw; cases hw
    · intro c' b' k hc
      rw [hph, if_neg (fun h => hc h.1)]
    · intro c' hc
      rw [← hs']
      exact if_neg hc
    · intro c' b' hc
      rw [← hs']
      exact if_neg (fun h => hc h.1)
    · rintro ⟨c', b', k⟩ ht
      rw [hph, if_neg]
      · exact h.ended _ ht
      · rintro ⟨e1, e2⟩
        dsimp only at e1 e2
        subst e1; subst e2
        exact hfree k ((F.sched _).2 (Or.inl ((F.start _).2 (Or.inl ht))))
  · have := todo_own (P := P) (left := left) (s := s) (s' := s') (hP.caller_lt hblt) (by
      intro t
      rw [hph]
      split
      · rename_i ht
        obtain ⟨c', b', k⟩ := t
        obtain ⟨e1, e2⟩ := ht
        dsimp only at e1 e2
        subst e1; subst e2
        rw [(hC.future b' k (Or.inr ⟨rfl, rfl⟩)).1]
        rfl
      · rfl) hpcO
    rw [hpcc, e, hpool, show (Pc.start b).cost P c = P.tail c b from rfl, tail_at hblt,
      show (Pc.call b 0).cost P c = 7 * (P.num c b - 0) + 6 * P.num c b + 2 + P.tail c (b + 1) from rfl] at this
    omega

theorem inv_destroy (hP : P.Good progs m0) (h : Inv push P (Threads.Pool.create n made) left s)
    {S : Sem} (e : s.pc c = .enter b w) (hw : ¬ w < s.num c) (hS : s.sem c b = some S) :
    Inv push P (Threads.Pool.create n made) left
      ((Sys.setSem { s with bad := s.bad || S.lock.isSome } c b none).goto c (.start (b + 1))) ∧
      todo P progs.length left ((Sys.setSem { s with bad := s.bad || S.lock.isSome } c b none).goto c (.start (b + 1))) + 1 ≤
        todo P progs.length left s := by
  generalize hs' : ((Sys.setSem { s with bad := s.bad || S.lock.isSome } c b none).goto c (.start (b + 1))) = s'
  have hC : Cinv P left s c b (.enter b w) := by
    have := h.each c
    rw [e] at this
    exact this
  have I := hC.inn rfl
  have hw' : ¬ w < P.num c b := by rw [← I.num]; exact hw
  have hover := I.closing w rfl hw'
  obtain ⟨S1, hS1⟩ := I.sem
  have : S1 = S := by
    have := hS1.exist
    rw [hS] at this
    injection this with this
    exact this.symm
  subst this
  have hlock : S1.lock = none := by
    cases el : S1.lock with
    | none => rfl
    | some x =>
      cases x with
      | caller => exact absurd (hS1.lockC.1 el) (by simp [Pc.holds])
      | worker i =>
        obtain ⟨k, hk, _, hh⟩ := hS1.lockW i el
        rw [hover k hk] at hh
        cases hh
  have hpool : s'.pool = s.pool := by rw [← hs']; rfl
  have hmem : s'.mem = s.mem := by rw [← hs']; rfl
  have hph : s'.phase = s.phase := by rw [← hs']; rfl
  have hpcc : s'.pc c = .start (b + 1) := by rw [← hs']; exact goto_pc _ _ _
  have hpcO : ∀ c', c' ≠ c → s'.pc c' = s.pc c' := by
    intro c' e; rw [← hs']; exact goto_ne _ _ e
  constructor
  · refine inv_own hP h (c := c) ?_ hpool hmem ?_ ?_ ?_ ?_ hpcO ?_
    · rw [hpcc]
      have hblt := I.blt
      refine ⟨hblt, ?_, fun k hk => absurd hk (Nat.not_lt_zero _), ?_, ?_, ?_, fun hi => by cases hi⟩
      · intro b' k hk
        rw [hpool] at hk
        left
        show b' < b + 1
        rcases hC.sched b' k hk with hh | ⟨hh, _⟩ <;> omega
      · intro b' k hk hb
        rw [hpool] at hk
        have hb : b' < b + 1 := hb
        rw [hph]
        rcases hC.sched b' k hk with hh | ⟨hh, hk'⟩
        · exact hC.past b' k hk hh
        · subst hh
          exact hover k hk'
      · intro b' k hb
        have hb : b < b' := by
          rcases hb with hb | ⟨hb, _⟩
          · have hb : b + 1 < b' := hb
            omega
          · have hb : b' = b + 1 := hb
            omega
        rw [hph]
        exact hC.future b' k (Or.inl hb)
      · intro blk a hF _
        rw [hmem, show (Pc.start (b + 1)).b = b + 1 from rfl]
        by_cases hA : P.All c b blk a
        · obtain ⟨k, hk, hw⟩ := hA
          rw [hP.next1 c b k blk a hblt hk hw]
          have := I.task k hk
          rw [hover k hk] at this
          exact this blk a hw
        · rw [hP.next2 c b blk a hblt hA]
          exact hC.rest blk a hF (fun hh => hA hh.2)
    · rw [← hs']
      show (s.bad || S1.lock.isSome) = false
      rw [h.ok, hlock]; rfl
    · intro c' b' k _; rw [hph]
    · intro c' _; rw [← hs']; rfl
    · intro c' b' hc; rw [← hs']; exact if_neg (fun h => hc h.1)
    · rw [hph]; exact h.ended
  · have := todo_own (P := P) (left := left) (s := s) (s' := s') (hP.caller_lt I.blt) (by
      intro t; rw [hph]) hpcO
    rw [hpcc, e, hpool, show (Pc.start (b + 1)).cost P c = P.tail c (b + 1) from rfl,
      show (Pc.enter b w).cost P c = 6 * (P.num c b - w) + 1 + P.tail c (b + 1) from rfl] at this
    omega

end

theorem inv_caller (hp : Keeps push) (hP : P.Good progs m0) (h : Inv push P (Threads.Pool.create n made) left s) {c : Nat}
    (hs : s.callerStep progs c = some s') :
    Inv push P (Threads.Pool.create n made) left s' ∧
      todo P progs.length left s' + 1 ≤ todo P progs.length left s := by
  have hC := h.each c
  unfold Sys.callerStep at hs
  split at hs
  · rename_i b e
    split at hs
    · cases hs
    · rename_i σ hσ
      split at hs
      · rename_i As hA
        injection hs with hs; subst hs
        exact inv_start hp hP h e hσ hA
      · cases hs
  · rename_i b k e
    rw [e] at hC
    have I := hC.inn rfl
    obtain ⟨S, hS⟩ := I.sem
    have hnum : s.num c = P.num c b := I.num
    split at hs
    · cases hs
    · rename_i hk
      injection hs with hs
      have hbnd : k ≤ P.num c b := I.bnd
      have hk' : k = P.num c b := by omega
      have hcur : s.setSem c b (some S) = s := by
        unfold Sys.setSem
        have : (fun c' b' => if c' = c ∧ b' = b then some S else s.sem c' b') = s.sem := by
          funext c' b'
          split
          · rename_i hh; rw [hh.1, hh.2]; exact hS.exist.symm
          · rfl
        rw [this]
      have := inv_within (c := c) (b := b) hP h (p := .enter b 0) (S := S) (S' := S) (by rw [e]; rfl) (by rw [e]; rfl)
        (by rw [e]; exact hS) rfl rfl (by rw [e]; exact hk'.symm) (Nat.zero_le _) hS.pos (by rw [e]; rfl)
        (by exact hS.lockC) (fun _ => Iff.rfl) (fun w hw => by cases hw) (by
          intro w hw hn k hk
          injection hw with _ hw
          omega)
      rw [hcur, hs] at this
      refine ⟨this.1, ?_⟩
      have h2 := this.2
      rw [e, show (Pc.call b k).cost P c = 7 * (P.num c b - k) + 6 * P.num c b + 2 + P.tail c (b + 1) from rfl,
        show (Pc.enter b 0).cost P c = 6 * (P.num c b - 0) + 1 + P.tail c (b + 1) from rfl] at h2
      omega
  · rename_i b w e
    rw [e] at hC
    have I := hC.inn rfl
    obtain ⟨S, hS⟩ := I.sem
    have hnum : s.num c = P.num c b := I.num
    have hex : s.sem c b = some S := hS.exist
    simp only [Sys.use, hex] at hs
    split at hs
    · rename_i hw
      split at hs
      · rename_i hl
        injection hs with hs
        have := inv_within (c := c) (b := b) hP h (p := .test b w) (S := S) (S' := { S with lock := some .caller })
          (by rw [e]; rfl) (by rw [e]; rfl) (by rw [e]; exact hS) rfl rfl (by rw [e]; rfl)
          (by show w < P.num c b; omega) hS.pos (by rw [e]; rfl) (by simp [Pc.holds]) (by rw [hl]; simp)
          (fun w hw => by cases hw) (by intro w hw; cases hw)
        rw [hs] at this
        refine ⟨this.1, ?_⟩
        have h2 := this.2
        rw [e, show (Pc.enter b w).cost P c = 6 * (P.num c b - w) + 1 + P.tail c (b + 1) from rfl,
          show (Pc.test b w).cost P c = 6 * (P.num c b - w) + P.tail c (b + 1) from rfl] at h2
        omega
      · cases hs
    · rename_i hw
      injection hs with hs; subst hs
      exact inv_destroy hP h e hw hex
  · rename_i b w e
    rw [e] at hC
    have I := hC.inn rfl
    obtain ⟨S, hS⟩ := I.sem
    have hnum : s.num c = P.num c b := I.num
    have hex : s.sem c b = some S := hS.exist
    have hwlt : w < P.num c b := I.bnd
    have hl : S.lock = some .caller := hS.lockC.2 rfl
    simp only [Sys.use, hex] at hs
    split at hs
    · rename_i hv
      injection hs with hs
      have := inv_within (c := c) (b := b) hP h (p := .asleep b w) (S := S) (S' := { S with lock := none })
        (by rw [e]; rfl) (by rw [e]; rfl) (by rw [e]; exact hS) rfl rfl (by rw [e]; rfl)
        hwlt hS.pos (by rw [e]; rfl) (by simp [Pc.holds]) (by rw [hl]; simp)
        (fun w _ => hv) (by intro w hw; cases hw)
      rw [hs] at this
      refine ⟨this.1, ?_⟩
      have h2 := this.2
      rw [e, show (Pc.asleep b w).cost P c = 6 * (P.num c b - w) - 1 + P.tail c (b + 1) from rfl,
        show (Pc.test b w).cost P c = 6 * (P.num c b - w) + P.tail c (b + 1) from rfl] at h2
      omega
    · rename_i hv
      injection hs with hs
      have := inv_within (c := c) (b := b) hP h (p := .leave b w) (S := S) (S' := { S with val := S.val - 1 })
        (by rw [e]; rfl) (by rw [e]; rfl) (by rw [e]; exact hS) rfl rfl (by rw [e]; rfl)
        hwlt (by dsimp only; omega) (by rw [e]; simp only [Pc.taken]; push_cast; omega) (by simp [Pc.holds, hl]) (fun _ => Iff.rfl)
        (fun w hw => by cases hw) (by intro w hw; cases hw)
      rw [hs] at this
      refine ⟨this.1, ?_⟩
      have h2 := this.2
      rw [e, show (Pc.leave b w).cost P c = 6 * (P.num c b - w) - 2 + P.tail c (b + 1) from rfl,
        show (Pc.test b w).cost P c = 6 * (P.num c b - w) + P.tail c (b + 1) from rfl] at h2
      omega
  · cases hs
  · rename_i b w e
    rw [e] at hC
    have I := hC.inn rfl
    obtain ⟨S, hS⟩ := I.sem
    have hex : s.sem c b = some S := hS.exist
    have hwlt : w < P.num c b := I.bnd
    simp only [Sys.use, hex] at hs
    split at hs
    · rename_i hl
      injection hs with hs
      have := inv_within (c := c) (b := b) hP h (p := .test b w) (S := S) (S' := { S with lock := some .caller })
        (by rw [e]; rfl) (by rw [e]; rfl) (by rw [e]; exact hS) rfl rfl (by rw [e]; rfl)
        hwlt hS.pos (by rw [e]; rfl) (by simp [Pc.holds]) (by rw [hl]; simp)
        (fun w hw => by cases hw) (by intro w hw; cases hw)
      rw [hs] at this
      refine ⟨this.1, ?_⟩
      have h2 := this.2
      rw [e, show (Pc.woken b w).cost P c = 6 * (P.num c b - w) + 1 + P.tail c (b + 1) from rfl,
        show (Pc.test b w).cost P c = 6 * (P.num c b - w) + P.tail c (b + 1) from rfl] at h2
      omega
    · cases hs
  · rename_i b w e
    rw [e] at hC
    have I := hC.inn rfl
    obtain ⟨S, hS⟩ := I.sem
    have hex : s.sem c b = some S := hS.exist
    have hwlt : w < P.num c b := I.bnd
    have hl : S.lock = some .caller := hS.lockC.2 rfl
    simp only [Sys.use, hex] at hs
    injection hs with hs
    have := inv_within (c := c) (b := b) hP h (p := .enter b (w + 1)) (S := S) (S' := { S with lock := none })
      (by rw [e]; rfl) (by rw [e]; rfl) (by rw [e]; exact hS) rfl rfl (by rw [e]; rfl)
      (by show w + 1 ≤ P.num c b; omega) hS.pos (by rw [e]; rfl) (by simp [Pc.holds]) (by rw [hl]; simp)
      (fun w hw => by cases hw) (by
        intro w' hw' hge k hk
        injection hw' with _ hw'
        have hv := hS.val
        have hp0 := hS.pos
        simp only [Pc.taken] at hv
        have hfull := countP_full (p := fun k => (s.phase (c, b, k)).posted) (N := P.num c b) (by
          change P.num c b ≤ posted s c b (P.num c b)
          change _ = ((posted s c b (P.num c b) : Nat) : Int) at hv
          push_cast at hv
          omega) k hk
        cases ek : s.phase (c, b, k) with
        | over => rfl
        | noted =>
          obtain ⟨i, _, hi⟩ := hS.lockT k hk (by
            show (s.phase (c, b, k)).holds = true
            rw [ek]; rfl)
          rw [hl] at hi
          cases hi
        | _ =>
          beta_reduce at hfull
          rw [ek] at hfull
          cases hfull)
    rw [hs] at this
    refine ⟨this.1, ?_⟩
    have h2 := this.2
    rw [e, show (Pc.leave b w).cost P c = 6 * (P.num c b - w) - 2 + P.tail c (b + 1) from rfl,
      show (Pc.enter b (w + 1)).cost P c = 6 * (P.num c b - (w + 1)) + 1 + P.tail c (b + 1) from rfl] at h2
    omega

end SpatialOps.Concur
