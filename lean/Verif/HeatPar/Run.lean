import Verif.HeatPar.Spec
import Verif.Flat.Props
import Verif.NeboPar.Props

/-!
# Programs with threads on meshes of any dimension
-/

namespace SpatialOps
namespace Heat

open Nebo

variable {V : Type} [Add V] [Mul V]

/-- A divided assignment on a mesh of any dimension. -/
theorem flat_parallel {n : IntVec} (hn : IntVec.Lt 0 n) {g : GhostData} (hg : Moderate g) {l : FieldObj} {b : Nat}
    (ht : FlatTarget n g l b) (e : Expr V .num) (he : e.FlatWf n g) (hd : ∀ c, FlatInterior n l c → e.FlatDefined n c)
    (hi : e.Independent l 0) (count : Int) (hc : 1 ≤ count) (m : Mem V) :
    ∃ s0 m', parallelAssign true l count e m = .ok s0 ∧ assign l e m = .ok m' ∧
      (∃ bound, ∀ k s, ParRun s0 k s → k ≤ bound) ∧
      ∀ k s, ParRun s0 k s → ¬ Race s ∧ (s.waits ≠ 0 → ∃ s', ParStep s s') ∧
        (s.waits = 0 → s.mem = m' ∧ ∀ t ∈ s.tasks, t = none) := by
  obtain ⟨pg, hpg, hint, hc0⟩ := flat_ready hn hg ht e he hd
  exact C23_parallel_any_mesh (flatMesh n g) l b (flatTarget_target ht) e (flat_wf e he) hi pg hpg hint (emb n g 0) hc0 count hc m

/-- What a ready action does. -/
theorem ready_sound {n : IntVec} (hn : IntVec.Lt 0 n) {g : GhostData} (hg : Moderate g) {c : Cmd V} (h : c.Ready n g) (m : Mem V) :
    ∃ m', c.seq m = .ok m' ∧ ∀ st k, c = .asg st → st.parts = some k →
      ∃ s0, parallelAssign st.ghost st.t k st.e m = .ok s0 ∧ (∃ bound, ∀ k s, ParRun s0 k s → k ≤ bound) ∧
        ∀ k s, ParRun s0 k s → ¬ Race s ∧ (s.waits ≠ 0 → ∃ s', ParStep s s') ∧ (s.waits = 0 → s.mem = m') := by
  cases h with
  | host hf =>
    obtain ⟨m', h⟩ := hf m
    exact ⟨m', h, fun _ _ e => by cases e⟩
  | @asg t e b parts ht he hd hi hp =>
    obtain ⟨-, m', -, h2, -⟩ := flat_parallel hn hg ht e he hd hi 1 le_rfl m
    refine ⟨m', h2, fun st k est ek => ?_⟩
    injection est with est
    subst est
    obtain ⟨s0, m'', a1, a2, a3, a4⟩ := flat_parallel hn hg ht e he hd hi k (hp k ek) m
    rw [h2] at a2
    injection a2 with a2
    subst a2
    exact ⟨s0, a1, a3, fun j s hj => ⟨(a4 j s hj).1, (a4 j s hj).2.1, fun hw => ((a4 j s hj).2.2 hw).1⟩⟩

theorem seqCmds_append (p q : List (Cmd V)) (m : Mem V) : seqCmds (p ++ q) m = seqCmds p m >>= seqCmds q := by
  induction p generalizing m with
  | nil => rfl
  | cons s r ih =>
    simp only [List.cons_append, seqCmds]
    cases s.seq m with
    | ok a => simp only [Outcome.ok_bind, ih]
    | _ => rfl

theorem seqCmds_divide (p : Nat → Option Int) (cs : List (Cmd V)) (m : Mem V) : seqCmds (divide p cs) m = seqCmds cs m := by
  induction cs generalizing p m with
  | nil => rfl
  | cons c r ih =>
    cases c with
    | host f =>
      simp only [divide, seqCmds]
      cases (Cmd.host f).seq m with
      | ok a => simp only [Outcome.ok_bind, ih]
      | _ => rfl
    | asg st =>
      simp only [divide, seqCmds]
      have : (Cmd.asg { st with parts := p 0 }).seq m = (Cmd.asg st).seq m := rfl
      rw [this]
      cases (Cmd.asg st).seq m with
      | ok a => simp only [Outcome.ok_bind, ih]
      | _ => rfl

omit [Add V] [Mul V] in
theorem ready_divide {n : IntVec} {g : GhostData} (p : Nat → Option Int) (hp : ∀ i k, p i = some k → 1 ≤ k) (cs : List (Cmd V))
    (h : ∀ c ∈ cs, c.Ready n g) : ∀ c ∈ divide p cs, c.Ready n g := by
  induction cs generalizing p with
  | nil => intro c hc; cases hc
  | cons c r ih =>
    have hc := h c (by simp)
    have hr := fun p hp => ih p hp fun c hc => h c (by simp [hc])
    cases hc with
    | host hf =>
      intro c hc
      simp only [divide, List.mem_cons] at hc
      rcases hc with rfl | hc
      · exact .host hf
      · exact hr p hp c hc
    | asg ht he hd hi hk =>
      intro c hc
      simp only [divide, List.mem_cons] at hc
      rcases hc with rfl | hc
      · exact .asg ht he hd hi (hp 0)
      · exact hr _ (fun i => hp (i + 1)) c hc

/-- A ready program runs to its end sequentially, and in bounded time however it is run. -/
theorem total {n : IntVec} (hn : IntVec.Lt 0 n) {g : GhostData} (hg : Moderate g) (prog : List (Cmd V))
    (hp : ∀ c ∈ prog, c.Ready n g) (m : Mem V) :
    ∃ m', seqCmds prog m = .ok m' ∧ ∃ T, ∀ k s, CmdRun (.idle prog m) k s → k ≤ T := by
  induction prog generalizing m with
  | nil =>
    refine ⟨m, rfl, 0, fun k s h => ?_⟩
    have key : ∀ k s, CmdRun (.idle [] m) k s → k = 0 ∧ s = .idle [] m := by
      intro k s h
      induction h with
      | start => exact ⟨rfl, rfl⟩
      | step _ hs ih => rw [ih.2] at hs; cases hs
    exact (key k s h).1.le
  | cons c rest ih =>
    obtain ⟨m1, h2, hpar⟩ := ready_sound hn hg (hp c (by simp)) m
    obtain ⟨m', h3, T, hT⟩ := ih (fun s hs => hp s (by simp [hs])) m1
    refine ⟨m', by simp only [seqCmds, h2, Outcome.ok_bind, h3], ?_⟩
    have one : (∀ s', CmdStep (.idle (c :: rest) m) s' → s' = .idle rest m1) →
        ∀ k s, CmdRun (.idle (c :: rest) m) k s → k ≤ T + 1 := by
      intro h1 k s h
      have key : ∀ k s, CmdRun (.idle (c :: rest) m) k s → (k = 0 ∧ s = .idle (c :: rest) m) ∨
          ∃ j, k = j + 1 ∧ CmdRun (.idle rest m1) j s := by
        intro k s h
        induction h with
        | start => exact .inl ⟨rfl, rfl⟩
        | step _ hs ih =>
          rcases ih with ⟨rfl, e⟩ | ⟨j, rfl, hj⟩
          · rw [e] at hs
            rw [h1 _ hs]
            exact .inr ⟨0, rfl, .start⟩
          · exact .inr ⟨j + 1, rfl, .step hj hs⟩
      rcases key k s h with ⟨rfl, -⟩ | ⟨j, rfl, hj⟩
      · omega
      · have := hT j s hj
        omega
    cases c with
    | host f =>
      refine ⟨T + 1, one fun s' hs => ?_⟩
      cases hs with
      | host h =>
        have h2 : f m = .ok m1 := h2
        rw [h2] at h
        injection h with h
        rw [h]
    | asg st =>
      cases hparts : st.parts with
      | none =>
        refine ⟨T + 1, one fun s' hs => ?_⟩
        cases hs with
        | seq _ h =>
          have h2 : sequentialAssign st.ghost st.t st.e m = .ok m1 := h2
          rw [h2] at h
          injection h with h
          rw [h]
        | fork hk _ => rw [hparts] at hk; cases hk
      | some cnt =>
        obtain ⟨s0, h1, ⟨B, hB⟩, hall⟩ := hpar st cnt rfl hparts
        refine ⟨1 + B + 1 + T, fun k s h => ?_⟩
        have key : ∀ k s, CmdRun (.idle (.asg st :: rest) m) k s → (k = 0 ∧ s = .idle (.asg st :: rest) m) ∨
            (∃ j p, k = 1 + j ∧ s = .busy p rest ∧ ParRun s0 j p) ∨
            ∃ j i, k = 1 + j + 1 + i ∧ j ≤ B ∧ CmdRun (.idle rest m1) i s := by
          intro k s h
          induction h with
          | start => exact .inl ⟨rfl, rfl⟩
          | step _ hs ih =>
            rcases ih with ⟨rfl, e⟩ | ⟨j, p, rfl, e, hj⟩ | ⟨j, i, rfl, hj, hi⟩
            · rw [e] at hs
              cases hs with
              | seq hk _ => rw [hparts] at hk; cases hk
              | fork hk h =>
                rw [hparts] at hk
                injection hk with hk
                subst hk
                rw [h1] at h
                injection h with h
                subst h
                exact .inr (.inl ⟨0, _, rfl, rfl, .start⟩)
            · rw [e] at hs
              cases hs with
              | work hw => exact .inr (.inl ⟨j + 1, _, by omega, rfl, .step hj hw⟩)
              | join hw =>
                rw [(hall j p hj).2.2 hw]
                exact .inr (.inr ⟨j, 0, by omega, hB j p hj, .start⟩)
            · exact .inr (.inr ⟨j, i + 1, by omega, hj, .step hi hs⟩)
        rcases key k s h with ⟨rfl, -⟩ | ⟨j, p, rfl, -, hj⟩ | ⟨j, i, rfl, hj, hi⟩
        · omega
        · have := hB j p hj
          omega
        · have := hT i s hi
          omega

/-- Where a run can be. -/
theorem where_is {n : IntVec} (hn : IntVec.Lt 0 n) {g : GhostData} (hg : Moderate g) {prog : List (Cmd V)}
    (hp : ∀ c ∈ prog, c.Ready n g) {m0 : Mem V} {k : Nat} {s : CmdState V} (h : CmdRun (.idle prog m0) k s) :
    (∃ done rest m, prog = done ++ rest ∧ seqCmds done m0 = .ok m ∧ s = .idle rest m) ∨
    ∃ done st rest m cnt s0 j p, prog = done ++ .asg st :: rest ∧ seqCmds done m0 = .ok m ∧ st.parts = some cnt ∧
      parallelAssign st.ghost st.t cnt st.e m = .ok s0 ∧ ParRun s0 j p ∧ s = .busy p rest := by
  induction h with
  | start => exact .inl ⟨[], prog, m0, rfl, rfl, rfl⟩
  | step _ hs ih =>
    rcases ih with ⟨done, rest, m, e1, e2, rfl⟩ | ⟨done, st, rest, m, cnt, s0, j, p, e1, e2, e3, e4, e5, rfl⟩
    · cases hs with
      | @host f rest' _ m' hq =>
        refine .inl ⟨done ++ [.host f], rest', m', by rw [e1]; simp, ?_, rfl⟩
        rw [seqCmds_append, e2, Outcome.ok_bind]
        simp only [seqCmds, Cmd.seq, hq, Outcome.ok_bind]
      | @seq st rest' _ m' hk hq =>
        refine .inl ⟨done ++ [.asg st], rest', m', by rw [e1]; simp, ?_, rfl⟩
        rw [seqCmds_append, e2, Outcome.ok_bind]
        simp only [seqCmds, Cmd.seq, hq, Outcome.ok_bind]
      | @fork st rest' _ cnt s' hk hq => exact .inr ⟨done, st, rest', m, cnt, s', 0, s', e1, e2, hk, hq, .start, rfl⟩
    · cases hs with
      | work hw => exact .inr ⟨done, st, rest, m, cnt, s0, j + 1, _, e1, e2, e3, e4, .step e5 hw, rfl⟩
      | join hw =>
        obtain ⟨m1, h2, hpar⟩ := ready_sound hn hg (hp (.asg st) (by rw [e1]; simp)) m
        obtain ⟨s0', h1, -, hall⟩ := hpar st cnt rfl e3
        rw [e4] at h1
        injection h1 with h1
        subst h1
        refine .inl ⟨done ++ [.asg st], rest, p.mem, by rw [e1]; simp, ?_, rfl⟩
        rw [seqCmds_append, e2, Outcome.ok_bind, (hall j p e5).2.2 hw]
        simp only [seqCmds, h2, Outcome.ok_bind]

/-- A program of ready actions, however its assignments are divided and scheduled. -/
theorem run_program {n : IntVec} (hn : IntVec.Lt 0 n) {g : GhostData} (hg : Moderate g) (prog : List (Cmd V))
    (hp : ∀ c ∈ prog, c.Ready n g) (m : Mem V) :
    ∃ m', seqCmds prog m = .ok m' ∧ (∃ bound, ∀ k s, CmdRun (.idle prog m) k s → k ≤ bound) ∧
      ∀ k s, CmdRun (.idle prog m) k s → ¬ s.Race ∧ ((∀ x, s ≠ .idle [] x) → ∃ s', CmdStep s s') ∧
        (∀ rest x, s = .idle rest x → ∃ done, prog = done ++ rest ∧ seqCmds done m = .ok x) ∧
        (∀ x, s = .idle [] x → x = m') := by
  obtain ⟨m', h1, T, hT⟩ := total hn hg prog hp m
  refine ⟨m', h1, ⟨T, hT⟩, fun k s h => ?_⟩
  rcases where_is hn hg hp h with ⟨done, rest, x, e1, e2, rfl⟩ | ⟨done, st, rest, x, cnt, s0, j, p, e1, e2, e3, e4, e5, rfl⟩
  · refine ⟨fun hr => hr, ?_, ?_, ?_⟩
    · intro hne
      cases rest with
      | nil => exact absurd rfl (hne x)
      | cons c rest =>
        obtain ⟨m1, h2, hpar⟩ := ready_sound hn hg (hp c (by rw [e1]; simp)) x
        cases c with
        | host f => exact ⟨_, .host h2⟩
        | asg st =>
          cases hparts : st.parts with
          | none => exact ⟨_, .seq hparts h2⟩
          | some cnt =>
            obtain ⟨s0, h1, -⟩ := hpar st cnt rfl hparts
            exact ⟨_, .fork hparts h1⟩
    · intro rest' x' e
      injection e with a1 a2
      subst a1 a2
      exact ⟨done, e1, e2⟩
    · intro x' e
      injection e with a1 a2
      subst a1 a2
      rw [List.append_nil] at e1
      rw [← e1, h1] at e2
      injection e2 with e2
      exact e2.symm
  · obtain ⟨m1, h2, hpar⟩ := ready_sound hn hg (hp (.asg st) (by rw [e1]; simp)) x
    obtain ⟨s0', h1, -, hall⟩ := hpar st cnt rfl e3
    rw [e4] at h1
    injection h1 with h1
    subst h1
    obtain ⟨a1, a2, a3⟩ := hall j p e5
    refine ⟨a1, fun _ => ?_, fun _ _ e => (by cases e), fun _ e => (by cases e)⟩
    by_cases hw : p.waits = 0
    · exact ⟨_, .join hw⟩
    · obtain ⟨p', hp'⟩ := a2 hw
      exact ⟨_, .work hp'⟩

end Heat
end SpatialOps
