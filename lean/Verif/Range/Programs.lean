import Verif.Range.Props
import Verif.Prog.Props

/-!
# Property C108: programs within the range of `double`
-/

namespace SpatialOps
namespace Range

open Nebo Round Stencil

section
variable {K : Type} [Field K] [LinearOrder K] {rnd rnd' : K → K}

/-- An assignment in two formats: `t <<= f` (`ghost`) or `interior_assign(t, f)`, each done by the calling thread or in parts on the pool. -/
structure Twin (rnd rnd' : K → K) where
  ghost : Bool
  t : FieldObj
  f : Formula rnd
  f' : Formula rnd'
  parts : Option Int
  parts' : Option Int

/-- The assignment in the first format. -/
def Twin.one (s : Twin rnd rnd') : PStmt (Fl rnd) := ⟨s.ghost, s.t, s.f.expr, s.parts⟩

/-- The assignment in the second format. -/
def Twin.two (s : Twin rnd rnd') : PStmt (Fl rnd') := ⟨s.ghost, s.t, s.f'.expr, s.parts'⟩

/-- The exact result of every operation of every assignment, at every cell it writes and on the numbers computed so far in the first format, meets `P`. -/
def AllMeet (P : K → Prop) (n : IntVec) : List (Twin rnd rnd') → Mem (Fl rnd) → Prop
  | [], _ => True
  | s :: rest, m => (∀ c, (if s.ghost then Stored n s.t c ∧ s.f.expr.DefinedAt n c else Interior n s.t c) → Meets P m s.f c) ∧
      ∀ x, sequentialAssign s.ghost s.t s.f.expr m = .ok x → AllMeet P n rest x

omit [LinearOrder K] in
theorem same_defined {f : Formula rnd} {f' : Formula rnd'} (hs : Same f f') (n c : IntVec) : f.expr.DefinedAt n c ↔ f'.expr.DefinedAt n c := by
  induction hs generalizing c with
  | const v => exact Iff.rfl
  | field f => exact Iff.rfl
  | single f => exact Iff.rfl
  | add _ _ iha ihb => exact and_congr (iha c) (ihb c)
  | sub _ _ iha ihb => exact and_congr (iha c) (ihb c)
  | mul _ _ iha ihb => exact and_congr (iha c) (ihb c)
  | neg _ iha => exact iha c
  | overConst v _ iha => exact and_congr (iha c) Iff.rfl
  | overField f _ iha => exact and_congr (iha c) Iff.rfl
  | @stencil a a' pts _ iha =>
    rw [weighted_eq, weighted_eq]
    simp only [Formula.expr, Expr.DefinedAt, Pts.All, toList_pmap, List.mem_map]
    constructor
    · rintro h q ⟨p, hp, rfl⟩
      exact (h _ ⟨p, hp, rfl⟩).imp (iha _).1 (iha _).1
    · rintro h q ⟨p, hp, rfl⟩
      exact (h _ ⟨p, hp, rfl⟩).imp (iha _).2 (iha _).2
  | @sumStencil a a' pts _ iha => exact forall_congr' fun q => forall_congr' fun _ => and_congr (iha _) (iha _)
  | cond ht hd _ _ iha ihb => exact and_congr (hd n c) (and_congr (iha c) (ihb c))

omit [LinearOrder K] in
/-- One assignment keeps memories alike. -/
theorem same_step {P : K → Prop} (hP : ∀ x, P x → rnd x = rnd' x) (n : IntVec) (hn : IntVec.Lt 0 n) (s : Twin rnd rnd') (hs : Same s.f s.f')
    (h1 : s.one.Ready n) (h2 : s.two.Ready n) (m : Mem (Fl rnd)) (m' : Mem (Fl rnd')) (hm : ∀ b x, (m b x).val = (m' b x).val)
    (hr : ∀ c, (if s.ghost then Stored n s.t c ∧ s.f.expr.DefinedAt n c else Interior n s.t c) → Meets P m s.f c) :
    ∃ x y, sequentialAssign s.ghost s.t s.f.expr m = .ok x ∧ sequentialAssign s.ghost s.t s.f'.expr m' = .ok y ∧ ∀ b a, (x b a).val = (y b a).val := by
  obtain ⟨b, ht⟩ := h1.target
  have key : ∀ (W : IntVec → Prop) (x : Mem (Fl rnd)) (y : Mem (Fl rnd')), Assigned s.t b s.f.expr W m x → Assigned s.t b s.f'.expr W m' y →
      (∀ c, W c → Meets P m s.f c) → ∀ blk a, (x blk a).val = (y blk a).val := by
    intro W x y hx hy hW blk a
    by_cases h : blk = b ∧ ∃ c, W c ∧ cellAddr s.t.geo c = a
    · obtain ⟨rfl, c, hc, rfl⟩ := h
      rw [hx.1 c hc, hy.1 c hc]
      exact same_value hP m m' hm hs c (hW c hc)
    · have h' : blk ≠ b ∨ ∀ c, W c → cellAddr s.t.geo c ≠ a := by
        by_cases hb : blk = b
        · exact .inr fun c hc e => h ⟨hb, c, hc, e⟩
        · exact .inl hb
      rw [hx.2 blk a h', hy.2 blk a h']
      exact hm blk a
  cases hg : s.ghost with
  | true =>
    obtain ⟨x, e1, hx⟩ := C22_assign_pointwise n hn s.t b ht s.f.expr h1.wf h1.defined h1.independent m
    obtain ⟨y, e2, hy⟩ := C22_assign_pointwise n hn s.t b ht s.f'.expr h2.wf h2.defined h2.independent m'
    refine ⟨x, y, e1, e2, key _ x y hx ?_ fun c hc => hr c (by rw [hg]; exact hc)⟩
    have : (fun c => Stored n s.t c ∧ s.f.expr.DefinedAt n c) = fun c => Stored n s.t c ∧ s.f'.expr.DefinedAt n c :=
      funext fun c => propext (and_congr Iff.rfl (same_defined hs n c))
    rw [this]
    exact hy
  | false =>
    obtain ⟨x, e1, hx⟩ := C22_interior_assign_pointwise n hn s.t b ht s.f.expr h1.wf h1.defined h1.independent m
    obtain ⟨y, e2, hy⟩ := C22_interior_assign_pointwise n hn s.t b ht s.f'.expr h2.wf h2.defined h2.independent m'
    exact ⟨x, y, e1, e2, key _ x y hx hy fun c hc => hr c (by rw [hg]; exact hc)⟩

omit [LinearOrder K] in
theorem same_run {P : K → Prop} (hP : ∀ x, P x → rnd x = rnd' x) (n : IntVec) (hn : IntVec.Lt 0 n) (p : List (Twin rnd rnd'))
    (hs : ∀ s ∈ p, Same s.f s.f' ∧ s.one.Ready n ∧ s.two.Ready n) (m : Mem (Fl rnd)) (m' : Mem (Fl rnd')) (hm : ∀ b x, (m b x).val = (m' b x).val)
    (hr : AllMeet P n p m) :
    ∃ x y, seqRun (p.map Twin.one) m = .ok x ∧ seqRun (p.map Twin.two) m' = .ok y ∧ ∀ b a, (x b a).val = (y b a).val := by
  induction p generalizing m m' with
  | nil => exact ⟨m, m', rfl, rfl, hm⟩
  | cons s rest ih =>
    obtain ⟨a1, a2, a3⟩ := hs s (by simp)
    obtain ⟨x, y, e1, e2, e3⟩ := same_step hP n hn s a1 a2 a3 m m' hm hr.1
    obtain ⟨x', y', f1, f2, f3⟩ := ih (fun s h => hs s (by simp [h])) x y e3 (hr.2 x e1)
    refine ⟨x', y', ?_, ?_, f3⟩
    · show sequentialAssign s.ghost s.t s.f.expr m >>= seqRun (rest.map Twin.one) = _
      rw [e1, Outcome.ok_bind, f1]
    · show sequentialAssign s.ghost s.t s.f'.expr m' >>= seqRun (rest.map Twin.two) = _
      rw [e2, Outcome.ok_bind, f2]

end

/-- C108. A program of assignments, any of which may run in any number of parts on the pool, in `double` and with exponents of any size. If in `double` every
operation yields zero or a number in the range in which `double` has 53 digits, then all finished runs of both programs leave exactly the same numbers in all of
memory, whatever the schedules, and no run fails. -/
theorem _root_.SpatialOps.C108_programs_within_range {K : Type} [Field K] [LinearOrder K] [IsStrictOrderedRing K] [FloorRing K] (special : K → K) (n : IntVec)
    (hn : IntVec.Lt 0 n) (p : List (Twin (ieee special) (roundEven (K := K) 53))) (hs : ∀ s ∈ p, Same s.f s.f' ∧ s.one.Ready n ∧ s.two.Ready n)
    (m : Mem (Fl (ieee special))) (m' : Mem (Fl (K := K) (roundEven 53))) (hm : ∀ b x, (m b x).val = (m' b x).val) (hr : AllMeet Normal n p m) :
    (∀ i x, ProgRun (.idle (p.map Twin.one) m) i x → (∀ e, x ≠ .idle [] e) → ∃ x', ProgStep x x') ∧
    (∀ i x, ProgRun (.idle (p.map Twin.two) m') i x → (∀ e, x ≠ .idle [] e) → ∃ x', ProgStep x x') ∧
    ∀ i j x y, ProgRun (.idle (p.map Twin.one) m) i (.idle [] x) → ProgRun (.idle (p.map Twin.two) m') j (.idle [] y) →
      ∀ b a, (x b a).val = (y b a).val := by
  obtain ⟨x0, y0, e1, e2, e3⟩ := same_run (normal_alike special) n hn p hs m m' hm hr
  have r1 : ∀ st ∈ p.map Twin.one, st.Ready n := by
    intro st h
    obtain ⟨s, h1, rfl⟩ := List.mem_map.1 h
    exact (hs s h1).2.1
  have r2 : ∀ st ∈ p.map Twin.two, st.Ready n := by
    intro st h
    obtain ⟨s, h1, rfl⟩ := List.mem_map.1 h
    exact (hs s h1).2.2
  obtain ⟨x1, a1, -, a2⟩ := C81_program n hn (p.map Twin.one) r1 m
  obtain ⟨y1, b1, -, b2⟩ := C81_program n hn (p.map Twin.two) r2 m'
  refine ⟨fun i x h => (a2 i x h).2.1, fun i x h => (b2 i x h).2.1, fun i j x y hx hy => ?_⟩
  rw [e1] at a1
  rw [e2] at b1
  injection a1 with a1
  injection b1 with b1
  rw [(a2 i _ hx).2.2.2 x rfl, (b2 j _ hy).2.2.2 y rfl, ← a1, ← b1]
  exact e3

namespace RangeEx

/-- `f4 <<= a + a` in three parts on the pool, then `interior_assign(f5, left(f4))`; in the other format one after the other. -/
def twins (r : ℚ → ℚ) : List (Twin R r) :=
  [⟨true, NeboEx.fld false 4, .add (.field (NeboEx.fld false 1)) (.field (NeboEx.fld false 1)),
      .add (.field (NeboEx.fld false 1)) (.field (NeboEx.fld false 1)), some 3, none⟩,
   ⟨false, NeboEx.fld false 5, .sumStencil (.one ⟨-1, 0, 0⟩) (.field (NeboEx.fld false 4)), .sumStencil (.one ⟨-1, 0, 0⟩) (.field (NeboEx.fld false 4)), none, none⟩]

theorem twins_ready (r : ℚ → ℚ) : ∀ s ∈ twins r, Same s.f s.f' ∧ s.one.Ready ⟨4, 3, 1⟩ ∧ s.two.Ready ⟨4, 3, 1⟩ := by
  have hh := hasCell_iff (NeboEx.onMesh false)
  have e1 : (NeboEx.geo false).validGhosts.minus = ⟨1, 1, 0⟩ := rfl
  have e2 : (NeboEx.geo false).validGhosts.plus + (NeboEx.geo false).bc.hasExtra = ⟨1, 1, 0⟩ := by decide
  have e3 : (NeboEx.geo false).bc.hasExtra = ⟨0, 0, 0⟩ := by decide
  rw [e1, e2] at hh
  unfold InBox at hh
  have hi : ∀ (b : Nat) (c : IntVec), Interior ⟨4, 3, 1⟩ (NeboEx.fld false b) c → IntVec.Le 0 c ∧ IntVec.Lt c ⟨4, 3, 1⟩ := by
    intro b c hc
    have hc' : IntVec.Le 0 c ∧ IntVec.Lt c (⟨4, 3, 1⟩ + (NeboEx.geo false).bc.hasExtra) := hc
    rw [e3] at hc'
    iv_omega
  have d1 : (NeboEx.fld false 1).values ≠ (NeboEx.fld false 4).values := by decide
  have d4 : (NeboEx.fld false 4).values ≠ (NeboEx.fld false 5).values := by decide
  have first : ∀ (r : ℚ → ℚ) (k : Option Int), (∀ j, k = some j → 1 ≤ j) →
      (⟨true, NeboEx.fld false 4, (Formula.add (rnd := r) (.field (NeboEx.fld false 1)) (.field (NeboEx.fld false 1))).expr, k⟩ : PStmt (Fl r)).Ready ⟨4, 3, 1⟩ := by
    intro r k hk
    refine ⟨⟨4, NeboEx.target false 4⟩, ⟨⟨NeboEx.onMesh false, by decide⟩, NeboEx.onMesh false, by decide⟩, ?_, ⟨.inl d1, .inl d1⟩, hk⟩
    intro c hc
    have := hi 4 c hc
    exact ⟨(hh c).2 (by iv_omega), (hh c).2 (by iv_omega)⟩
  have second : ∀ r : ℚ → ℚ, (⟨false, NeboEx.fld false 5, (Formula.sumStencil (rnd := r) (.one ⟨-1, 0, 0⟩) (.field (NeboEx.fld false 4))).expr, none⟩ :
      PStmt (Fl r)).Ready ⟨4, 3, 1⟩ := by
    intro r
    refine ⟨⟨5, NeboEx.target false 5⟩, ?_, ?_, fun _ _ => .inl d4, by simp⟩
    · unfold Formula.expr Expr.Wf Expr.Wf
      exact ⟨NeboEx.onMesh false, by decide⟩
    · intro c hc q hq
      have := hi 5 c hc
      simp only [Pts.toList, List.mem_singleton] at hq
      subst hq
      exact ⟨(hh c).2 (by iv_omega), (hh _).2 (by iv_omega)⟩
  intro s hs
  simp only [twins, List.mem_cons, List.not_mem_nil, or_false] at hs
  rcases hs with rfl | rfl
  · exact ⟨.add (.field _) (.field _), first _ _ (by simp), first _ _ (by simp)⟩
  · exact ⟨.sumStencil _ (.field _), second _, second _⟩

end RangeEx

/-- Example: if all values of `a` are from 1 to `2^60`, the program meets the conditions of `C108_programs_within_range`. -/
example (m : Mem (Fl RangeEx.R)) (hc : ∀ c, 1 ≤ (valueAt m (NeboEx.fld false 1) c).val ∧ (valueAt m (NeboEx.fld false 1) c).val ≤ 2 ^ 60) :
    AllMeet Normal ⟨4, 3, 1⟩ (RangeEx.twins (roundEven 53)) m := by
  obtain ⟨-, -, T1⟩ := RangeEx.limits
  have hlo : (2 : ℚ) ^ (-1022 : Int) ≤ 1 := le_trans (zpow_le_zpow_right₀ (by norm_num) (by norm_num : (-1022 : Int) ≤ 0)) (by norm_num)
  have key : ∀ x : ℚ, 1 ≤ x ∧ x ≤ 2 ^ 60 → Normal (x + x) := by
    intro x h
    refine Or.inr ?_
    rw [abs_of_nonneg (by linarith)]
    refine ⟨hlo.trans (by linarith), le_trans ?_ T1⟩
    norm_num at h ⊢
    linarith
  refine ⟨fun c _ => ⟨trivial, trivial, key _ (hc c)⟩, fun x _ => ⟨fun c _ => ⟨fun q _ => trivial, trivial⟩, fun _ _ => trivial⟩⟩

end Range
end SpatialOps
