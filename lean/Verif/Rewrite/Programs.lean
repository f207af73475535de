import Verif.Rewrite.Props

/-!
# Property C110: programs of rewritten assignments
-/

namespace SpatialOps
namespace Rewrite

open Nebo Round Stencil

section
variable {K : Type} [Field K] {rnd : K → K}

/-- The same assignment with the right-hand side written in another way, run by the calling thread or in parts on the pool. The right-hand side yields numbers of
the format; for `<<=`, which also writes ghost cells, both spellings have values at the same cells. -/
structure Respelled (n : IntVec) (s t : PStmt (Fl rnd)) : Prop where
  ghost : s.ghost = t.ghost
  target : s.t = t.t
  formula : ∃ f g : Formula rnd, s.e = f.expr ∧ t.e = g.expr ∧ Rewrites f g ∧ InFormat f
  cells : s.ghost = true → ∀ c, s.e.DefinedAt n c ↔ t.e.DefinedAt n c

theorem respelled_run (hi : ∀ x, rnd (rnd x) = rnd x) (ho : ∀ x, rnd (-x) = -rnd x) (h0 : rnd 0 = 0) (n : IntVec) (hn : IntVec.Lt 0 n)
    (p q : List (PStmt (Fl rnd))) (h : List.Forall₂ (fun s t => Respelled n s t ∧ s.Ready n ∧ t.Ready n) p q) (m : Mem (Fl rnd))
    (hm : ∀ b x, rnd (m b x).val = (m b x).val) : ∃ x, seqRun p m = .ok x ∧ seqRun q m = .ok x ∧ ∀ b a, rnd (x b a).val = (x b a).val := by
  induction h generalizing m with
  | nil => exact ⟨m, rfl, rfl, hm⟩
  | @cons s t p q hst _ ih =>
    obtain ⟨hr, hs, ht⟩ := hst
    obtain ⟨sg, st, se, sp⟩ := s
    obtain ⟨tg, tt, te, tp⟩ := t
    obtain ⟨e1, e2, ⟨f, g, e3, e4, hfg, hfm⟩, e5⟩ := hr
    dsimp only at e1 e2 e3 e4 e5
    subst e1 e2 e3 e4
    obtain ⟨b, hb⟩ := hs.target
    have hv := rewrites_value hi ho h0 m hm hfg
    have key : ∀ (W : IntVec → Prop) (x y : Mem (Fl rnd)), Assigned st b f.expr W m x → Assigned st b g.expr W m y →
        x = y ∧ ∀ b a, rnd (x b a).val = (x b a).val := by
      intro W x y hx hy
      have both : ∀ blk a, x blk a = y blk a ∧ rnd (x blk a).val = (x blk a).val := by
        intro blk a
        by_cases h : blk = b ∧ ∃ c, W c ∧ cellAddr st.geo c = a
        · obtain ⟨rfl, c, hc, rfl⟩ := h
          rw [hx.1 c hc, hy.1 c hc]
          exact ⟨hv c, inFormat_value hi ho m hm f c hfm⟩
        · have h' : blk ≠ b ∨ ∀ c, W c → cellAddr st.geo c ≠ a := by
            by_cases hb : blk = b
            · exact .inr fun c hc e => h ⟨hb, c, hc, e⟩
            · exact .inl hb
          rw [hx.2 blk a h', hy.2 blk a h']
          exact ⟨rfl, hm blk a⟩
      exact ⟨funext fun blk => funext fun a => (both blk a).1, fun blk a => (both blk a).2⟩
    have one : ∃ x, sequentialAssign sg st f.expr m = .ok x ∧ sequentialAssign sg st g.expr m = .ok x ∧ ∀ b a, rnd (x b a).val = (x b a).val := by
      cases sg with
      | true =>
        obtain ⟨x, a1, a2⟩ := C22_assign_pointwise n hn st b hb f.expr hs.wf hs.defined hs.independent m
        obtain ⟨y, b1, b2⟩ := C22_assign_pointwise n hn st b hb g.expr ht.wf ht.defined ht.independent m
        have : (fun c => Stored n st c ∧ g.expr.DefinedAt n c) = fun c => Stored n st c ∧ f.expr.DefinedAt n c :=
          funext fun c => propext (and_congr Iff.rfl (e5 rfl c).symm)
        rw [this] at b2
        obtain ⟨rfl, h⟩ := key _ x y a2 b2
        exact ⟨x, a1, b1, h⟩
      | false =>
        obtain ⟨x, a1, a2⟩ := C22_interior_assign_pointwise n hn st b hb f.expr hs.wf hs.defined hs.independent m
        obtain ⟨y, b1, b2⟩ := C22_interior_assign_pointwise n hn st b hb g.expr ht.wf ht.defined ht.independent m
        obtain ⟨rfl, h⟩ := key _ x y a2 b2
        exact ⟨x, a1, b1, h⟩
    obtain ⟨x, c1, c2, c3⟩ := one
    obtain ⟨z, d1, d2, d3⟩ := ih x c3
    refine ⟨z, ?_, ?_, d3⟩
    · show sequentialAssign sg st f.expr m >>= seqRun p = _
      rw [c1, Outcome.ok_bind, d1]
    · show sequentialAssign sg st g.expr m >>= seqRun q = _
      rw [c2, Outcome.ok_bind, d2]

/-- C110. Two programs whose assignments differ by the rules of `Rewrites` and in how they are divided among threads: all finished runs of both leave the same
memory, whatever the schedules. -/
theorem _root_.SpatialOps.C110_programs (hi : ∀ x, rnd (rnd x) = rnd x) (ho : ∀ x, rnd (-x) = -rnd x) (h0 : rnd 0 = 0) (n : IntVec) (hn : IntVec.Lt 0 n)
    (p q : List (PStmt (Fl rnd))) (h : List.Forall₂ (fun s t => Respelled n s t ∧ s.Ready n ∧ t.Ready n) p q) (m : Mem (Fl rnd))
    (hm : ∀ b x, rnd (m b x).val = (m b x).val) (i j : Nat) (x y : Mem (Fl rnd)) (hx : ProgRun (.idle p m) i (.idle [] x))
    (hy : ProgRun (.idle q m) j (.idle [] y)) : x = y := by
  obtain ⟨z, e1, e2, -⟩ := respelled_run hi ho h0 n hn p q h m hm
  have r : (∀ s ∈ p, s.Ready n) ∧ ∀ t ∈ q, t.Ready n := by
    clear hx hy e1 e2 hm
    induction h with
    | nil => simp
    | cons hst _ ih =>
      refine ⟨fun s hs => ?_, fun t ht => ?_⟩
      · rcases List.mem_cons.1 hs with rfl | hs
        · exact hst.2.1
        · exact ih.1 s hs
      · rcases List.mem_cons.1 ht with rfl | ht
        · exact hst.2.2
        · exact ih.2 t ht
  obtain ⟨x1, a1, -, a2⟩ := C81_program n hn p r.1 m
  obtain ⟨y1, b1, -, b2⟩ := C81_program n hn q r.2 m
  rw [e1] at a1
  rw [e2] at b1
  injection a1 with a1
  injection b1 with b1
  rw [(a2 i _ hx).2.2.2 x rfl, (b2 j _ hy).2.2.2 y rfl, ← a1, ← b1]

end

/-- Example: `f4 <<= a + b` in three parts and `f4 <<= b + a` by the calling thread. -/
example : List.Forall₂ (fun s t => Respelled ⟨4, 3, 1⟩ s t ∧ s.Ready ⟨4, 3, 1⟩ ∧ t.Ready ⟨4, 3, 1⟩)
    [(⟨true, NeboEx.fld false 4, (Formula.add (rnd := roundEven (K := ℚ) 53) (.field (NeboEx.fld false 1)) (.field (NeboEx.fld false 2))).expr, some 3⟩ :
      PStmt (Fl (roundEven (K := ℚ) 53)))]
    [⟨true, NeboEx.fld false 4, (Formula.add (rnd := roundEven (K := ℚ) 53) (.field (NeboEx.fld false 2)) (.field (NeboEx.fld false 1))).expr, none⟩] := by
  have hh := hasCell_iff (NeboEx.onMesh false)
  have e1 : (NeboEx.geo false).validGhosts.minus = ⟨1, 1, 0⟩ := rfl
  have e2 : (NeboEx.geo false).validGhosts.plus + (NeboEx.geo false).bc.hasExtra = ⟨1, 1, 0⟩ := by decide
  have e3 : (NeboEx.geo false).bc.hasExtra = ⟨0, 0, 0⟩ := by decide
  rw [e1, e2] at hh
  unfold InBox at hh
  have hi : ∀ c, Interior ⟨4, 3, 1⟩ (NeboEx.fld false 4) c → IntVec.Le 0 c ∧ IntVec.Lt c ⟨4, 3, 1⟩ := by
    intro c hc
    have hc' : IntVec.Le 0 c ∧ IntVec.Lt c (⟨4, 3, 1⟩ + (NeboEx.geo false).bc.hasExtra) := hc
    rw [e3] at hc'
    iv_omega
  have d1 : (NeboEx.fld false 1).values ≠ (NeboEx.fld false 4).values := by decide
  have d2 : (NeboEx.fld false 2).values ≠ (NeboEx.fld false 4).values := by decide
  refine .cons ⟨⟨rfl, rfl, ⟨_, _, rfl, rfl, .addComm _ _, trivial⟩, fun _ c => and_comm⟩,
    ⟨⟨4, NeboEx.target false 4⟩, ⟨⟨NeboEx.onMesh false, by decide⟩, NeboEx.onMesh false, by decide⟩, fun c hc => ?_, ⟨.inl d1, .inl d2⟩, by simp⟩,
    ⟨⟨4, NeboEx.target false 4⟩, ⟨⟨NeboEx.onMesh false, by decide⟩, NeboEx.onMesh false, by decide⟩, fun c hc => ?_, ⟨.inl d2, .inl d1⟩, by simp⟩⟩ .nil
  · have := hi c hc
    exact ⟨(hh c).2 (by iv_omega), (hh c).2 (by iv_omega)⟩
  · have := hi c hc
    exact ⟨(hh c).2 (by iv_omega), (hh c).2 (by iv_omega)⟩

end Rewrite
end SpatialOps
