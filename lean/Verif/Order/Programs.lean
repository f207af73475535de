import Verif.Order.Props

/-!
# Property C111: programs whose assignments rise with the data
-/

namespace SpatialOps
namespace Order

open Nebo Round Stencil Range

section
variable {K : Type} [Field K] [LinearOrder K] {rnd : K → K}

/-- Right-hand sides that rise with every field: fields, constants, sums, multiples and quotients by numbers that are not negative, and stencils with coefficients
that are not negative. -/
def Rising : Formula rnd → Prop
  | .const _ | .field _ | .single _ => True
  | .add a b => Rising a ∧ Rising b
  | .mul (.const v) b => 0 ≤ v.val ∧ Rising b
  | .mul a (.const v) => 0 ≤ v.val ∧ Rising a
  | .overConst a v => 0 ≤ v.val ∧ Rising a
  | .stencil pts a => (∀ q ∈ pts.toList, 0 ≤ q.2.val) ∧ Rising a
  | .sumStencil _ a => Rising a
  | _ => False

/-- Right-hand sides without negative numbers, differences and negations. -/
def Unsigned : Formula rnd → Prop
  | .const v => 0 ≤ v.val
  | .field _ | .single _ => True
  | .add a b | .mul a b | .cond _ a b => Unsigned a ∧ Unsigned b
  | .sub _ _ | .neg _ => False
  | .overConst a v => Unsigned a ∧ 0 ≤ v.val
  | .overField a _ => Unsigned a
  | .stencil pts a => (∀ q ∈ pts.toList, 0 ≤ q.2.val) ∧ Unsigned a
  | .sumStencil _ a => Unsigned a

/-- No number of the first memory is above that of the second. -/
def Below (m m' : Mem (Fl rnd)) : Prop := ∀ b x, (m b x).val ≤ (m' b x).val

/-- No number in memory is negative. -/
def NoNegative (m : Mem (Fl rnd)) : Prop := ∀ b x, 0 ≤ (m b x).val

/-- The programs have the same assignments, which may be divided among threads in different ways. -/
def SameText (p q : List (PStmt (Fl rnd))) : Prop := p.map PStmt.forget = q.map PStmt.forget

theorem rising_moves {m m' : Mem (Fl rnd)} (h : Below m m') (f : Formula rnd) (hf : Rising f) (c : IntVec) : Moves m m' true f c := by
  induction f generalizing c with
  | const v => exact trivial
  | field g => exact h _ _
  | single g => exact h _ _
  | add a b iha ihb => exact ⟨iha hf.1 c, ihb hf.2 c⟩
  | mul a b iha ihb =>
    unfold Rising at hf
    split at hf
    · simp_all
    · simp_all
    · simp_all
    · simp_all
    · rename_i v b' e
      obtain ⟨rfl, rfl⟩ := Formula.mul.inj e
      exact .inl ⟨rfl, .inl ⟨hf.1, ihb hf.2 c⟩⟩
    · rename_i a' v _ e
      obtain ⟨rfl, rfl⟩ := Formula.mul.inj e
      exact .inr (.inl ⟨rfl, .inl ⟨hf.1, iha hf.2 c⟩⟩)
    · simp_all
    · simp_all
    · simp_all
    · exact hf.elim
  | overConst a v iha => exact .inl ⟨hf.1, iha hf.2 c⟩
  | stencil pts a iha => exact fun q hq => .inl ⟨hf.1 q hq, iha hf.2 _⟩
  | sumStencil pts a iha => exact fun q _ => iha hf _
  | _ => exact hf.elim

theorem unsigned_positive {m : Mem (Fl rnd)} (h : NoNegative m) (f : Formula rnd) (hf : Unsigned f) (c : IntVec) : Positive m f c := by
  induction f generalizing c with
  | const v => exact hf
  | field g => exact h _ _
  | single g => exact h _ _
  | add a b iha ihb => exact ⟨iha hf.1 c, ihb hf.2 c⟩
  | mul a b iha ihb => exact ⟨iha hf.1 c, ihb hf.2 c⟩
  | overConst a v iha => exact ⟨iha hf.1 c, hf.2⟩
  | overField a g iha => exact ⟨iha hf c, h _ _⟩
  | stencil pts a iha => exact fun q hq => ⟨hf.1 q hq, iha hf.2 _⟩
  | sumStencil pts a iha => exact fun q _ => iha hf _
  | cond t a b iha ihb =>
    show if t.value m c then Positive m a c else Positive m b c
    split
    · exact iha hf.1 c
    · exact ihb hf.2 c
  | _ => exact hf.elim

omit [LinearOrder K] in
/-- One assignment. -/
theorem step_run (n : IntVec) (hn : IntVec.Lt 0 n) (s : PStmt (Fl rnd)) (hs : s.Ready n) :
    ∃ (b : Nat) (W : IntVec → Prop), ∀ m : Mem (Fl rnd), ∃ x, sequentialAssign s.ghost s.t s.e m = .ok x ∧ Assigned s.t b s.e W m x := by
  obtain ⟨b, hb⟩ := hs.target
  obtain ⟨sg, st, se, sp⟩ := s
  cases sg with
  | true => exact ⟨b, _, fun m => C22_assign_pointwise n hn st b hb se hs.wf hs.defined hs.independent m⟩
  | false => exact ⟨b, _, fun m => C22_interior_assign_pointwise n hn st b hb se hs.wf hs.defined hs.independent m⟩

omit [LinearOrder K] in
theorem forget_run (p : List (PStmt (Fl rnd))) (m : Mem (Fl rnd)) : seqRun (p.map PStmt.forget) m = seqRun p m := by
  induction p generalizing m with
  | nil => rfl
  | cons s p ih =>
    show sequentialAssign s.ghost s.t s.e m >>= seqRun (p.map PStmt.forget) = sequentialAssign s.ghost s.t s.e m >>= seqRun p
    rw [show seqRun (p.map PStmt.forget) = seqRun p from funext ih]

variable [IsStrictOrderedRing K]

theorem below_run (hr : ∀ x y, x ≤ y → rnd x ≤ rnd y) (n : IntVec) (hn : IntVec.Lt 0 n) (p : List (PStmt (Fl rnd))) (hp : ∀ s ∈ p, s.Ready n)
    (hf : ∀ s ∈ p, ∃ f : Formula rnd, s.e = f.expr ∧ Rising f) (m m' : Mem (Fl rnd)) (h : Below m m') :
    ∃ x y, seqRun p m = .ok x ∧ seqRun p m' = .ok y ∧ Below x y := by
  induction p generalizing m m' with
  | nil => exact ⟨m, m', rfl, rfl, h⟩
  | cons s p ih =>
    obtain ⟨b, W, hw⟩ := step_run n hn s (hp s (by simp))
    obtain ⟨f, e, hfr⟩ := hf s (by simp)
    obtain ⟨x, x1, x2⟩ := hw m
    obtain ⟨y, y1, y2⟩ := hw m'
    have hxy : Below x y := by
      intro blk a
      by_cases hc : blk = b ∧ ∃ c, W c ∧ cellAddr s.t.geo c = a
      · obtain ⟨rfl, c, hc, rfl⟩ := hc
        rw [x2.1 c hc, y2.1 c hc, e]
        exact moves_value hr m m' true f c (rising_moves h f hfr c)
      · have h' : blk ≠ b ∨ ∀ c, W c → cellAddr s.t.geo c ≠ a := by
          by_cases hb : blk = b
          · exact .inr fun c hw e => hc ⟨hb, c, hw, e⟩
          · exact .inl hb
        rw [x2.2 blk a h', y2.2 blk a h']
        exact h blk a
    obtain ⟨z, w, z1, w1, hzw⟩ := ih (fun s hs => hp s (by simp [hs])) (fun s hs => hf s (by simp [hs])) x y hxy
    refine ⟨z, w, ?_, ?_, hzw⟩
    · show sequentialAssign s.ghost s.t s.e m >>= seqRun p = _
      rw [x1, Outcome.ok_bind, z1]
    · show sequentialAssign s.ghost s.t s.e m' >>= seqRun p = _
      rw [y1, Outcome.ok_bind, w1]

theorem noNegative_run (hr : ∀ x y, x ≤ y → rnd x ≤ rnd y) (h0 : rnd 0 = 0) (n : IntVec) (hn : IntVec.Lt 0 n) (p : List (PStmt (Fl rnd)))
    (hp : ∀ s ∈ p, s.Ready n) (hf : ∀ s ∈ p, ∃ f : Formula rnd, s.e = f.expr ∧ Unsigned f) (m : Mem (Fl rnd)) (h : NoNegative m) :
    ∃ x, seqRun p m = .ok x ∧ NoNegative x := by
  induction p generalizing m with
  | nil => exact ⟨m, rfl, h⟩
  | cons s p ih =>
    obtain ⟨b, W, hw⟩ := step_run n hn s (hp s (by simp))
    obtain ⟨f, e, hfr⟩ := hf s (by simp)
    obtain ⟨x, x1, x2⟩ := hw m
    have hx : NoNegative x := by
      intro blk a
      by_cases hc : blk = b ∧ ∃ c, W c ∧ cellAddr s.t.geo c = a
      · obtain ⟨rfl, c, hc, rfl⟩ := hc
        rw [x2.1 c hc, e]
        exact positive_value hr h0 m f c (unsigned_positive h f hfr c)
      · have h' : blk ≠ b ∨ ∀ c, W c → cellAddr s.t.geo c ≠ a := by
          by_cases hb : blk = b
          · exact .inr fun c hw e => hc ⟨hb, c, hw, e⟩
          · exact .inl hb
        rw [x2.2 blk a h']
        exact h blk a
    obtain ⟨z, z1, hz⟩ := ih (fun s hs => hp s (by simp [hs])) (fun s hs => hf s (by simp [hs])) x hx
    refine ⟨z, ?_, hz⟩
    show sequentialAssign s.ghost s.t s.e m >>= seqRun p = _
    rw [x1, Outcome.ok_bind, z1]

/-- C111. Two finished runs of a program whose right-hand sides rise with every field, in any schedules and divided among threads in any ways: if no number is above
its counterpart at the start, none is at the end. -/
theorem _root_.SpatialOps.C111_programs (hr : ∀ x y, x ≤ y → rnd x ≤ rnd y) (n : IntVec) (hn : IntVec.Lt 0 n) (p q : List (PStmt (Fl rnd)))
    (hp : ∀ s ∈ p, s.Ready n) (hq : ∀ s ∈ q, s.Ready n) (hpq : SameText p q) (hf : ∀ s ∈ p, ∃ f : Formula rnd, s.e = f.expr ∧ Rising f)
    (m m' : Mem (Fl rnd)) (h : Below m m') (i j : Nat) (x y : Mem (Fl rnd)) (hx : ProgRun (.idle p m) i (.idle [] x))
    (hy : ProgRun (.idle q m') j (.idle [] y)) : Below x y := by
  obtain ⟨z, w, z1, w1, hzw⟩ := below_run hr n hn p hp hf m m' h
  obtain ⟨x1, a1, -, a2⟩ := C81_program n hn p hp m
  obtain ⟨y1, b1, -, b2⟩ := C81_program n hn q hq m'
  rw [← forget_run q, ← show p.map PStmt.forget = q.map PStmt.forget from hpq, forget_run p, w1] at b1
  rw [z1] at a1
  injection a1 with a1
  injection b1 with b1
  rw [(a2 i _ hx).2.2.2 x rfl, (b2 j _ hy).2.2.2 y rfl, ← a1, ← b1]
  exact hzw

/-- C111. A finished run of a program without negative numbers, differences and negations leaves no negative number, in any schedule. -/
theorem _root_.SpatialOps.C111_positive_programs (hr : ∀ x y, x ≤ y → rnd x ≤ rnd y) (h0 : rnd 0 = 0) (n : IntVec) (hn : IntVec.Lt 0 n)
    (p : List (PStmt (Fl rnd))) (hp : ∀ s ∈ p, s.Ready n) (hf : ∀ s ∈ p, ∃ f : Formula rnd, s.e = f.expr ∧ Unsigned f)
    (m : Mem (Fl rnd)) (h : NoNegative m) (i : Nat) (x : Mem (Fl rnd)) (hx : ProgRun (.idle p m) i (.idle [] x)) : NoNegative x := by
  obtain ⟨z, z1, hz⟩ := noNegative_run hr h0 n hn p hp hf m h
  obtain ⟨x1, a1, -, a2⟩ := C81_program n hn p hp m
  rw [z1] at a1
  injection a1 with a1
  rw [(a2 i _ hx).2.2.2 x rfl, ← a1]
  exact hz

end

/-- Example: `f4 <<= 0.5 * (f1 + f2); f5 <<= f4 / 3 + f1`, the first in three parts or by the calling thread. -/
example (k : Option Int) (hk : ∀ j, k = some j → 1 ≤ j) :
    let p : List (PStmt (Fl (gradual (K := ℚ) 53 (-1074)))) :=
      [⟨true, NeboEx.fld false 4, (Formula.mul (.const ⟨1 / 2⟩) (.add (.field (NeboEx.fld false 1)) (.field (NeboEx.fld false 2)))).expr, k⟩,
       ⟨true, NeboEx.fld false 5, (Formula.add (.overConst (.field (NeboEx.fld false 4)) ⟨3⟩) (.field (NeboEx.fld false 1))).expr, none⟩]
    (∀ s ∈ p, s.Ready ⟨4, 3, 1⟩) ∧ (∀ s ∈ p, ∃ f : Formula _, s.e = f.expr ∧ Rising f) ∧ ∀ s ∈ p, ∃ f : Formula _, s.e = f.expr ∧ Unsigned f := by
  have hh := hasCell_iff (NeboEx.onMesh false)
  have e1 : (NeboEx.geo false).validGhosts.minus = ⟨1, 1, 0⟩ := rfl
  have e2 : (NeboEx.geo false).validGhosts.plus + (NeboEx.geo false).bc.hasExtra = ⟨1, 1, 0⟩ := by decide
  have e3 : (NeboEx.geo false).bc.hasExtra = ⟨0, 0, 0⟩ := by decide
  rw [e1, e2] at hh
  unfold InBox at hh
  have hi : ∀ k c, Interior ⟨4, 3, 1⟩ (NeboEx.fld false k) c → HasCell (NeboEx.geo false) c := by
    intro k c hc
    have hc' : IntVec.Le 0 c ∧ IntVec.Lt c (⟨4, 3, 1⟩ + (NeboEx.geo false).bc.hasExtra) := hc
    rw [e3] at hc'
    exact (hh c).2 (by iv_omega)
  have w : ∀ k, (Expr.field (V := Fl (gradual (K := ℚ) 53 (-1074))) (NeboEx.fld false k)).Wf ⟨4, 3, 1⟩ := fun k => ⟨NeboEx.onMesh false, by simp [NeboEx.fld]⟩
  have sc : ∀ c, HasCell (NeboEx.geo false) c →
      IntVec.Le (-⟨ghostMax, ghostMax, ghostMax⟩) c ∧ IntVec.Lt c (⟨4, 3, 1⟩ + ⟨ghostMax, ghostMax, ghostMax⟩) := by
    intro c hc
    have := (hh c).1 hc
    unfold ghostMax
    iv_omega
  have d1 : (NeboEx.fld false 1).values ≠ (NeboEx.fld false 4).values := by decide
  have d2 : (NeboEx.fld false 2).values ≠ (NeboEx.fld false 4).values := by decide
  have d3 : (NeboEx.fld false 4).values ≠ (NeboEx.fld false 5).values := by decide
  have d4 : (NeboEx.fld false 1).values ≠ (NeboEx.fld false 5).values := by decide
  intro p
  refine ⟨fun s hs => ?_, fun s hs => ?_, fun s hs => ?_⟩ <;> rcases List.mem_cons.1 hs with rfl | hs
  · exact ⟨⟨4, NeboEx.target false 4⟩, ⟨trivial, w 1, w 2⟩, fun c hc => ⟨sc c (hi 4 c hc), hi 4 c hc, hi 4 c hc⟩, ⟨trivial, .inl d1, .inl d2⟩, hk⟩
  · obtain rfl := List.mem_singleton.1 hs
    exact ⟨⟨5, NeboEx.target false 5⟩, ⟨⟨w 4, trivial⟩, w 1⟩, fun c hc => ⟨⟨hi 5 c hc, sc c (hi 5 c hc)⟩, hi 5 c hc⟩, ⟨⟨.inl d3, trivial⟩, .inl d4⟩, by simp⟩
  · exact ⟨_, rfl, by norm_num, trivial, trivial⟩
  · obtain rfl := List.mem_singleton.1 hs
    exact ⟨_, rfl, ⟨by norm_num, trivial⟩, trivial⟩
  · exact ⟨_, rfl, by show (0 : ℚ) ≤ 1 / 2; norm_num, trivial, trivial⟩
  · obtain rfl := List.mem_singleton.1 hs
    exact ⟨_, rfl, ⟨trivial, by norm_num⟩, trivial⟩

end Order
end SpatialOps
