import Verif.GpuTest.Spec
import Verif.NeboGpu.Props
import Verif.Nebo.Props

/-!
# Copying the operands of an expression to a device
-/

namespace SpatialOps
namespace Nebo

theorem _root_.SpatialOps.RunsTo.mono {V : Type} {s0 : ParState V} {P Q : Mem V → Prop} (h : RunsTo s0 P) (hpq : ∀ r, P r → Q r) :
    RunsTo s0 Q :=
  ⟨h.1, fun k s hr => ⟨(h.2 k s hr).1, (h.2 k s hr).2.1, fun hw =>
    ⟨hpq _ ((h.2 k s hr).2.2 hw).1, ((h.2 k s hr).2.2 hw).2⟩⟩⟩

/-- `e'` on device 0 with memory `m2` means what `e` at home with memory `m0` means; blocks from number `k` on
are not among its own. -/
structure Prepared {V : Type} [Add V] [Mul V] (n : IntVec) (fresh : Nat → Nat) (k : Nat) (m0 m2 : Mem V) {t : Ty}
    (e e' : Expr V t) : Prop where
  wf : (e'.onDevice 0).Wf n
  dfd : ∀ c, (e'.onDevice 0).DefinedAt n c ↔ e.atHome.DefinedAt n c
  val : ∀ c, e.atHome.DefinedAt n c → (e'.onDevice 0).value m2 c = e.atHome.value m0 c
  ind : ∀ (l : FieldObj) j, k ≤ j → l.values = some (fresh j) → ∀ s, (e'.onDevice 0).Independent l s
  apart : ∀ (l : FieldObj) j, k ≤ j → l.values = some (fresh j) → (e'.onDevice 0).SinglesApart l

theorem Prepared.later {V : Type} [Add V] [Mul V] {n : IntVec} {fresh : Nat → Nat} {k k' : Nat} {m0 m2 : Mem V} {t : Ty}
    {e e' : Expr V t} (h : Prepared n fresh k m0 m2 e e') (hk : k ≤ k') : Prepared n fresh k' m0 m2 e e' :=
  ⟨h.wf, h.dfd, h.val, fun l j hj => h.ind l j (by omega), fun l j hj => h.apart l j (by omega)⟩

/-- Result of preparing from block number `k` and memory `m`, `m0` being memory before the call. -/
def PrepOk {V : Type} [Add V] [Mul V] (n : IntVec) (fresh : Nat → Nat) (k : Nat) (m0 m : Mem V) {t : Ty} (e : Expr V t) :
    Prop :=
  ∃ e' k' m', e.gpuPrep fresh 0 (k, m) = .ok (e', k', m') ∧ k ≤ k' ∧
    (∀ blk, (∀ j, k ≤ j → j < k' → blk ≠ fresh j) → m' blk = m blk) ∧
    ∀ m2 : Mem V, (∀ j, k ≤ j → j < k' → m2 (fresh j) = m' (fresh j)) →
      (∀ blk, (∀ j, blk ≠ fresh j) → m2 blk = m0 blk) → Prepared n fresh k' m0 m2 e e'

theorem cellAddr_bound {n : IntVec} {f : FieldGeo} (hf : OnMesh n f) {c : IntVec} (hc : HasCell f c) :
    0 ≤ cellAddr f c ∧ cellAddr f c < f.window.globNpts := by
  unfold cellAddr
  have hfit := hf.fits
  apply fortranPos_bound
  unfold HasCell Window.Covers at hc
  unfold Window.Fits at hfit
  unfold InBlock
  iv_omega

theorem prepField_ok {V : Type} {fresh : Nat → Nat} (hinj : Function.Injective fresh) {k : Nat} {m0 m : Mem V}
    {f : FieldObj} (hp : Portable f) (hh : f.home ≠ none) (hf : ∀ j, f.home ≠ some (fresh j))
    (hm : ∀ blk, (∀ j, blk ≠ fresh j) → m blk = m0 blk) :
    ∃ f' k' m', prepField fresh 0 f (k, m) = .ok (f', k', m') ∧ k ≤ k' ∧
      (∀ blk, (∀ j, k ≤ j → j < k' → blk ≠ fresh j) → m' blk = m blk) ∧
      f'.geo = f.geo ∧ ∃ d, devPtr f' 0 = some d ∧ (∀ j, k' ≤ j → d ≠ fresh j) ∧
      ∀ m2 : Mem V, (∀ j, k ≤ j → j < k' → m2 (fresh j) = m' (fresh j)) →
        (∀ blk, (∀ j, blk ≠ fresh j) → m2 blk = m0 blk) →
        ∀ a, 0 ≤ a → a < f.geo.window.globNpts → m2 d a = m0 (f.home.getD 0) a := by
  obtain ⟨h, hh⟩ := Option.ne_none_iff_exists'.1 hh
  have hnf : ∀ j, h ≠ fresh j := fun j hj => hf j (by rw [hh, hj])
  unfold prepField
  by_cases hg : f.memType = .gpu ∧ f.dev = 0
  · rw [if_pos hg]
    have hext : f.ext = some h := by simpa [FieldObj.home, hg.1] using hh
    refine ⟨f, k, m, rfl, le_refl _, fun _ _ => rfl, rfl, h, by simp [devPtr, hg, hext], fun j _ => hnf j, ?_⟩
    intro m2 _ h2 a _ _
    rw [hh, h2 h hnf]; rfl
  · rw [if_neg hg]
    have hcopy : ∀ f1 : FieldObj, f1.consumers.lookup 0 = some (fresh k) → f1.memType = f.memType → f1.values = f.values →
        f1.ext = f.ext → f1.alloc = f.alloc →
        consumerCopy f1 .gpu 0 m = .ok fun b i => if b = fresh k ∧ 0 ≤ i ∧ i < f.alloc then m h i else m b i := by
      intro f1 c1 c2 c3 c4 c5
      unfold consumerCopy FieldObj.home at *
      rw [c2]
      cases hmt : f.memType with
      | localRam => rw [hmt] at hh; simp only [c1, c3, hh, c5, Mem.memcpy]
      | gpu => rw [hmt] at hh; simp only [c1, c4, hh, c5, Mem.memcpy]
      | other => rw [hmt] at hh; cases hh
    have hmt : f.memType ≠ .other := by
      intro hmt; simp [FieldObj.home, hmt] at hh
    refine ⟨{ f with readOnly := true, consumers := (0, fresh k) :: f.consumers, mine := (0, fresh k) :: f.mine }, k + 1,
      fun b i => if b = fresh k ∧ 0 ≤ i ∧ i < f.alloc then m h i else m b i, ?_, by omega, ?_, rfl, fresh k, ?_, ?_, ?_⟩
    · rw [hp.2]
      dsimp only
      rw [hcopy { f with readOnly := true, consumers := (0, fresh k) :: f.consumers, mine := (0, fresh k) :: f.mine }
        (by simp) rfl rfl rfl rfl]
      cases hmt' : f.memType with
      | other => exact absurd hmt' hmt
      | _ => rfl
    · intro blk hb
      funext i
      dsimp only
      rw [if_neg]
      rintro ⟨e1, -⟩
      exact hb k (le_refl _) (by omega) e1
    · unfold devPtr
      rw [if_neg (by intro hc; exact hg ⟨hc.1, hc.2.symm⟩)]
      simp
    · intro j hj he
      have := hinj he
      omega
    · intro m2 h1 h2 a ha0 ha1
      rw [h1 k (le_refl _) (by omega)]
      dsimp only
      rw [if_pos ⟨rfl, ha0, by rw [hp.1]; exact ha1⟩, hm h hnf, hh]
      rfl

/-- Preparing two parts, one after the other. -/
theorem PrepOk.two {V : Type} {fresh : Nat → Nat} (hinj : Function.Injective fresh)
    {k k1 k2 : Nat} {m1 m2 M : Mem V} (hk1 : k ≤ k1) (hk2 : k1 ≤ k2)
    (hr : ∀ blk, (∀ j, k1 ≤ j → j < k2 → blk ≠ fresh j) → m2 blk = m1 blk)
    (hM : ∀ j, k ≤ j → j < k2 → M (fresh j) = m2 (fresh j)) :
    (∀ j, k ≤ j → j < k1 → M (fresh j) = m1 (fresh j)) ∧ (∀ j, k1 ≤ j → j < k2 → M (fresh j) = m2 (fresh j)) := by
  refine ⟨fun j h1 h2 => ?_, fun j h1 h2 => hM j (by omega) h2⟩
  rw [hM j h1 (by omega), hr]
  intro j' h3 h4 he
  have := hinj he
  omega

theorem gpuPrep_ok {V : Type} [Add V] [Mul V] {n : IntVec} {fresh : Nat → Nat} (hinj : Function.Injective fresh)
    {m0 : Mem V} : {t : Ty} → (e : Expr V t) → e.atHome.Wf n → e.AllFields Portable →
    (e.AllFields fun f => ∀ j, f.home ≠ some (fresh j)) → (k : Nat) → (m : Mem V) →
    (∀ blk, (∀ j, blk ≠ fresh j) → m blk = m0 blk) → PrepOk n fresh k m0 m e
  | _, .scalar v, _, _, _, k, m, _ =>
    ⟨.scalar v, k, m, rfl, le_refl _, fun _ _ => rfl, fun _ _ _ =>
      ⟨trivial, fun _ => Iff.rfl, fun _ _ => rfl, fun _ _ _ _ _ => trivial, fun _ _ _ _ => trivial⟩⟩
  | _, .mask v, hw, _, _, k, m, _ =>
    ⟨.mask v, k, m, rfl, le_refl _, fun _ _ => rfl, fun _ _ _ =>
      ⟨hw, fun _ => Iff.rfl, fun _ _ => rfl, fun _ _ _ _ _ => trivial, fun _ _ _ _ => trivial⟩⟩
  | _, .field f, hw, hp, hf, k, m, hm => by
    obtain ⟨f', k', m', h1, h2, h3, h4, d, h5, h6, h7⟩ := prepField_ok hinj (k := k) hp hw.2 hf hm
    refine ⟨.field f', k', m', by simp only [Expr.gpuPrep, h1, Outcome.ok_bind]; rfl, h2, h3, fun M q1 q2 => ?_⟩
    refine ⟨⟨by rw [h4]; exact hw.1, by simp [h5]⟩, fun c => ?_, fun c hc => ?_, fun l j hj hl s => ?_, fun _ _ _ _ => trivial⟩
    · simp only [Expr.onDevice, Expr.atHome, Expr.DefinedAt, h4]
    · simp only [Expr.onDevice, Expr.atHome, Expr.value, h4, h5, Option.getD_some]
      obtain ⟨b1, b2⟩ := cellAddr_bound hw.1 hc
      exact h7 M q1 q2 _ b1 b2
    · left
      rw [hl]
      simp only [h5]
      intro he
      injection he with he
      exact h6 j hj he
  | _, .single f, hw, hp, hf, k, m, hm => by
    obtain ⟨f', k', m', h1, h2, h3, h4, d, h5, h6, h7⟩ := prepField_ok hinj (k := k) hp hw.1 hf hm
    refine ⟨.single f', k', m', by simp only [Expr.gpuPrep, h1, Outcome.ok_bind]; rfl, h2, h3, fun M q1 q2 => ?_⟩
    refine ⟨⟨by simp [h5], by rw [h4]; exact hw.2⟩, fun c => Iff.rfl, fun c hc => ?_, fun _ _ _ _ _ => trivial, fun l j hj hl => ?_⟩
    · simp only [Expr.onDevice, Expr.atHome, Expr.value, h5, Option.getD_some]
      exact h7 M q1 q2 0 (le_refl _) hw.2
    · simp only [Expr.onDevice, Expr.SinglesApart, h5, hl]
      intro he
      injection he with he
      exact h6 j hj he
  | _, .maskShift p a, hw, hp, hf, k, m, hm => by
    obtain ⟨a', k', m', h1, h2, h3, h4⟩ := gpuPrep_ok hinj a hw hp hf k m hm
    refine ⟨.maskShift p a', k', m', by simp only [Expr.gpuPrep, h1, Outcome.ok_bind]; rfl, h2, h3, fun M q1 q2 => ?_⟩
    have ha := h4 M q1 q2
    exact ⟨ha.wf, fun c => and_congr (ha.dfd c) (ha.dfd (c + p)), fun c hc => ha.val (c + p) hc.2,
      fun l j hj hl s => ha.ind l j hj hl (s + p), ha.apart⟩
  | _, .un op a, hw, hp, hf, k, m, hm => by
    obtain ⟨a', k', m', h1, h2, h3, h4⟩ := gpuPrep_ok hinj a hw hp hf k m hm
    refine ⟨.un op a', k', m', by simp only [Expr.gpuPrep, h1, Outcome.ok_bind]; rfl, h2, h3, fun M q1 q2 => ?_⟩
    have ha := h4 M q1 q2
    exact ⟨ha.wf, ha.dfd, fun c hc => congrArg op (ha.val c hc), ha.ind, ha.apart⟩
  | _, .stencil pts a, hw, hp, hf, k, m, hm => by
    obtain ⟨a', k', m', h1, h2, h3, h4⟩ := gpuPrep_ok hinj a hw hp hf k m hm
    refine ⟨.stencil pts a', k', m', by simp only [Expr.gpuPrep, h1, Outcome.ok_bind]; rfl, h2, h3, fun M q1 q2 => ?_⟩
    have ha := h4 M q1 q2
    refine ⟨ha.wf, fun c => ?_, fun c hc => ?_, fun l j hj hl s => fun q _ => ha.ind l j hj hl _, ha.apart⟩
    · exact forall_congr' fun q => forall_congr' fun _ => and_congr (ha.dfd c) (ha.dfd (c + q.1))
    · exact pts_sum_congr pts fun q hq => by
        dsimp only
        rw [ha.val (c + q.1) (hc q hq).2]
  | _, .sumStencil pts a, hw, hp, hf, k, m, hm => by
    obtain ⟨a', k', m', h1, h2, h3, h4⟩ := gpuPrep_ok hinj a hw hp hf k m hm
    refine ⟨.sumStencil pts a', k', m', by simp only [Expr.gpuPrep, h1, Outcome.ok_bind]; rfl, h2, h3, fun M q1 q2 => ?_⟩
    have ha := h4 M q1 q2
    refine ⟨ha.wf, fun c => ?_, fun c hc => ?_, fun l j hj hl s => fun q _ => ha.ind l j hj hl _, ha.apart⟩
    · exact forall_congr' fun q => forall_congr' fun _ => and_congr (ha.dfd c) (ha.dfd (c + q))
    · exact pts_sum_congr pts fun q hq => ha.val (c + q) (hc q hq).2
  | _, .bin op a b, hw, hp, hf, k, m, hm => by
    obtain ⟨a', k1, m1, a1, a2, a3, a4⟩ := gpuPrep_ok hinj a hw.1 hp.1 hf.1 k m hm
    obtain ⟨b', k2, m2, b1, b2, b3, b4⟩ := gpuPrep_ok hinj b hw.2 hp.2 hf.2 k1 m1
      fun blk hb => by rw [a3 blk fun j _ _ => hb j, hm blk hb]
    refine ⟨.bin op a' b', k2, m2, by simp only [Expr.gpuPrep, a1, b1, Outcome.ok_bind]; rfl, by omega,
      fun blk hb => by rw [b3 blk fun j h1 h2 => hb j (by omega) h2, a3 blk fun j h1 h2 => hb j h1 (by omega)], fun M q1 q2 => ?_⟩
    obtain ⟨u1, u2⟩ := PrepOk.two hinj a2 b2 b3 q1
    have ha := (a4 M u1 q2).later b2
    have hb := b4 M u2 q2
    exact ⟨⟨ha.wf, hb.wf⟩, fun c => and_congr (ha.dfd c) (hb.dfd c),
      fun c hc => congrArg₂ op (ha.val c hc.1) (hb.val c hc.2),
      fun l j hj hl s => ⟨ha.ind l j hj hl s, hb.ind l j hj hl s⟩, fun l j hj hl => ⟨ha.apart l j hj hl, hb.apart l j hj hl⟩⟩
  | _, .and a b, hw, hp, hf, k, m, hm => by
    obtain ⟨a', k1, m1, a1, a2, a3, a4⟩ := gpuPrep_ok hinj a hw.1 hp.1 hf.1 k m hm
    obtain ⟨b', k2, m2, b1, b2, b3, b4⟩ := gpuPrep_ok hinj b hw.2 hp.2 hf.2 k1 m1
      fun blk hb => by rw [a3 blk fun j _ _ => hb j, hm blk hb]
    refine ⟨.and a' b', k2, m2, by simp only [Expr.gpuPrep, a1, b1, Outcome.ok_bind]; rfl, by omega,
      fun blk hb => by rw [b3 blk fun j h1 h2 => hb j (by omega) h2, a3 blk fun j h1 h2 => hb j h1 (by omega)], fun M q1 q2 => ?_⟩
    obtain ⟨u1, u2⟩ := PrepOk.two hinj a2 b2 b3 q1
    have ha := (a4 M u1 q2).later b2
    have hb := b4 M u2 q2
    exact ⟨⟨ha.wf, hb.wf⟩, fun c => and_congr (ha.dfd c) (hb.dfd c),
      fun c hc => congrArg₂ Bool.and (ha.val c hc.1) (hb.val c hc.2),
      fun l j hj hl s => ⟨ha.ind l j hj hl s, hb.ind l j hj hl s⟩, fun l j hj hl => ⟨ha.apart l j hj hl, hb.apart l j hj hl⟩⟩
  | _, .or a b, hw, hp, hf, k, m, hm => by
    obtain ⟨a', k1, m1, a1, a2, a3, a4⟩ := gpuPrep_ok hinj a hw.1 hp.1 hf.1 k m hm
    obtain ⟨b', k2, m2, b1, b2, b3, b4⟩ := gpuPrep_ok hinj b hw.2 hp.2 hf.2 k1 m1
      fun blk hb => by rw [a3 blk fun j _ _ => hb j, hm blk hb]
    refine ⟨.or a' b', k2, m2, by simp only [Expr.gpuPrep, a1, b1, Outcome.ok_bind]; rfl, by omega,
      fun blk hb => by rw [b3 blk fun j h1 h2 => hb j (by omega) h2, a3 blk fun j h1 h2 => hb j h1 (by omega)], fun M q1 q2 => ?_⟩
    obtain ⟨u1, u2⟩ := PrepOk.two hinj a2 b2 b3 q1
    have ha := (a4 M u1 q2).later b2
    have hb := b4 M u2 q2
    exact ⟨⟨ha.wf, hb.wf⟩, fun c => and_congr (ha.dfd c) (hb.dfd c),
      fun c hc => congrArg₂ Bool.or (ha.val c hc.1) (hb.val c hc.2),
      fun l j hj hl s => ⟨ha.ind l j hj hl s, hb.ind l j hj hl s⟩, fun l j hj hl => ⟨ha.apart l j hj hl, hb.apart l j hj hl⟩⟩
  | _, .cond t a b, hw, hp, hf, k, m, hm => by
    obtain ⟨t', k0, n1, t1, t2, t3, t4⟩ := gpuPrep_ok hinj t hw.1 hp.1 hf.1 k m hm
    have hm1 : ∀ blk, (∀ j, blk ≠ fresh j) → n1 blk = m0 blk :=
      fun blk hb => by rw [t3 blk fun j _ _ => hb j, hm blk hb]
    obtain ⟨a', k1, m1, a1, a2, a3, a4⟩ := gpuPrep_ok hinj a hw.2.1 hp.2.1 hf.2.1 k0 n1 hm1
    obtain ⟨b', k2, m2, b1, b2, b3, b4⟩ := gpuPrep_ok hinj b hw.2.2 hp.2.2 hf.2.2 k1 m1
      fun blk hb => by rw [a3 blk fun j _ _ => hb j, hm1 blk hb]
    refine ⟨.cond t' a' b', k2, m2, by simp only [Expr.gpuPrep, t1, a1, b1, Outcome.ok_bind]; rfl, by omega,
      fun blk hb => by rw [b3 blk fun j h1 h2 => hb j (by omega) h2, a3 blk fun j h1 h2 => hb j (by omega) (by omega),
        t3 blk fun j h1 h2 => hb j h1 (by omega)], fun M q1 q2 => ?_⟩
    obtain ⟨u1, u2⟩ := PrepOk.two hinj (k := k) (k1 := k1) (by omega) b2 b3 q1
    obtain ⟨v1, v2⟩ := PrepOk.two hinj t2 a2 a3 u1
    have ht := (t4 M v1 q2).later (by omega : k0 ≤ k2)
    have ha := (a4 M v2 q2).later b2
    have hb := b4 M u2 q2
    refine ⟨⟨ht.wf, ha.wf, hb.wf⟩, fun c => and_congr (ht.dfd c) (and_congr (ha.dfd c) (hb.dfd c)), fun c hc => ?_,
      fun l j hj hl s => ⟨ht.ind l j hj hl s, ha.ind l j hj hl s, hb.ind l j hj hl s⟩,
      fun l j hj hl => ⟨ht.apart l j hj hl, ha.apart l j hj hl, hb.apart l j hj hl⟩⟩
    simp only [Expr.onDevice, Expr.atHome, Expr.value]
    rw [ht.val c hc.1, ha.val c hc.2.1, hb.val c hc.2.2]

end Nebo
end SpatialOps
