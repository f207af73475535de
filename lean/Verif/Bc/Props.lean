import Verif.Bc.Lemmas
import Verif.Stencil.Props
import Verif.Nebo.Props

/-!
# Properties C32, C33: boundary conditions
-/

namespace SpatialOps
namespace Bc

open Nebo
open Stencil (Reg registrations Dir Tag FieldType)

/-! ## Example fields -/

namespace BcEx

/-- Three cells in a row, no ghosts. -/
def flat : FieldObj :=
  ⟨⟨⟨⟨3, 1, 1⟩, 0, ⟨3, 1, 1⟩⟩, ⟨⟨3, 1, 1⟩, 0, ⟨3, 1, 1⟩⟩, BcInfo.build false false false 0,
    ⟨0, 0, false⟩, ⟨0, 0, false⟩, false⟩, some 0, none, true, .localRam, 0, false, [], [], false, 3⟩

theorem flatUsable : Usable flat 0 :=
  ⟨rfl, rfl, rfl, rfl, by decide, by decide, rfl, by decide, by decide, by decide⟩

theorem ghostUsable : Usable (NeboEx.fld false 0) 0 :=
  ⟨rfl, rfl, rfl, rfl, by decide, by decide, rfl, by decide, by decide, by decide⟩

end BcEx

section
variable {K : Type} [Field K]

theorem point_ok {K : Type} (p q : IntVec) (c d : K) (dest : IntVec) (side : Side) (v : K) :
    BcOp.point p q (.more (.one c) d) dest side v =
      .ok ⟨v, dest + ghostPoint side p q, dest + ghostPoint side q p, ghostCoef side c d,
        ghostCoef side d c, true, [], []⟩ := by
  cases side <;> rfl

theorem addr_inj {f : FieldObj} {a b : IntVec} (ha : InMemory f a) (hb : InMemory f b)
    (h : addr f a = addr f b) : a = b := by
  have := fortranPos_inj ha hb h
  have h1 := congrArg IntVec.x this
  have h2 := congrArg IntVec.y this
  have h3 := congrArg IntVec.z this
  simp only [IntVec.add_x, IntVec.add_y, IntVec.add_z] at h1 h2 h3
  ext <;> omega

/-- C32. A boundary condition built for one point from a two-point operator, on any side, for
any value: after it is applied, the operator evaluated at that point gives the value, if the
coefficient of the cell being set is not zero and the operator's two cells there are different
cells of the field's memory; and at most that one cell has changed. -/
theorem _root_.SpatialOps.C32_operator_gives_value (p q : IntVec) (hpq : p ≠ q) (c d : K) (dest : IntVec)
    (side : Side) (hc : ghostCoef side c d ≠ 0) (v : K) (f : FieldObj) (b : Nat) (hu : Usable f b)
    (hp : InMemory f (dest + p)) (hq : InMemory f (dest + q)) (m : Mem K) :
    ∃ o m', BcOp.point p q (.more (.one c) d) dest side v = .ok o ∧ o.apply f m = .ok m' ∧
      (∀ x, origin f.geo + x = f.geo.interior.offset + dest →
        (Expr.stencil (.more (.one (p, c)) (q, d)) (.field f)).value m' x = v) ∧
      OnlyCell f b (dest + ghostPoint side p q) m m' := by
  refine ⟨_, m.write b (addr f (dest + ghostPoint side p q)) ((v - ghostCoef side d c *
    m b (addr f (dest + ghostPoint side q p))) / ghostCoef side c d), point_ok p q c d dest side v, ?_, ?_, ?_⟩
  · unfold BcOp.apply
    simp only [if_true]
    apply setCell_ok hu
    · cases side <;> assumption
    · cases side <;> assumption
  · intro x hx
    have ad : ∀ s, cellAddr f.geo (x + s) = addr f (dest + s) := by
      intro s
      unfold cellAddr addr
      congr 1
      have h1 := congrArg IntVec.x hx
      have h2 := congrArg IntVec.y hx
      have h3 := congrArg IntVec.z hx
      simp only [IntVec.add_x, IntVec.add_y, IntVec.add_z] at h1 h2 h3
      ext <;> simp <;> omega
    have hne : addr f (dest + p) ≠ addr f (dest + q) := by
      intro h
      apply hpq
      have := addr_inj hp hq h
      have h1 := congrArg IntVec.x this
      have h2 := congrArg IntVec.y this
      have h3 := congrArg IntVec.z this
      simp only [IntVec.add_x, IntVec.add_y, IntVec.add_z] at h1 h2 h3
      ext <;> omega
    simp only [Expr.value, Pts.sum, ad, hu.mem, Option.getD_some, Mem.write]
    cases side <;>
      simp only [ghostPoint, ghostCoef, reduceCtorEq, if_true, if_false, true_and, hne, hne.symm] at hc ⊢ <;>
      field_simp <;> ring
  · intro blk a h
    unfold Mem.write
    rw [if_neg]
    rintro ⟨rfl, rfl⟩
    exact h rfl

/-- C32. A point whose cells are not both in the field's memory is refused (an assertion
fails) and nothing is written. -/
theorem _root_.SpatialOps.C32_outside_refused (p q : IntVec) (c d : K) (dest : IntVec) (side : Side) (v : K) (f : FieldObj)
    (b : Nat) (hu : Usable f b) (h : ¬ (InMemory f (dest + p) ∧ InMemory f (dest + q))) (m : Mem K) :
    ∃ o, BcOp.point p q (.more (.one c) d) dest side v = .ok o ∧ o.apply f m = .abort := by
  refine ⟨_, point_ok p q c d dest side v, ?_⟩
  unfold BcOp.apply
  simp only [if_true]
  apply setCell_refused hu
  intro h'
  apply h
  cases side
  · exact h'
  · exact ⟨h'.2, h'.1⟩
  · exact h'

example : Usable (NeboEx.fld false 0) 0 ∧ InMemory (NeboEx.fld false 0) (0 + ⟨-1, 0, 0⟩) ∧
    InMemory (NeboEx.fld false 0) (0 + 0) ∧ ghostCoef Side.minus (-2 : ℚ) 2 ≠ 0 ∧
    ¬ (InMemory (NeboEx.fld false 0) (⟨-1, 0, 0⟩ + ⟨-1, 0, 0⟩) ∧ InMemory (NeboEx.fld false 0) (⟨-1, 0, 0⟩ + 0)) :=
  ⟨BcEx.ghostUsable, by decide, by decide, by simp [ghostCoef], by decide⟩

theorem len_pos {α : Type} : (e : Pts α) → 0 < Stencil.len e
  | .one _ => by simp [Stencil.len]
  | .more _ _ => by simp only [Stencil.len]; omega

/-- A two-point registered operator has two different points and one of the coefficient
collections with two non-zero entries. -/
def twoPointOk (r : Reg) : Bool :=
  match r.type with
  | some (.coefs _ (.more (.one p) q) _ _) =>
    decide (p ≠ q) && (match r.coef with
      | .half | .per _ | .halfPer _ => true
      | _ => false)
  | _ => true

theorem all_twoPoint : registrations.all twoPointOk = true := by decide +kernel

/-- C32. The same for every two-point operator that build_stencils registers, with the shifts
and coefficients the boundary condition takes from it: interpolants, gradients and
divergences, for non-zero mesh spacings. -/
theorem _root_.SpatialOps.C32_registered_operators [CharZero K] (r : Reg) (hr : r ∈ registrations)
    (h : Dir → K) (hh : ∀ d, h d ≠ 0) (op : Tag) (pts : Pts IntVec) (s t : FieldType)
    (hty : r.type = some (.coefs op pts s t)) (hlen : Stencil.len pts = 2) (dest : IntVec) (side : Side)
    (v : K) (f : FieldObj) (b : Nat) (hu : Usable f b) (hm : ∀ p ∈ pts.toList, InMemory f (dest + p))
    (m : Mem K) :
    ∃ e s1 cs o m', r.apply h (.field f) = some e ∧ s1Shift pts = some s1 ∧ r.coef.build h = some cs ∧
      BcOp.point s1 (s2Shift pts) cs dest side v = .ok o ∧ o.apply f m = .ok m' ∧
      (∀ x, origin f.geo + x = f.geo.interior.offset + dest → e.value m' x = v) ∧
      ∃ p ∈ pts.toList, OnlyCell f b (dest + p) m m' := by
  have hok := List.all_eq_true.1 all_twoPoint r hr
  unfold twoPointOk at hok
  rw [hty] at hok
  match pts, hlen with
  | .more (.one p) q, _ =>
    simp only [Bool.and_eq_true, decide_eq_true_eq] at hok
    obtain ⟨hpq, hco⟩ := hok
    have hcs : ∃ c d, r.coef.build h = some (.more (.one c) d) ∧ c ≠ 0 ∧ d ≠ 0 := by
      cases hc : r.coef with
      | half => exact ⟨1 / 2, 1 / 2, rfl, by norm_num, by norm_num⟩
      | per a => exact ⟨-1 / h a, 1 / h a, rfl, by simp [hh a], by simp [hh a]⟩
      | halfPer a => exact ⟨-(1 / 2) / h a, 1 / 2 / h a, rfl, by simp [hh a], by simp [hh a]⟩
      | quarter => rw [hc] at hco; simp at hco
      | absent => rw [hc] at hco; simp at hco
    obtain ⟨c, d, hcs, hc, hd⟩ := hcs
    obtain ⟨o, m', h1, h2, h3, h4⟩ := C32_operator_gives_value p q hpq c d dest side
      (by unfold ghostCoef; split_ifs <;> assumption) v f b hu (hm p (by simp [Pts.toList]))
      (hm q (by simp [Pts.toList])) m
    refine ⟨_, p, _, o, m', ?_, rfl, hcs, h1, h2, h3, ?_⟩
    · unfold Reg.apply
      unfold Reg.type at hty
      rw [hty, hcs]
      rfl
    · refine ⟨ghostPoint side p q, ?_, h4⟩
      unfold ghostPoint
      split_ifs <;> simp [Pts.toList]
  | .more (.more e p) q, hl => exact absurd hl (by have := len_pos e; simp only [Stencil.len]; omega)

/-- Example: the x gradient at the left face of a field with one ghost layer. -/
example : ∃ (r : Reg) (op : Tag) (pts : Pts IntVec) (s t : FieldType) (dest : IntVec), r ∈ registrations ∧
    r.type = some (.coefs op pts s t) ∧ Stencil.len pts = 2 ∧ Usable (NeboEx.fld false 0) 0 ∧
    ∀ p ∈ pts.toList, InMemory (NeboEx.fld false 0) (dest + p) :=
  ⟨⟨.gradient, .sVol, .sSurfX, .per .x⟩, .gradient, _, .sVol, .sSurfX, 0, by decide +kernel, rfl, rfl, BcEx.ghostUsable,
    by decide +kernel⟩

/-- C32. Boundary conditions of several points, applied one after the other: all of them hold
in the end, if no point's other cell is a cell being set. -/
theorem _root_.SpatialOps.C32_several_points (p q : IntVec) (hpq : p ≠ q) (c d : K) (side : Side)
    (hc : ghostCoef side c d ≠ 0) (v : K) (f : FieldObj) (b : Nat) (hu : Usable f b) (dests : List IntVec)
    (hin : ∀ x ∈ dests, InMemory f (x + p) ∧ InMemory f (x + q))
    (sep : ∀ x ∈ dests, ∀ y ∈ dests, x + ghostPoint side q p ≠ y + ghostPoint side p q) (m : Mem K) :
    ∃ m', oneByOne p q (.more (.one c) d) side v f dests m = .ok m' ∧
      (∀ y ∈ dests, ∀ x, origin f.geo + x = f.geo.interior.offset + y →
        (Expr.stencil (.more (.one (p, c)) (q, d)) (.field f)).value m' x = v) ∧
      ∀ blk a, (∀ y ∈ dests, (blk, a) ≠ (b, addr f (y + ghostPoint side p q))) → m' blk a = m blk a := by
  have pt : ∀ y x s, origin f.geo + x = f.geo.interior.offset + y → cellAddr f.geo (x + s) = addr f (y + s) := by
    intro y x s hx
    unfold cellAddr addr
    congr 1
    have h1 := congrArg IntVec.x hx
    have h2 := congrArg IntVec.y hx
    have h3 := congrArg IntVec.z hx
    simp only [IntVec.add_x, IntVec.add_y, IntVec.add_z] at h1 h2 h3
    ext <;> simp <;> omega
  have keep : ∀ done : List IntVec, (∀ y ∈ done, y ∈ dests) → ∀ todo, (∀ y ∈ todo, y ∈ dests) → ∀ m : Mem K,
      (∀ y ∈ done, ∀ x, origin f.geo + x = f.geo.interior.offset + y →
        (Expr.stencil (.more (.one (p, c)) (q, d)) (.field f)).value m x = v) →
      ∃ m', oneByOne p q (.more (.one c) d) side v f todo m = .ok m' ∧
        (∀ y ∈ done ++ todo, ∀ x, origin f.geo + x = f.geo.interior.offset + y →
          (Expr.stencil (.more (.one (p, c)) (q, d)) (.field f)).value m' x = v) ∧
        ∀ blk a, (∀ y ∈ todo, (blk, a) ≠ (b, addr f (y + ghostPoint side p q))) → m' blk a = m blk a := by
    intro done hdone todo
    induction todo generalizing done with
    | nil => intro _ m hm; exact ⟨m, rfl, by simpa using hm, fun _ _ _ => rfl⟩
    | cons z zs ih =>
      intro htodo m hm
      have hz := htodo z (by simp)
      obtain ⟨o, m1, o1, o2, o3, o4⟩ := C32_operator_gives_value p q hpq c d z side hc v f b hu (hin z hz).1 (hin z hz).2 m
      obtain ⟨m', i1, i2, i3⟩ := ih (done ++ [z]) (by
          intro y hy
          rcases List.mem_append.1 hy with hy | hy
          · exact hdone y hy
          · rw [List.mem_singleton.1 hy]; exact hz) (fun y hy => htodo y (by simp [hy])) m1 (by
        intro y hy x hx
        by_cases hyz : y = z
        · subst hyz; exact o3 x hx
        · rcases List.mem_append.1 hy with hy | hy
          · have old := hm y hy x hx
            have hyd := hdone y hy
            have ne : ∀ s, s = p ∨ s = q → m1 b (addr f (y + s)) = m b (addr f (y + s)) := by
              intro s hs
              apply o4
              intro e
              have e := congrArg Prod.snd e
              dsimp only at e
              have hsm : InMemory f (y + s) := by
                rcases hs with rfl | rfl
                · exact (hin y hyd).1
                · exact (hin y hyd).2
              have hgm : InMemory f (z + ghostPoint side p q) := by
                unfold ghostPoint
                split_ifs
                · exact (hin z hz).2
                · exact (hin z hz).1
              have e := addr_inj hsm hgm e
              by_cases hg : s = ghostPoint side p q
              · rw [hg] at e
                apply hyz
                have h1 := congrArg IntVec.x e
                have h2 := congrArg IntVec.y e
                have h3 := congrArg IntVec.z e
                simp only [IntVec.add_x, IntVec.add_y, IntVec.add_z] at h1 h2 h3
                ext <;> omega
              · have : s = ghostPoint side q p := by
                  unfold ghostPoint at hg ⊢
                  split_ifs at hg ⊢ <;> tauto
                rw [this] at e
                exact sep y hyd z hz e
            simp only [Expr.value, Pts.sum, pt y x _ hx, hu.mem, Option.getD_some] at old ⊢
            rw [ne p (.inl rfl), ne q (.inr rfl)]
            exact old
          · exact absurd (List.mem_singleton.1 hy) hyz)
      refine ⟨m', ?_, by simpa using i2, ?_⟩
      · unfold oneByOne
        rw [o1, Outcome.ok_bind, o2, Outcome.ok_bind, i1]
      · intro blk a h
        rw [i3 blk a fun y hy => h y (by simp [hy]), o4 blk a (h z (by simp))]
  obtain ⟨m', h1, h2, h3⟩ := keep [] (by simp) dests (fun _ h => h) m (by simp)
  exact ⟨m', h1, by simpa using h2, h3⟩

example : ∃ (f : FieldObj) (dests : List IntVec), Usable f 0 ∧ dests.length = 3 ∧
    (∀ x ∈ dests, InMemory f (x + ⟨-1, 0, 0⟩) ∧ InMemory f (x + 0)) ∧
    ∀ x ∈ dests, ∀ y ∈ dests, x + ghostPoint .minus 0 ⟨-1, 0, 0⟩ ≠ y + ghostPoint .minus ⟨-1, 0, 0⟩ 0 :=
  ⟨NeboEx.fld false 0, [0, ⟨0, 1, 0⟩, ⟨0, 2, 0⟩], BcEx.ghostUsable, rfl, by decide, by decide⟩

/-! ## C32, the Nebo builder -/

end

section
variable {K : Type} [Add K] [Sub K] [Mul K] [Div K]

/-- What a Nebo boundary condition writes, in any arithmetic. -/
theorem nebo_values (o : NeboBc K) (n : IntVec) (hn : IntVec.Lt 0 n) (phi : FieldObj) (b : Nat)
    (ht : Target n phi b) (mask : MaskObj) (hk : OnMesh n mask.geo)
    (hks : mask.bits.size = roundToInt mask.geo.window.globNpts) (gamma : Expr K .num) (hg : gamma.Wf n)
    (minus : Bool) (hs : o.maskShift minus = -o.dest)
    (hd : ∀ c, Interior n phi c → (o.rhs mask phi gamma minus).DefinedAt n c)
    (hgi : gamma.Independent phi (-o.dest))
    (sep : ∀ g, Marked mask g → ¬ Marked mask (g + o.src - o.dest)) (m : Mem K) :
    ∃ m', o.apply mask phi gamma minus m = .ok m' ∧
      (∀ g, Marked mask g → Stored n phi (g + o.dest) → (o.rhs mask phi gamma minus).DefinedAt n (g + o.dest) →
        m' b (cellAddr phi.geo (g + o.dest)) = (gamma.value m g - m b (cellAddr phi.geo (g + o.src)) * o.srcCoef) / o.destCoef ∧
        m' b (cellAddr phi.geo (g + o.src)) = m b (cellAddr phi.geo (g + o.src))) ∧
      ∀ blk a, (blk ≠ b ∨ ∀ g, Marked mask g → Stored n phi (g + o.dest) → cellAddr phi.geo (g + o.dest) ≠ a) →
        m' blk a = m blk a := by
  have hw : (o.rhs mask phi gamma minus).Wf n :=
    ⟨⟨hk, hks⟩, ⟨⟨hg, ⟨ht.mesh, by rw [ht.mem]; simp⟩, trivial⟩, trivial⟩, ht.mesh, by rw [ht.mem]; simp⟩
  obtain ⟨m', a1, a2, a3⟩ := C22_assign_in_place n hn phi b ht _ hw hd m
  have val : ∀ mm c, (o.rhs mask phi gamma minus).value2 m mm c =
      if bitAt mask.bits.words (cellAddr mask.geo (c - o.dest)) then
        (gamma.value2 m mm (c + -o.dest) - mm b (cellAddr phi.geo (c + (o.src - o.dest))) * o.srcCoef) / o.destCoef
      else mm b (cellAddr phi.geo c) := by
    intro mm c
    have e1 : c + o.maskShift minus = c - o.dest := by rw [hs]; ext <;> simp <;> omega
    have e2 : Stencil.tSub ⟨0, 0, 0⟩ o.dest = -o.dest := by unfold Stencil.tSub; ext <;> simp
    have e3 : Stencil.tSub o.src o.dest = o.src - o.dest := rfl
    show (if bitAt mask.bits.words (cellAddr mask.geo (c + o.maskShift minus)) = true then
      (gamma.value2 m mm (c + Stencil.tSub ⟨0, 0, 0⟩ o.dest) -
        mm (phi.values.getD 0) (cellAddr phi.geo (c + Stencil.tSub o.src o.dest)) * o.srcCoef) / o.destCoef
      else mm (phi.values.getD 0) (cellAddr phi.geo c)) = _
    rw [e1, e2, e3, ht.mem]
    rfl
  have hmk : ∀ c, (o.rhs mask phi gamma minus).DefinedAt n c → HasCell mask.geo (c - o.dest) ∧
      HasCell phi.geo (c + (o.src - o.dest)) := by
    intro c h
    have h1 : HasCell mask.geo (c + o.maskShift minus) := h.1.2
    have h2 : HasCell phi.geo (c + Stencil.tSub o.src o.dest) := (h.2.1.1.2.1 _ (by simp [Pts.toList])).2
    refine ⟨?_, h2⟩
    rw [hs] at h1
    rwa [show c - o.dest = c + -o.dest by ext <;> simp <;> omega]
  have inj : ∀ c c', (Stored n phi c ∨ HasCell phi.geo c) → (Stored n phi c' ∨ HasCell phi.geo c') →
      cellAddr phi.geo c = cellAddr phi.geo c' → c = c' := by
    have blk : ∀ c, (Stored n phi c ∨ HasCell phi.geo c) → InBlock phi.geo.window.npts (origin phi.geo + c) := by
      intro c h
      rcases h with h | h
      · have := ht.room
        unfold Stored at h
        iv_omega
      · have := ht.mesh.fits
        unfold HasCell at h
        iv_omega
    intro c c' h h' e
    have := fortranPos_inj (blk c h) (blk c' h') e
    have h1 := congrArg IntVec.x this
    have h2 := congrArg IntVec.y this
    have h3 := congrArg IntVec.z this
    simp only [IntVec.add_x, IntVec.add_y, IntVec.add_z] at h1 h2 h3
    ext <;> omega
  have own : ∀ c, Stored n phi c → ∀ mm, During phi b (fun c => Stored n phi c ∧ (o.rhs mask phi gamma minus).DefinedAt n c) m m' c mm →
      ∀ a, a = cellAddr phi.geo c → mm b a = m b a := by
    intro c hs mm hmm a ha
    refine (hmm b a).2 ?_
    rintro ⟨-, c', hr, hlt, e⟩
    rw [inj c' c (.inl hr.1) (.inl hs) (e.trans ha)] at hlt
    unfold FortranLt at hlt
    omega
  -- an unmarked cell keeps its value
  have same : ∀ c, (Stored n phi c ∨ HasCell phi.geo c) → ¬ Marked mask (c - o.dest) →
      m' b (cellAddr phi.geo c) = m b (cellAddr phi.geo c) := by
    intro c hc hm
    by_cases hr : Stored n phi c ∧ (o.rhs mask phi gamma minus).DefinedAt n c
    · obtain ⟨mm, hmm, hv⟩ := a2 c hr
      rw [hv, val, if_neg fun hb => hm ⟨(hmk c hr.2).1, hb⟩]
      exact own c hr.1 mm hmm _ rfl
    · apply a3
      right
      intro c' hr' e
      apply hr
      rw [← inj c' c (.inl hr'.1) hc e]
      exact hr'
  refine ⟨m', a1, ?_, ?_⟩
  · intro g hmg hst hdf
    obtain ⟨mm, hmm, hv⟩ := a2 _ ⟨hst, hdf⟩
    have ec : g + o.dest - o.dest = g := by ext <;> simp
    have es : g + o.dest + (o.src - o.dest) = g + o.src := by ext <;> simp
    have en : g + o.dest + -o.dest = g := by ext <;> simp
    have hsrc : HasCell phi.geo (g + o.src) := by rw [← es]; exact (hmk _ hdf).2
    have hkeep := same (g + o.src) (.inr hsrc) (sep g hmg)
    have hread : mm b (cellAddr phi.geo (g + o.src)) = m b (cellAddr phi.geo (g + o.src)) := by
      by_cases h : b = b ∧ ∃ c', (Stored n phi c' ∧ (o.rhs mask phi gamma minus).DefinedAt n c') ∧
          FortranLt c' (g + o.dest) ∧ cellAddr phi.geo c' = cellAddr phi.geo (g + o.src)
      · rw [(hmm _ _).1 h]; exact hkeep
      · exact (hmm _ _).2 h
    have hgv : gamma.value2 m mm (g + o.dest + -o.dest) = gamma.value m (g + o.dest + -o.dest) := by
      refine value2_eq (l := phi) ?_ gamma hg _ hgi
      intro blk a h
      refine (hmm blk a).2 ?_
      rintro ⟨rfl, c', hr, hlt, e⟩
      rcases h with h | h
      · exact h ht.mem.symm
      · rw [inj c' (g + o.dest) (.inl hr.1) (.inl hst) (e.trans h)] at hlt
        unfold FortranLt at hlt
        omega
    rw [val, ec, if_pos hmg.2, hgv, en, es, hread] at hv
    exact ⟨hv, hkeep⟩
  · intro blk a h
    by_cases hb : blk = b
    · subst hb
      have h := h.resolve_left (by simp)
      by_cases hr : ∃ c, (Stored n phi c ∧ (o.rhs mask phi gamma minus).DefinedAt n c) ∧ cellAddr phi.geo c = a
      · obtain ⟨c, hr, rfl⟩ := hr
        apply same c (.inl hr.1)
        intro hm
        have e : c - o.dest + o.dest = c := by ext <;> simp
        exact h _ hm (by rw [e]; exact hr.1) (by rw [e])
      · exact a3 _ _ (.inr fun c hc e => hr ⟨c, hc, e⟩)
    · exact a3 _ _ (.inl hb)

end

section
variable {K : Type} [Field K]

/-- C32. A Nebo boundary condition: for every marked cell `g` the equation
`destCoef * phi(g + dest) + srcCoef * phi(g + src) = gamma(g)` holds afterwards, with `gamma`
as it was before, and nothing but the destination cells of marked cells has changed. Conditions: the
shift of the mask is the destination point's (`C32_nebo_face_points`), `gamma` does not read
`phi` elsewhere, and no marked cell's source is another's destination. -/
theorem _root_.SpatialOps.C32_nebo_builder (o : NeboBc K) (n : IntVec) (hn : IntVec.Lt 0 n) (phi : FieldObj) (b : Nat)
    (ht : Target n phi b) (mask : MaskObj) (hk : OnMesh n mask.geo)
    (hks : mask.bits.size = roundToInt mask.geo.window.globNpts) (gamma : Expr K .num) (hg : gamma.Wf n)
    (minus : Bool) (hs : o.maskShift minus = -o.dest)
    (hd : ∀ c, Interior n phi c → (o.rhs mask phi gamma minus).DefinedAt n c) (hc : o.destCoef ≠ 0)
    (hgi : gamma.Independent phi (-o.dest))
    (sep : ∀ g, Marked mask g → ¬ Marked mask (g + o.src - o.dest)) (m : Mem K) :
    ∃ m', o.apply mask phi gamma minus m = .ok m' ∧
      (∀ g, Marked mask g → Stored n phi (g + o.dest) → (o.rhs mask phi gamma minus).DefinedAt n (g + o.dest) →
        o.destCoef * m' b (cellAddr phi.geo (g + o.dest)) + o.srcCoef * m' b (cellAddr phi.geo (g + o.src)) =
          gamma.value m g) ∧
      ∀ blk a, (blk ≠ b ∨ ∀ g, Marked mask g → Stored n phi (g + o.dest) → cellAddr phi.geo (g + o.dest) ≠ a) →
        m' blk a = m blk a := by
  obtain ⟨m', a1, a2, a3⟩ := nebo_values o n hn phi b ht mask hk hks gamma hg minus hs hd hgi sep m
  refine ⟨m', a1, fun g h1 h2 h3 => ?_, a3⟩
  obtain ⟨e1, e2⟩ := a2 g h1 h2 h3
  rw [e1, e2]
  field_simp
  ring

/-- A mask on the example mesh with the first interior cell marked. -/
def BcEx.mask : MaskObj :=
  ⟨NeboEx.geo false, ⟨(NeboEx.geo false).interior, (NeboEx.geo false).validGhosts, 1, fun _ => 128⟩⟩

theorem BcEx.marked (g : IntVec) : Marked BcEx.mask g ↔ g = 0 := by
  constructor
  · rintro ⟨h1, h2⟩
    rw [show BcEx.mask.geo = NeboEx.geo false from rfl, hasCell_iff (NeboEx.onMesh false)] at h1
    have e1 : (NeboEx.geo false).validGhosts.minus = ⟨1, 1, 0⟩ := by decide
    have e2 : (NeboEx.geo false).validGhosts.plus + (NeboEx.geo false).bc.hasExtra = ⟨1, 1, 0⟩ := by decide
    unfold InBox at h1
    rw [e1, e2] at h1
    have key : ∀ x ∈ List.range 6, ∀ y ∈ List.range 5, bitAt BcEx.mask.bits.words
        (cellAddr BcEx.mask.geo ⟨(x : Int) - 1, (y : Int) - 1, 0⟩) = true → x = 1 ∧ y = 1 := by decide +kernel
    have := key (g.x + 1).toNat (List.mem_range.2 (by iv_omega)) (g.y + 1).toNat (List.mem_range.2 (by iv_omega)) (by
      rwa [show (⟨((g.x + 1).toNat : Int) - 1, ((g.y + 1).toNat : Int) - 1, 0⟩ : IntVec) = g by
        ext
        · dsimp only; iv_omega
        · dsimp only; iv_omega
        · dsimp only; iv_omega])
    ext
    · iv_omega
    · iv_omega
    · iv_omega
  · rintro rfl
    exact ⟨by unfold HasCell Window.Covers; decide, by decide +kernel⟩

/-- Example: `phi` so that its average at the left boundary is 5. -/
example : ∃ (o : NeboBc ℚ) (n : IntVec) (phi : FieldObj) (b : Nat) (mask : MaskObj), IntVec.Lt 0 n ∧ Target n phi b ∧
    OnMesh n mask.geo ∧ mask.bits.size = roundToInt mask.geo.window.globNpts ∧ o.maskShift true = -o.dest ∧
    (∀ c, Interior n phi c → (o.rhs mask phi (.scalar (t := .num) 5) true).DefinedAt n c) ∧ o.destCoef ≠ 0 ∧
    (Expr.scalar (V := ℚ) (t := .num) 5).Independent phi (-o.dest) ∧
    (∀ g, Marked mask g → ¬ Marked mask (g + o.src - o.dest)) ∧
    ∃ g, Marked mask g ∧ Stored n phi (g + o.dest) := by
  refine ⟨⟨⟨-1, 0, 0⟩, 0, .sVol, .sSurfX, 1 / 2, 1 / 2⟩, ⟨4, 3, 1⟩, NeboEx.fld false 0, 0, BcEx.mask, by decide,
    NeboEx.target false 0, NeboEx.onMesh false, by decide, rfl, ?_, by norm_num, trivial, ?_,
    0, (BcEx.marked 0).2 rfl, by unfold Stored; decide⟩
  · intro c hc
    have hh := hasCell_iff (NeboEx.onMesh false)
    have e1 : (NeboEx.geo false).validGhosts.minus = ⟨1, 1, 0⟩ := rfl
    have e2 : (NeboEx.geo false).validGhosts.plus + (NeboEx.geo false).bc.hasExtra = ⟨1, 1, 0⟩ := by decide
    have e5 : (NeboEx.fld false 0).geo.bc.hasExtra = 0 := by decide
    have e6 : Stencil.tSub ⟨0, 0, 0⟩ ⟨-1, 0, 0⟩ = ⟨1, 0, 0⟩ := by decide
    have e7 : Stencil.tSub 0 ⟨-1, 0, 0⟩ = ⟨1, 0, 0⟩ := by decide
    unfold Interior at hc
    rw [e5] at hc
    rw [e1, e2] at hh
    unfold InBox at hh
    have h1 : HasCell (NeboEx.geo false) c := (hh c).2 (by iv_omega)
    have h2 : HasCell (NeboEx.geo false) (c + ⟨1, 0, 0⟩) := (hh _).2 (by iv_omega)
    have h3 : ∀ d : IntVec, d = c ∨ d = c + ⟨1, 0, 0⟩ →
        (Expr.scalar (V := ℚ) (t := .num) 5).DefinedAt ⟨4, 3, 1⟩ d := by
      rintro d (rfl | rfl) <;> simp only [Expr.DefinedAt, ghostMax] <;> iv_omega
    refine ⟨⟨h1, h2⟩, ⟨⟨?_, ?_, h3 c (.inl rfl)⟩, h3 c (.inl rfl)⟩, h1⟩
    · intro q hq
      rw [List.mem_singleton.1 hq, e6]
      exact ⟨h3 c (.inl rfl), h3 _ (.inr rfl)⟩
    · intro q hq
      rw [List.mem_singleton.1 hq, e7]
      exact ⟨h1, h2⟩
  · intro g hg h
    rw [BcEx.marked] at hg h
    subst hg
    revert h
    decide

omit [Field K] in
/-- C32. For a volume field `phi` and `gamma` on its faces, the low point of the two-point
operator from `phi` to the faces is the destination for which the minus shift of the mask is right, the high
point that for the plus shift. -/
theorem _root_.SpatialOps.C32_nebo_face_points (v f : FieldType) (hv : v ∈ Stencil.volumes) (d : Dir) (hf : v.face d = some f) (cd cs : K) :
    ∃ lo hi, Stencil.stencil2 v.offset f.offset = .more (.one lo) hi ∧ lo ≠ hi ∧
      (NeboBc.mk lo hi v f cd cs).maskShift true = -lo ∧ (NeboBc.mk hi lo v f cd cs).maskShift false = -hi := by
  simp only [Stencil.volumes, List.mem_cons, List.not_mem_nil, or_false] at hv
  rcases hv with rfl | rfl | rfl | rfl <;> cases d <;> cases hf <;> exact ⟨_, _, rfl, by decide, rfl, rfl⟩

/-! ## C33 -/

theorem flatIndex_block {w : Window} (ho : IntVec.Le 0 w.offset) {c : IntVec}
    (h : InBlock w.npts (w.offset + c)) :
    w.flatIndex c = .ok (fortranPos w.npts (w.offset + c)) := by
  unfold Window.flatIndex
  rw [Outcome.assert_true (by iv_omega), Outcome.ok_bind, Outcome.assert_true (by iv_omega), Outcome.ok_bind,
    Outcome.assert_true (by iv_omega), Outcome.ok_bind]
  have : (⟨if 1 < w.npts.x then c.x + w.offset.x else 0, if 1 < w.npts.y then c.y + w.offset.y else 0,
      if 1 < w.npts.z then c.z + w.offset.z else 0⟩ : IntVec) = w.offset + c := by
    ext
    · dsimp only; split_ifs <;> iv_omega
    · dsimp only; split_ifs <;> iv_omega
    · dsimp only; split_ifs <;> iv_omega
  rw [this]
  exact ijkToFlat_eq_ok h

theorem flatToIjk_pos {d c : IntVec} (h : InBlock d c) : flatToIjk d (fortranPos d c) = .ok c := by
  have := C01_ijk_flat_ijk d c h
  rw [ijkToFlat_eq_ok h, Outcome.ok_bind] at this
  exact this

/-- C33, part. The list form is the point forms in order, for the minus and the plus side, if
the field has no ghost layers in x and y (its window without ghosts spans the memory there)
and the list's window starts at the first element. Missing: fields with ghost layers, where
the two forms set different cells (`C33_ghost_layers_differ`), and NO_SIDE
(`C33_no_side_differs`). -/
theorem _root_.SpatialOps.C33_list_is_points_partial (p q : IntVec) (c d : K) (side : Side) (hs : side ≠ .noSide) (v : K)
    (f : FieldObj) (b : Nat) (hu : Usable f b) (hf : f.geo.interior.Fits)
    (hx : f.geo.interior.extent.x = f.geo.window.npts.x) (hy : f.geo.interior.extent.y = f.geo.window.npts.y)
    (win : Window) (hw : win.npts = f.geo.window.npts) (ho : win.offset = 0) (dests : List IntVec)
    (hd : ∀ x ∈ dests, InBlock f.geo.interior.extent (x + p) ∧ InBlock f.geo.interior.extent (x + q)) :
    ∃ o, BcOp.list p q (.more (.one c) d) win dests side v = .ok o ∧
      ∀ m, o.apply f m = oneByOne p q (.more (.one c) d) side v f dests m := by
  have hb := hu.block
  have flat : ∀ x, InBlock f.geo.interior.extent x →
      win.flatIndex x = .ok (fortranPos f.geo.window.npts x) ∧
      f.geo.interior.ijkIndexFromLocal (fortranPos f.geo.window.npts x) = .ok x := by
    intro x hxm
    have e0 : (0 : IntVec) + x = x := by ext <;> simp
    constructor
    · have := flatIndex_block (w := win) (c := x) (by rw [ho]; iv_omega) (by rw [ho, hw, e0, ← hb]; iv_omega)
      rw [this, ho, hw, e0]
    · have e1 : fortranPos f.geo.window.npts x = fortranPos f.geo.interior.extent x := by
        unfold fortranPos; rw [hx, hy]
      rw [e1]
      exact flatToIjk_pos hxm
  have key : ∀ (sa sb : IntVec), (∀ x ∈ dests, InBlock f.geo.interior.extent (x + sa) ∧ InBlock f.geo.interior.extent (x + sb)) →
      flatPoints win sa sb dests = .ok (dests.map fun x => fortranPos f.geo.window.npts (x + sa),
        dests.map fun x => fortranPos f.geo.window.npts (x + sb)) := by
    intro sa sb hab
    clear hd
    induction dests with
    | nil => rfl
    | cons x xs ih =>
      have := hab x (by simp)
      unfold flatPoints
      rw [(flat _ this.1).1, Outcome.ok_bind, (flat _ this.2).1, Outcome.ok_bind,
        ih fun y hy => hab y (by simp [hy]), Outcome.ok_bind]
      rfl
  have run : ∀ (ca cb : K) (sa sb : IntVec),
      (∀ x ∈ dests, InBlock f.geo.interior.extent (x + sa) ∧ InBlock f.geo.interior.extent (x + sb)) →
      (∀ x, BcOp.point p q (.more (.one c) d) x side v =
        .ok ⟨v, x + sa, x + sb, ca, cb, true, [], []⟩) → ∀ m,
      applyFlat f v ca cb (dests.map fun x => fortranPos f.geo.window.npts (x + sa))
        (dests.map fun x => fortranPos f.geo.window.npts (x + sb)) m =
      oneByOne p q (.more (.one c) d) side v f dests m := by
    intro ca cb sa sb hab hpt
    clear hd key
    induction dests with
    | nil => intro m; rfl
    | cons x xs ih =>
      intro m
      have := hab x (by simp)
      simp only [List.map_cons, applyFlat, oneByOne]
      rw [(flat _ this.1).2, Outcome.ok_bind, (flat _ this.2).2, Outcome.ok_bind, hpt, Outcome.ok_bind]
      unfold BcOp.apply
      simp only [if_true]
      congr 1
      funext m'
      exact ih (fun y hy => hab y (by simp [hy])) m'
  cases side with
  | noSide => exact absurd rfl hs
  | minus =>
    refine ⟨⟨v, 0, 0, c, d, false, dests.map fun x => fortranPos f.geo.window.npts (x + p),
      dests.map fun x => fortranPos f.geo.window.npts (x + q)⟩, ?_, fun m => ?_⟩
    · unfold BcOp.list
      simp only [if_true]
      rw [show Stencil.getCoef (Pts.more (.one c) d) 0 = .ok c from rfl,
        show Stencil.getCoef (Pts.more (.one c) d) 1 = .ok d from rfl, Outcome.ok_bind, Outcome.ok_bind, key p q hd]
      rfl
    · exact run c d p q hd (fun x => rfl) m
  | plus =>
    have hd' : ∀ x ∈ dests, InBlock f.geo.interior.extent (x + q) ∧ InBlock f.geo.interior.extent (x + p) :=
      fun x hx => (hd x hx).symm
    refine ⟨⟨v, 0, 0, d, c, false, dests.map fun x => fortranPos f.geo.window.npts (x + q),
      dests.map fun x => fortranPos f.geo.window.npts (x + p)⟩, ?_, fun m => ?_⟩
    · unfold BcOp.list
      simp only [reduceCtorEq, if_false]
      rw [show Stencil.getCoef (Pts.more (.one c) d) 0 = .ok c from rfl,
        show Stencil.getCoef (Pts.more (.one c) d) 1 = .ok d from rfl, Outcome.ok_bind, Outcome.ok_bind, key q p hd']
      rfl
    · exact run d c q p hd' (fun x => rfl) m

example : Usable BcEx.flat 0 ∧ BcEx.flat.geo.interior.Fits ∧ BcEx.flat.geo.window.offset = 0 ∧
    ∀ x ∈ [(⟨1, 0, 0⟩ : IntVec), ⟨2, 0, 0⟩], InBlock BcEx.flat.geo.interior.extent (x + ⟨-1, 0, 0⟩) ∧
      InBlock BcEx.flat.geo.interior.extent (x + 0) :=
  ⟨BcEx.flatUsable, by decide, rfl, by decide⟩

theorem bind_right {α : Type} (o : Outcome α) : (o >>= fun x => .ok x) = o := by cases o <;> rfl

theorem oneByOne_single (p q : IntVec) (c d : K) (side : Side) (v : K) (f : FieldObj) (x : IntVec) (m : Mem K) :
    oneByOne p q (.more (.one c) d) side v f [x] m =
      setCell f (x + ghostPoint side p q) (x + ghostPoint side q p) v (ghostCoef side c d) (ghostCoef side d c) m := by
  unfold oneByOne
  rw [point_ok, Outcome.ok_bind]
  unfold BcOp.apply
  simp only [if_true]
  exact bind_right _

/-- C33, deviation. NO_SIDE is the minus side for a point and the plus side for a list, so the
two set different cells: with a two-point average on three cells, around cell 1, the point
form sets cell 0 and the list form sets cell 1. -/
theorem _root_.SpatialOps.C33_no_side_differs :
    ∃ (f : FieldObj) (o : BcOp ℚ) (m1 m2 : Mem ℚ), Usable f 0 ∧
      BcOp.list ⟨-1, 0, 0⟩ 0 (.more (.one (1 / 2)) (1 / 2)) f.geo.window [⟨1, 0, 0⟩] .noSide 1 = .ok o ∧
      oneByOne ⟨-1, 0, 0⟩ 0 (.more (.one (1 / 2)) (1 / 2)) .noSide 1 f [⟨1, 0, 0⟩] (fun _ _ => 0) = .ok m1 ∧
      o.apply f (fun _ _ => 0) = .ok m2 ∧ m1 0 0 = 2 ∧ m1 0 1 = 0 ∧ m2 0 0 = 0 ∧ m2 0 1 = 2 := by
  have hu : Usable BcEx.flat 0 := BcEx.flatUsable
  obtain ⟨o, h1, h2⟩ := C33_list_is_points_partial (K := ℚ) ⟨-1, 0, 0⟩ 0 (1 / 2) (1 / 2) .plus (by decide) 1 BcEx.flat 0 hu
    (by decide) rfl rfl BcEx.flat.geo.window rfl rfl [⟨1, 0, 0⟩] (by decide)
  have e1 := setCell_ok hu (a := ⟨0, 0, 0⟩) (b := ⟨1, 0, 0⟩) (by decide) (by decide) (1 : ℚ) (1 / 2) (1 / 2) (fun _ _ => 0)
  have e2 := setCell_ok hu (a := ⟨1, 0, 0⟩) (b := ⟨0, 0, 0⟩) (by decide) (by decide) (1 : ℚ) (1 / 2) (1 / 2) (fun _ _ => 0)
  refine ⟨BcEx.flat, o, _, _, hu, h1, (oneByOne_single ..).trans e1, ((h2 _).trans (oneByOne_single ..)).trans e2, ?_⟩
  refine ⟨?_, ?_, ?_, ?_⟩ <;> simp [Mem.write, addr, fortranPos, BcEx.flat]

/-- C33, deviation. On a field with ghost layers the list form sets the wrong cells: the list's
window without ghosts numbers elements of the whole memory, and the application decodes the
numbers as if they counted interior cells. Around the first interior cell of `4x3` cells with
one ghost layer the point form sets the ghost cell left of it (element 6); the list form sets
element 15. -/
theorem _root_.SpatialOps.C33_ghost_layers_differ :
    ∃ (f : FieldObj) (o : BcOp ℚ) (m1 m2 : Mem ℚ), Usable f 0 ∧
      BcOp.list ⟨-1, 0, 0⟩ 0 (.more (.one (1 / 2)) (1 / 2)) f.geo.interior [0] .minus 1 = .ok o ∧
      oneByOne ⟨-1, 0, 0⟩ 0 (.more (.one (1 / 2)) (1 / 2)) .minus 1 f [0] (fun _ _ => 0) = .ok m1 ∧
      o.apply f (fun _ _ => 0) = .ok m2 ∧ m1 0 6 = 2 ∧ m1 0 15 = 0 ∧ m2 0 6 = 0 ∧ m2 0 15 = 2 := by
  have hu : Usable (NeboEx.fld false 0) 0 := BcEx.ghostUsable
  have e1 := setCell_ok hu (a := ⟨-1, 0, 0⟩) (b := ⟨0, 0, 0⟩) (by decide) (by decide) (1 : ℚ) (1 / 2) (1 / 2) (fun _ _ => 0)
  have e2 := setCell_ok hu (a := ⟨2, 1, 0⟩) (b := ⟨3, 1, 0⟩) (by decide) (by decide) (1 : ℚ) (1 / 2) (1 / 2) (fun _ _ => 0)
  have fp : flatPoints (NeboEx.fld false 0).geo.interior ⟨-1, 0, 0⟩ 0 [0] = .ok ([6], [7]) := by decide +kernel
  have i6 : (NeboEx.fld false 0).geo.interior.ijkIndexFromLocal 6 = .ok ⟨2, 1, 0⟩ := by decide +kernel
  have i7 : (NeboEx.fld false 0).geo.interior.ijkIndexFromLocal 7 = .ok ⟨3, 1, 0⟩ := by decide +kernel
  have e3 : (⟨1, 0, 0, 1 / 2, 1 / 2, false, [6], [7]⟩ : BcOp ℚ).apply (NeboEx.fld false 0) (fun _ _ => 0) =
      setCell (NeboEx.fld false 0) ⟨2, 1, 0⟩ ⟨3, 1, 0⟩ 1 (1 / 2) (1 / 2) (fun _ _ => 0) := by
    unfold BcOp.apply
    simp only [Bool.false_eq_true, if_false, applyFlat]
    rw [i6, Outcome.ok_bind, i7, Outcome.ok_bind]
    exact bind_right _
  refine ⟨NeboEx.fld false 0, ⟨1, 0, 0, 1 / 2, 1 / 2, false, [6], [7]⟩, _, _, hu, ?_, (oneByOne_single ..).trans e1, e3.trans e2, ?_⟩
  · unfold BcOp.list
    simp only [if_true]
    rw [fp]
    rfl
  · refine ⟨?_, ?_, ?_, ?_⟩ <;> simp [Mem.write, addr, fortranPos, NeboEx.fld, NeboEx.geo]

end

/-! ## Values set directly -/

section
variable {V : Type}

/-- C33. For values set directly, the list form built with the field's window without ghosts is
the point forms in order: every listed cell has the value, and nothing else changes. The
points may be ghost cells. -/
theorem _root_.SpatialOps.C33_direct_list_is_points (f : FieldObj) (b : Nat) (hu : Usable f b) (h0 : IntVec.Le 0 f.geo.interior.offset)
    (v : V) (ps : List IntVec) (hp : ∀ p ∈ ps, InMemory f p) (m : Mem V) :
    ∃ o m', Direct.atList f.geo.interior ps v = .ok o ∧ o.apply f m = .ok m' ∧
      directOneByOne v f ps m = .ok m' ∧ (∀ p ∈ ps, m' b (addr f p) = v) ∧
      ∀ blk a, (∀ p ∈ ps, (blk, a) ≠ (b, addr f p)) → m' blk a = m blk a := by
  have flat : ∀ p, InMemory f p → f.geo.interior.flatIndex p = .ok (addr f p) := by
    intro p h
    have := flatIndex_block (w := f.geo.interior) (c := p) h0 (by rw [hu.block]; exact h)
    rw [this, hu.block]
    rfl
  have pok : ∀ p, InMemory f p → ∀ m : Mem V, poke f (addr f p) v m = .ok (m.write b (addr f p) v) := by
    intro p h m
    have := fortranPos_bound h
    unfold poke FieldObj.subscriptM
    rw [Outcome.throwIf_false (by simp [hu.writable]), Outcome.ok_bind, Outcome.throwIf_false (by simp [hu.cpu]), Outcome.ok_bind, hu.mem]
    dsimp only
    rw [Outcome.pure_eq, Outcome.ok_bind, Outcome.ubUnless_true, Outcome.ok_bind]
    · rfl
    · exact this
  have fl : flatList f.geo.interior ps = .ok (ps.map (addr f)) := by
    clear m
    induction ps with
    | nil => rfl
    | cons p ps ih =>
      unfold flatList
      rw [flat p (hp p (by simp)), Outcome.ok_bind, ih fun q hq => hp q (by simp [hq])]
      rfl
  refine ⟨⟨0, v, false, ps.map (addr f)⟩, ?_⟩
  have run : ∃ m', pokeAll f v (ps.map (addr f)) m = .ok m' ∧
      directOneByOne v f ps m = .ok m' ∧ (∀ p ∈ ps, m' b (addr f p) = v) ∧
      ∀ blk a, (∀ p ∈ ps, (blk, a) ≠ (b, addr f p)) → m' blk a = m blk a := by
    clear fl
    induction ps generalizing m with
    | nil => exact ⟨m, rfl, rfl, by simp, fun _ _ _ => rfl⟩
    | cons p ps ih =>
      have h := hp p (by simp)
      obtain ⟨m', i1, i2, i3, i4⟩ := ih (fun q hq => hp q (by simp [hq])) (m.write b (addr f p) v)
      refine ⟨m', ?_, ?_, ?_, ?_⟩
      · simp only [List.map_cons, pokeAll]
        rw [pok p h, Outcome.ok_bind, i1]
      · unfold directOneByOne Direct.apply Direct.atPoint
        simp only [if_true]
        rw [flat p h, Outcome.ok_bind, pok p h, Outcome.ok_bind, i2]
      · intro q hq
        rcases List.mem_cons.1 hq with rfl | hq
        · by_cases hx : ∃ r ∈ ps, addr f r = addr f q
          · obtain ⟨r, hr, e⟩ := hx
            rw [← e]; exact i3 r hr
          · rw [i4 b (addr f q) fun r hr e => hx ⟨r, hr, (congrArg Prod.snd e).symm⟩]
            simp [Mem.write]
        · exact i3 q hq
      · intro blk a hn
        rw [i4 blk a fun q hq => hn q (by simp [hq])]
        have := hn p (by simp)
        unfold Mem.write
        rw [if_neg]
        rintro ⟨rfl, rfl⟩
        exact this rfl
  obtain ⟨m', r1, r2⟩ := run
  refine ⟨m', ?_, ?_, r2⟩
  · unfold Direct.atList
    rw [fl]
    rfl
  · unfold Direct.apply
    simp only [Bool.false_eq_true, if_false]
    exact r1

example : ∃ (f : FieldObj) (b : Nat) (ps : List IntVec), Usable f b ∧ IntVec.Le 0 f.geo.interior.offset ∧
    (∀ p ∈ ps, InMemory f p) ∧ ps.length = 3 :=
  ⟨NeboEx.fld false 0, 0, [⟨-1, 0, 0⟩, ⟨-1, 1, 0⟩, ⟨4, 2, 0⟩], BcEx.ghostUsable, by decide, by decide, rfl⟩

end

end Bc
end SpatialOps
