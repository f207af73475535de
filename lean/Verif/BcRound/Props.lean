import Verif.BcRound.Spec
import Verif.Bc.Props
import Verif.Round.Props

/-!
# Property C105: boundary conditions in floating point
-/

namespace SpatialOps
namespace BcRound

open Nebo Bc Round
open Stencil (Reg registrations Dir Tag FieldType Readable valueAt)

section
variable {K : Type} [Field K] [LinearOrder K] [IsStrictOrderedRing K] {u : K} {rnd : K → K}

omit [LinearOrder K] [IsStrictOrderedRing K] in
theorem val_sub (a b : Fl rnd) : (a - b).val = rnd (a.val - b.val) := rfl

/-- What is left of the value after solving for the cell and applying the operator. -/
theorem core (hf : Format u rnd) {ca : K} (hc : ca ≠ 0) (v t : K) :
    |rnd (rnd (rnd (rnd (v - t) / ca) * ca) + t) - v| ≤ grow u 4 * (|v - t| + |t|) := by
  have hu := hf.nonneg
  have h1 := ((((Err.self (u := u) (v - t)).rounded hf).div hu ca).rounded hf)
  have h2 := (Err.mul hu h1 (Err.self ca)).rounded hf
  have e1 : (v - t) / ca * ca = v - t := by field_simp
  have e2 : |v - t| / |ca| * |ca| = |v - t| := by
    have : |ca| ≠ 0 := abs_ne_zero.2 hc
    field_simp
  rw [e1, e2] at h2
  have h3 := (Err.add h2 ((Err.self (u := u) t).mono hu (by omega))).rounded hf
  rw [sub_add_cancel] at h3
  exact h3.1

theorem core_bound (hf : Format u rnd) {ca : K} (hc : ca ≠ 0) (v w : K) :
    |rnd (rnd (rnd (rnd (v - rnd w) / ca) * ca) + rnd w) - v| ≤ bcBound u v w := by
  have hu := hf.nonneg
  refine (core hf hc v (rnd w)).trans ?_
  have ht : |rnd w| ≤ (1 + u) * |w| := by
    have h1 := hf.close w
    have h2 := abs_add_le (rnd w - w) w
    rw [sub_add_cancel] at h2
    linarith
  have h3 : |v - rnd w| ≤ |v| + |rnd w| := abs_sub v (rnd w)
  unfold bcBound
  have e : grow u 5 = grow u 4 + u * (1 + u) ^ 4 := by unfold grow; ring
  have hg := grow_nonneg hu 4
  have hg4 : grow u 4 * (1 + u) ≤ grow u 5 := by
    have : grow u 5 = grow u 4 * (1 + u) + u := by unfold grow; ring
    linarith
  calc grow u 4 * (|v - rnd w| + |rnd w|) ≤ grow u 4 * (|v| + 2 * ((1 + u) * |w|)) := by
        apply mul_le_mul_of_nonneg_left _ hg
        linarith
    _ = grow u 4 * |v| + grow u 4 * (1 + u) * (2 * |w|) := by ring
    _ ≤ grow u 5 * |v| + grow u 5 * (2 * |w|) := by
        have a1 := mul_le_mul_of_nonneg_right (grow_mono hu (show 4 ≤ 5 by omega)) (abs_nonneg v)
        have a2 := mul_le_mul_of_nonneg_right hg4 (show 0 ≤ 2 * |w| by positivity)
        linarith
    _ = grow u 5 * (|v| + 2 * |w|) := by ring

end

/-! ## One point -/

section
variable {K : Type} [Add K] [Sub K] [Mul K] [Div K]

/-- What the condition writes, in any arithmetic. -/
theorem point_writes (p q : IntVec) (c d : K) (dest : IntVec) (side : Side) (v : K) (f : FieldObj) (b : Nat)
    (hu : Usable f b) (hp : InMemory f (dest + p)) (hq : InMemory f (dest + q)) (m : Mem K) :
    ∃ o, BcOp.point p q (.more (.one c) d) dest side v = .ok o ∧
      o.apply f m = .ok (m.write b (addr f (dest + ghostPoint side p q)) ((v - ghostCoef side d c *
        m b (addr f (dest + ghostPoint side q p))) / ghostCoef side c d)) := by
  refine ⟨_, point_ok p q c d dest side v, ?_⟩
  unfold BcOp.apply
  simp only [if_true]
  apply setCell_ok hu
  · cases side <;> assumption
  · cases side <;> assumption

end

section
variable {K : Type} [Add K] [Sub K] [Mul K] [Div K]

/-- What several conditions write, one after the other, in any arithmetic. -/
theorem several_write (p q : IntVec) (c d : K) (side : Side) (v : K) (f : FieldObj) (b : Nat) (hu : Usable f b)
    (dests : List IntVec) (hin : ∀ x ∈ dests, InMemory f (x + p) ∧ InMemory f (x + q))
    (sep : ∀ x ∈ dests, ∀ y ∈ dests, x + ghostPoint side q p ≠ y + ghostPoint side p q) (m : Mem K) :
    ∃ m', oneByOne p q (.more (.one c) d) side v f dests m = .ok m' ∧
      (∀ blk a, (∀ y ∈ dests, (blk, a) ≠ (b, addr f (y + ghostPoint side p q))) → m' blk a = m blk a) ∧
      ∀ y ∈ dests, m' b (addr f (y + ghostPoint side q p)) = m b (addr f (y + ghostPoint side q p)) ∧
        m' b (addr f (y + ghostPoint side p q)) =
          (v - ghostCoef side d c * m b (addr f (y + ghostPoint side q p))) / ghostCoef side c d := by
  have gm : ∀ x ∈ dests, InMemory f (x + ghostPoint side p q) ∧ InMemory f (x + ghostPoint side q p) := by
    intro x hx
    unfold ghostPoint
    split
    · exact (hin x hx).symm
    · exact hin x hx
  have ne : ∀ x ∈ dests, ∀ y ∈ dests, addr f (x + ghostPoint side q p) ≠ addr f (y + ghostPoint side p q) :=
    fun x hx y hy h => sep x hx y hy (addr_inj (gm x hx).2 (gm y hy).1 h)
  have key : ∀ todo, (∀ y ∈ todo, y ∈ dests) → ∀ m : Mem K,
      ∃ m', oneByOne p q (.more (.one c) d) side v f todo m = .ok m' ∧
        (∀ blk a, (∀ y ∈ todo, (blk, a) ≠ (b, addr f (y + ghostPoint side p q))) → m' blk a = m blk a) ∧
        ∀ y ∈ todo, m' b (addr f (y + ghostPoint side p q)) =
          (v - ghostCoef side d c * m b (addr f (y + ghostPoint side q p))) / ghostCoef side c d := by
    intro todo
    induction todo with
    | nil => intro _ m; exact ⟨m, rfl, fun _ _ _ => rfl, by simp⟩
    | cons z zs ih =>
      intro ht m
      have hz := ht z (by simp)
      obtain ⟨o, o1, o2⟩ := point_writes p q c d z side v f b hu (hin z hz).1 (hin z hz).2 m
      obtain ⟨m', i1, i2, i3⟩ := ih (fun y hy => ht y (by simp [hy])) (m.write b (addr f (z + ghostPoint side p q))
        ((v - ghostCoef side d c * m b (addr f (z + ghostPoint side q p))) / ghostCoef side c d))
      refine ⟨m', ?_, fun blk a h => ?_, fun y hy => ?_⟩
      · unfold oneByOne
        rw [o1, Outcome.ok_bind, o2, Outcome.ok_bind, i1]
      · rw [i2 blk a fun y hy => h y (by simp [hy])]
        unfold Mem.write
        rw [if_neg]
        rintro ⟨rfl, rfl⟩
        exact h z (by simp) rfl
      · by_cases hyz : y ∈ zs
        · rw [i3 y hyz]
          have := ne y (ht y hy) z hz
          unfold Mem.write
          rw [if_neg fun h => this h.2]
        · have hy : y = z := (List.mem_cons.1 hy).resolve_right hyz
          subst hy
          rw [i2]
          · unfold Mem.write
            rw [if_pos ⟨rfl, rfl⟩]
          · intro y' hy' h
            injection h with _ h
            have h := addr_inj (gm y hz).1 (gm y' (ht y' (by simp [hy']))).1 h
            apply hyz
            have : y = y' := by
              have h1 := congrArg IntVec.x h
              have h2 := congrArg IntVec.y h
              have h3 := congrArg IntVec.z h
              simp only [IntVec.add_x, IntVec.add_y, IntVec.add_z] at h1 h2 h3
              ext <;> omega
            rw [this]
            exact hy'
  obtain ⟨m', h1, h2, h3⟩ := key dests (fun _ h => h) m
  refine ⟨m', h1, h2, fun y hy => ⟨h2 _ _ fun z hz h => ?_, h3 y hy⟩⟩
  injection h with _ h
  exact ne y hy z hz h

end

theorem addr_eq {f : FieldObj} {dest x : IntVec} (hx : origin f.geo + x = f.geo.interior.offset + dest) (s : IntVec) :
    cellAddr f.geo (x + s) = addr f (dest + s) := by
  unfold cellAddr addr
  congr 1
  have h1 := congrArg IntVec.x hx
  have h2 := congrArg IntVec.y hx
  have h3 := congrArg IntVec.z hx
  simp only [IntVec.add_x, IntVec.add_y, IntVec.add_z] at h1 h2 h3
  ext <;> simp <;> omega

theorem addr_ne {f : FieldObj} {dest p q : IntVec} (hpq : p ≠ q) (hp : InMemory f (dest + p)) (hq : InMemory f (dest + q)) :
    addr f (dest + p) ≠ addr f (dest + q) := by
  intro h
  apply hpq
  have := addr_inj hp hq h
  have h1 := congrArg IntVec.x this
  have h2 := congrArg IntVec.y this
  have h3 := congrArg IntVec.z this
  simp only [IntVec.add_x, IntVec.add_y, IntVec.add_z] at h1 h2 h3
  ext <;> omega

section
variable {K : Type} [Field K] [LinearOrder K] [IsStrictOrderedRing K] {u : K} {rnd : K → K}

/-- The operator at a cell whose two values are related as the condition leaves them. -/
theorem stencil_bound (hf : Format u rnd) {p q : IntVec} {c d : Fl rnd} {side : Side} (hc : (ghostCoef side c d).val ≠ 0)
    {v : Fl rnd} {f : FieldObj} {b : Nat} (hu : Usable f b) {dest x : IntVec}
    (hx : origin f.geo + x = f.geo.interior.offset + dest) {m' : Mem (Fl rnd)} {w : Fl rnd}
    (hw : m' b (addr f (dest + ghostPoint side q p)) = w)
    (hg : m' b (addr f (dest + ghostPoint side p q)) = (v - ghostCoef side d c * w) / ghostCoef side c d) :
    |((Expr.stencil (.more (.one (p, c)) (q, d)) (.field f)).value m' x : Fl rnd).val - v.val| ≤
      bcBound u v.val ((ghostCoef side d c).val * w.val) := by
  have e := core_bound hf hc v.val ((ghostCoef side d c).val * w.val)
  have ad := fun s => addr_eq hx s
  simp only [Expr.value, Pts.sum, ad, hu.mem, Option.getD_some]
  cases side
  all_goals
    simp only [ghostPoint, ghostCoef, reduceCtorEq, if_true, if_false] at hw hg e ⊢
    rw [hg, hw]
    refine Eq.trans_le ?_ e
    simp only [val_add, val_mul, val_div, val_sub]
    try rw [add_comm (rnd (w.val * _))]
    rw [mul_comm w.val]

/-- C105. A boundary condition built for one point from a two-point operator and imposed in floating point: the operator, evaluated
in floating point at that point, gives the value up to five roundings of the value and of twice the contribution of
the cell that is not set. At most one cell has changed. -/
theorem _root_.SpatialOps.C105_operator_gives_value (hf : Format u rnd) (p q : IntVec) (hpq : p ≠ q) (c d : Fl rnd) (dest : IntVec)
    (side : Side) (hc : (ghostCoef side c d).val ≠ 0) (v : Fl rnd) (f : FieldObj) (b : Nat) (hu : Usable f b)
    (hp : InMemory f (dest + p)) (hq : InMemory f (dest + q)) (m : Mem (Fl rnd)) :
    ∃ o m', BcOp.point p q (.more (.one c) d) dest side v = .ok o ∧ o.apply f m = .ok m' ∧
      (∀ x, origin f.geo + x = f.geo.interior.offset + dest →
        |((Expr.stencil (.more (.one (p, c)) (q, d)) (.field f)).value m' x : Fl rnd).val - v.val| ≤
          bcBound u v.val ((ghostCoef side d c).val * (m b (addr f (dest + ghostPoint side q p))).val)) ∧
      OnlyCell f b (dest + ghostPoint side p q) m m' := by
  obtain ⟨o, h1, h2⟩ := point_writes p q c d dest side v f b hu hp hq m
  refine ⟨o, _, h1, h2, fun x hx => ?_, ?_⟩
  · have hne := addr_ne hpq hp hq
    refine stencil_bound hf hc hu hx ?_ ?_
    · unfold Mem.write
      rw [if_neg]
      rintro ⟨-, h⟩
      unfold ghostPoint at h
      split at h
      · exact hne h
      · exact hne h.symm
    · unfold Mem.write
      rw [if_pos ⟨rfl, rfl⟩]
  · intro blk a h
    unfold Mem.write
    rw [if_neg]
    rintro ⟨rfl, rfl⟩
    exact h rfl

/-- C105. Conditions of several points, imposed one after the other: all of them hold in the end up to the same errors, if no point's other
cell is a cell being set. -/
theorem _root_.SpatialOps.C105_several_points (hf : Format u rnd) (p q : IntVec) (c d : Fl rnd) (side : Side)
    (hc : (ghostCoef side c d).val ≠ 0) (v : Fl rnd) (f : FieldObj) (b : Nat) (hu : Usable f b) (dests : List IntVec)
    (hin : ∀ x ∈ dests, InMemory f (x + p) ∧ InMemory f (x + q))
    (sep : ∀ x ∈ dests, ∀ y ∈ dests, x + ghostPoint side q p ≠ y + ghostPoint side p q) (m : Mem (Fl rnd)) :
    ∃ m', oneByOne p q (.more (.one c) d) side v f dests m = .ok m' ∧
      (∀ y ∈ dests, ∀ x, origin f.geo + x = f.geo.interior.offset + y →
        |((Expr.stencil (.more (.one (p, c)) (q, d)) (.field f)).value m' x : Fl rnd).val - v.val| ≤
          bcBound u v.val ((ghostCoef side d c).val * (m b (addr f (y + ghostPoint side q p))).val)) ∧
      ∀ blk a, (∀ y ∈ dests, (blk, a) ≠ (b, addr f (y + ghostPoint side p q))) → m' blk a = m blk a := by
  obtain ⟨m', h1, h2, h3⟩ := several_write p q c d side v f b hu dests hin sep m
  exact ⟨m', h1, fun y hy x hx => stencil_bound hf hc hu hx (h3 y hy).1 (h3 y hy).2, h2⟩

/-! ## The registered operators, and the test of the repository -/

theorem rnd_ne (hf : Format u rnd) (hu : u < 1) {x : K} (hx : x ≠ 0) : rnd x ≠ 0 := by
  intro h
  have h1 := hf.close x
  rw [h, zero_sub, abs_neg] at h1
  have h2 : 0 < |x| := abs_pos.2 hx
  nlinarith

/-- C105. For every two-point operator that build_stencils registers, with the coefficients it has in floating point: impose the condition, apply
the operator to the field, and the result at the point is the value, up to the same errors. -/
theorem _root_.SpatialOps.C105_registered_operators (hf : Format u rnd) (hu1 : u < 1) (r : Reg) (hr : r ∈ registrations)
    (h : Dir → Fl rnd) (hh : ∀ d, (h d).val ≠ 0) (op : Tag) (p q : IntVec) (s t : FieldType)
    (hty : r.type = some (.coefs op (.more (.one p) q) s t)) (dest : IntVec) (side : Side) (v : Fl rnd) (f : FieldObj) (b : Nat)
    (hu : Usable f b) (hp : InMemory f (dest + p)) (hq : InMemory f (dest + q)) (n : IntVec) (hn : IntVec.Lt 0 n) (df : FieldObj) (bd : Nat)
    (ha : Readable n r f df bd) (x : IntVec) (hi : Interior n df x) (hx : origin f.geo + x = f.geo.interior.offset + dest)
    (m : Mem (Fl rnd)) :
    ∃ c d o m' m'', r.coef.build h = some (.more (.one c) d) ∧ BcOp.point p q (.more (.one c) d) dest side v = .ok o ∧
      o.apply f m = .ok m' ∧ OnlyCell f b (dest + ghostPoint side p q) m m' ∧ r.applyToField h f df m' = .ok m'' ∧
      |(valueAt m'' df x).val - v.val| ≤
        bcBound u v.val ((ghostCoef side d c).val * (m b (addr f (dest + ghostPoint side q p))).val) := by
  have hok := List.all_eq_true.1 all_twoPoint r hr
  unfold twoPointOk at hok
  rw [hty] at hok
  simp only [Bool.and_eq_true, decide_eq_true_eq] at hok
  obtain ⟨hpq, hco⟩ := hok
  have n1 : rnd (1 / 2 : K) ≠ 0 := rnd_ne hf hu1 (by norm_num)
  have hcs : ∃ c d, r.coef.build h = some (.more (.one c) d) ∧ c.val ≠ 0 ∧ d.val ≠ 0 := by
    cases hc : r.coef with
    | half => exact ⟨1 / 2, 1 / 2, rfl, by rw [val_div, val_two, val_one]; exact n1, by rw [val_div, val_two, val_one]; exact n1⟩
    | per a =>
      refine ⟨-1 / h a, 1 / h a, rfl, ?_, ?_⟩
      · rw [val_div]
        exact rnd_ne hf hu1 (div_ne_zero (by rw [val_neg, val_one]; norm_num) (hh a))
      · rw [val_div]
        exact rnd_ne hf hu1 (div_ne_zero (by rw [val_one]; norm_num) (hh a))
    | halfPer a =>
      refine ⟨-(1 / 2) / h a, 1 / 2 / h a, rfl, ?_, ?_⟩
      · rw [val_div]
        exact rnd_ne hf hu1 (div_ne_zero (by rw [val_neg, val_div, val_two, val_one]; exact neg_ne_zero.2 n1) (hh a))
      · rw [val_div]
        exact rnd_ne hf hu1 (div_ne_zero (by rw [val_div, val_two, val_one]; exact n1) (hh a))
    | quarter => rw [hc] at hco; simp at hco
    | absent => rw [hc] at hco; simp at hco
  obtain ⟨c, d, hcs, hc, hd⟩ := hcs
  obtain ⟨o, m', h1, h2, h3, h4⟩ := C105_operator_gives_value hf p q hpq c d dest side
    (by unfold ghostCoef; split_ifs <;> assumption) v f b hu hp hq m
  have he : (Stencil.OpType.coefs op (.more (.one p) q) s t).apply (r.coef.build h) (.field f) =
      some (Expr.stencil (.more (.one (p, c)) (q, d)) (.field f)) := by
    rw [hcs]
    rfl
  obtain ⟨m'', h5, h6, -⟩ := Stencil.apply_expr h hty hn he ha m'
  refine ⟨c, d, o, m', m'', hcs, h1, h2, h4, h5, ?_⟩
  rw [h6 x hi]
  exact h3 x hx

/-- C105. The test of the repository (testOpBC.cpp) accepts whenever twice the contribution of the cell that is not set is small
enough in comparison with the value and the tolerance. -/
theorem _root_.SpatialOps.C105_test_accepts (hf : Format u rnd) (hu1 : u < 1) (r : Reg) (hr : r ∈ registrations)
    (h : Dir → Fl rnd) (hh : ∀ d, (h d).val ≠ 0) (op : Tag) (p q : IntVec) (s t : FieldType)
    (hty : r.type = some (.coefs op (.more (.one p) q) s t)) (ijk : IntVec) (side : Side) (tol v : Fl rnd) (hv : v.val ≠ 0)
    (f df : FieldObj) (b bd : Nat) (hu : Usable f b) (hp : InMemory f (ijk + p)) (hq : InMemory f (ijk + q)) (n : IntVec) (hn : IntVec.Lt 0 n)
    (ha : Readable n r f df bd) (af : Aligned f) (ad : Aligned df) (hb : InBlock df.geo.interior.extent ijk) (hi : Interior n df ijk)
    (m : Mem (Fl rnd)) (B : K)
    (hB : ∀ c d, r.coef.build h = some (.more (.one c) d) →
      |(ghostCoef side d c).val * (m b (addr f (ijk + ghostPoint side q p))).val| ≤ B)
    (h1 : grow u 6 * (|v.val| + 2 * B) < tol.val) (h2 : grow u 7 * (|v.val| + 2 * B) < tol.val * |v.val|) :
    testBcHelper r h ijk side tol v f df m = .ok true := by
  have hx : origin f.geo + ijk = f.geo.interior.offset + ijk := by rw [af.offset]
  obtain ⟨c, d, o, m', m'', a1, a2, a3, -, a4, a5⟩ := C105_registered_operators hf hu1 r hr h hh op p q s t hty ijk side v f b hu
    hp hq n hn df bd ha ijk hi hx m
  have u0 := hf.nonneg
  obtain ⟨i1, i2⟩ := Window.flatIndex_eq_ok ad.fits hb
  have hcell : cellAddr df.geo ijk = fortranPos df.geo.interior.npts (df.geo.interior.offset + ijk) := by
    unfold cellAddr
    rw [ad.block, ad.offset]
  have hsub : df.subscriptC (fortranPos df.geo.interior.npts (df.geo.interior.offset + ijk)) =
      .ok (bd, cellAddr df.geo ijk) := by
    unfold FieldObj.subscriptC
    rw [ha.target.mem, ← hcell]
    simp [ha.target.cpu]
  have hroom : 0 ≤ cellAddr df.geo ijk ∧ cellAddr df.geo ijk < df.geo.window.globNpts := by
    rw [hcell, ← show df.geo.interior.globNpts = df.geo.window.globNpts by unfold Window.globNpts; rw [ad.block]]
    exact fortranPos_bound i2
  have hval : m'' bd (cellAddr df.geo ijk) = valueAt m'' df ijk := by
    unfold valueAt
    rw [ha.target.mem]
    rfl
  unfold testBcHelper
  rw [hty, a1]
  simp only [s1Shift, s2Shift]
  rw [a2, Outcome.ok_bind, a3, Outcome.ok_bind, a4, Outcome.ok_bind, i1, Outcome.ok_bind, hsub, Outcome.ok_bind,
    Outcome.ubUnless_true hroom, Outcome.ok_bind, hval]
  have hb5 : |(valueAt m'' df ijk).val - v.val| ≤ grow u 5 * (|v.val| + 2 * B) := by
    refine a5.trans (mul_le_mul_of_nonneg_left ?_ (grow_nonneg u0 5))
    have := hB c d a1
    linarith
  have hpos : 0 ≤ |v.val| + 2 * B := by
    have := (abs_nonneg _).trans (hB c d a1)
    positivity
  have r1 : ∀ x : K, |rnd x| ≤ (1 + u) * |x| := by
    intro x
    have k1 := hf.close x
    have k2 := abs_add_le (rnd x - x) x
    rw [sub_add_cancel] at k2
    linarith
  have gs : ∀ k : Nat, (1 + u) * grow u k ≤ grow u (k + 1) := by
    intro k
    have : grow u (k + 1) = (1 + u) * grow u k + u := by unfold grow; ring
    linarith
  have e1 : |rnd ((valueAt m'' df ijk).val - v.val)| ≤ grow u 6 * (|v.val| + 2 * B) := by
    refine (r1 _).trans ((mul_le_mul_of_nonneg_left hb5 (by linarith)).trans ?_)
    rw [← mul_assoc]
    exact mul_le_mul_of_nonneg_right (gs 5) hpos
  have hv' : 0 < |v.val| := abs_pos.2 hv
  have e2 : |rnd (|rnd ((valueAt m'' df ijk).val - v.val)| / |v.val|)| * |v.val| ≤ grow u 7 * (|v.val| + 2 * B) := by
    have k := r1 (|rnd ((valueAt m'' df ijk).val - v.val)| / |v.val|)
    rw [abs_div, abs_abs, abs_abs] at k
    have k2 := mul_le_mul_of_nonneg_right k hv'.le
    refine k2.trans ?_
    rw [mul_assoc, div_mul_cancel₀ _ hv'.ne']
    refine (mul_le_mul_of_nonneg_left e1 (by linarith)).trans ?_
    rw [← mul_assoc]
    exact mul_le_mul_of_nonneg_right (gs 6) hpos
  have e3 : rnd (|rnd ((valueAt m'' df ijk).val - v.val)| / |v.val|) < tol.val := by
    refine (le_abs_self _).trans_lt ?_
    exact lt_of_mul_lt_mul_right (e2.trans_lt h2) hv'.le
  show Outcome.ok _ = _
  congr 1
  unfold isOkay
  simp only [Bool.and_eq_true, decide_eq_true_eq]
  exact ⟨e1.trans_lt h1, e3⟩

/-! ## Nebo boundary conditions -/

/-- C105. A Nebo boundary condition in floating point: for every marked cell `g` the equation
`destCoef * phi(g + dest) + srcCoef * phi(g + src) = gamma(g)` holds afterwards, for the numbers in memory, up to three roundings of `gamma` and
of the contribution of the source. The conditions are those of `C32_nebo_builder`. -/
theorem _root_.SpatialOps.C105_nebo_builder (hf : Format u rnd) (o : NeboBc (Fl rnd)) (n : IntVec) (hn : IntVec.Lt 0 n) (phi : FieldObj) (b : Nat)
    (ht : Target n phi b) (mask : MaskObj) (hk : OnMesh n mask.geo)
    (hks : mask.bits.size = roundToInt mask.geo.window.globNpts) (gamma : Expr (Fl rnd) .num) (hg : gamma.Wf n)
    (minus : Bool) (hs : o.maskShift minus = -o.dest)
    (hd : ∀ c, Interior n phi c → (o.rhs mask phi gamma minus).DefinedAt n c) (hc : o.destCoef.val ≠ 0)
    (hgi : gamma.Independent phi (-o.dest))
    (sep : ∀ g, Marked mask g → ¬ Marked mask (g + o.src - o.dest)) (m : Mem (Fl rnd)) :
    ∃ m', o.apply mask phi gamma minus m = .ok m' ∧
      (∀ g, Marked mask g → Stored n phi (g + o.dest) → (o.rhs mask phi gamma minus).DefinedAt n (g + o.dest) →
        |o.destCoef.val * (m' b (cellAddr phi.geo (g + o.dest))).val + o.srcCoef.val * (m' b (cellAddr phi.geo (g + o.src))).val -
          (gamma.value m g : Fl rnd).val| ≤
        grow u 3 * (|(gamma.value m g : Fl rnd).val| + |o.srcCoef.val * (m b (cellAddr phi.geo (g + o.src))).val|)) ∧
      ∀ blk a, (blk ≠ b ∨ ∀ g, Marked mask g → Stored n phi (g + o.dest) → cellAddr phi.geo (g + o.dest) ≠ a) →
        m' blk a = m blk a := by
  have u0 := hf.nonneg
  obtain ⟨m', a1, a2, a3⟩ := nebo_values o n hn phi b ht mask hk hks gamma hg minus hs hd hgi sep m
  refine ⟨m', a1, fun g h1 h2 h3 => ?_, a3⟩
  obtain ⟨e1, e2⟩ := a2 g h1 h2 h3
  rw [e1, e2]
  generalize (m b (cellAddr phi.geo (g + o.src))) = x
  generalize (gamma.value m g : Fl rnd) = y
  have k0 : Err u 1 (rnd (x.val * o.srcCoef.val)) (x.val * o.srcCoef.val) |x.val * o.srcCoef.val| := (Err.self _).rounded hf
  have k1 := (Err.sub ((Err.self (u := u) y.val).mono u0 (show 0 ≤ 1 by omega)) k0).rounded hf
  have k2 := ((k1.div u0 o.destCoef.val).rounded hf).1
  have hc' : 0 < |o.destCoef.val| := abs_pos.2 hc
  have k3 := mul_le_mul_of_nonneg_left k2 hc'.le
  rw [← abs_mul] at k3
  refine Eq.trans_le ?_ (k3.trans (le_of_eq ?_))
  · rw [val_div, val_sub, val_mul]
    congr 1
    field_simp
    ring
  · rw [mul_comm x.val]
    field_simp

end

/-! ## The contribution of the other cell cannot be left out of the bound -/

/-- C105. In `double`, with the interpolant: next to a cell of value `-2^54`, a boundary value of 1 gets lost, and the operator gives 0. -/
theorem _root_.SpatialOps.C105_value_can_be_lost {K : Type} [Field K] [LinearOrder K] [IsStrictOrderedRing K] [FloorRing K] (p q : IntVec)
    (hpq : p ≠ q) (dest : IntVec) (f : FieldObj) (b : Nat) (hu : Usable f b) (hp : InMemory f (dest + p)) (hq : InMemory f (dest + q))
    (m : Mem (Fl (K := K) (roundEven 53))) (hm : (m b (addr f (dest + q))).val = -2 ^ 54) :
    ∃ o m', BcOp.point p q (.more (.one ⟨1 / 2⟩) ⟨1 / 2⟩) dest .minus ⟨1⟩ = .ok o ∧ o.apply f m = .ok m' ∧
      ∀ x, origin f.geo + x = f.geo.interior.offset + dest →
        ((Expr.stencil (.more (.one (p, ⟨1 / 2⟩)) (q, ⟨1 / 2⟩)) (.field f)).value m' x : Fl (K := K) (roundEven 53)).val = 0 := by
  obtain ⟨o, h1, h2⟩ := point_writes (K := Fl (K := K) (roundEven 53)) p q ⟨1 / 2⟩ ⟨1 / 2⟩ dest .minus ⟨1⟩ f b hu hp hq m
  refine ⟨o, _, h1, h2, fun x hx => ?_⟩
  have hne := addr_ne hpq hp hq
  have ad := fun s => addr_eq hx s
  have t53 : ∀ k : Int, roundEven 53 ((2 : K) ^ k) = 2 ^ k := roundEven_two_pow (by norm_num)
  have r0 : roundEven 53 (1 / 2 * -2 ^ 54 : K) = -2 ^ 53 := by
    rw [show (1 / 2 * -2 ^ 54 : K) = -((2 : K) ^ (53 : Int)) by norm_num, roundEven_neg, t53]
    norm_num
  have r1 : roundEven 53 (1 - -2 ^ 53 : K) = 2 ^ 53 := by
    rw [roundEven_unit 53 (j := 1) (by norm_num) (by norm_num), nearestEven_of_even (M := 2 ^ 52) (by norm_num) (by norm_num)]
    norm_num
  have r2 : roundEven 53 (2 ^ 53 / (1 / 2) : K) = 2 ^ 54 := by
    rw [show (2 ^ 53 / (1 / 2) : K) = (2 : K) ^ (54 : Int) by norm_num, t53]
    norm_num
  have r3 : roundEven 53 (2 ^ 54 * (1 / 2) : K) = 2 ^ 53 := by
    rw [show (2 ^ 54 * (1 / 2) : K) = (2 : K) ^ (53 : Int) by norm_num, t53]
    norm_num
  simp only [Expr.value, Pts.sum, ad, hu.mem, Option.getD_some, Mem.write, ghostPoint, ghostCoef, reduceCtorEq, if_false, if_true,
    true_and, hne.symm, val_add, val_mul, val_div, val_sub, hm]
  rw [r0, r1, r2, r3, show (-2 ^ 54 * (1 / 2) : K) = 1 / 2 * -2 ^ 54 by ring, r0, add_neg_cancel, roundEven_zero]

/-! ## Non-vacuity -/

namespace BcRoundEx

/-- The interpolant from scalar volumes to x faces. -/
def interp : Reg := ⟨.interpolant, .sVol, .sSurfX, .half⟩

theorem aligned (bx : Bool) (b : Nat) : Aligned (NeboEx.fld bx b) := by
  have h1 : (NeboEx.geo bx).interior.offset = origin (NeboEx.geo bx) := by cases bx <;> decide
  have h2 : (NeboEx.geo bx).interior.npts = (NeboEx.geo bx).window.npts := by cases bx <;> decide
  have h3 : (NeboEx.geo bx).interior.Fits := by cases bx <;> (unfold Window.Fits; decide)
  exact ⟨h1, h2, h3⟩

end BcRoundEx

/-- Example: the conditions of `C105_operator_gives_value` and `C105_registered_operators`, for the left face of a field with a ghost layer. -/
example : Format ((2 : ℚ) ^ (-53 : Int)) RoundEx.R ∧ (2 : ℚ) ^ (-53 : Int) < 1 ∧ BcRoundEx.interp ∈ registrations ∧
    BcRoundEx.interp.type = some (.coefs .interpolant (.more (.one ⟨-1, 0, 0⟩) ⟨0, 0, 0⟩) .sVol .sSurfX) ∧
    Usable (NeboEx.fld false 0) 0 ∧ InMemory (NeboEx.fld false 0) (0 + ⟨-1, 0, 0⟩) ∧ InMemory (NeboEx.fld false 0) (0 + ⟨0, 0, 0⟩) ∧
    Readable ⟨4, 3, 1⟩ BcRoundEx.interp (NeboEx.fld false 0) (NeboEx.fld true 1) 1 ∧ Interior ⟨4, 3, 1⟩ (NeboEx.fld true 1) 0 ∧
    origin (NeboEx.fld false 0).geo + 0 = (NeboEx.fld false 0).geo.interior.offset + 0 :=
  ⟨RoundEx.format, by norm_num, by decide +kernel, rfl, BcEx.ghostUsable, by decide, by decide,
    ConserveEx.interpReads 0 1 (by decide), by rw [ConserveEx.interior]; decide, by decide⟩

/-- Example: the test of the repository with a boundary value of 2 and contents between -2 and 2, in `double`, with the tolerance
`2.0e-12`. -/
example (m : Mem (Fl RoundEx.R)) (hm : ∀ b a, |(m b a).val| ≤ 2) :
    testBcHelper BcRoundEx.interp (fun _ => ⟨1⟩) 0 .minus ⟨2 / 10 ^ 12⟩ ⟨2⟩ (NeboEx.fld false 0) (NeboEx.fld true 1) m = .ok true := by
  refine C105_test_accepts RoundEx.format (by norm_num) BcRoundEx.interp (by decide +kernel) _ (fun _ => one_ne_zero) .interpolant ⟨-1, 0, 0⟩
    ⟨0, 0, 0⟩ .sVol .sSurfX rfl 0 .minus _ _ (by norm_num) (NeboEx.fld false 0) (NeboEx.fld true 1) 0 1 BcEx.ghostUsable (by decide)
    (by decide) ⟨4, 3, 1⟩ (by decide) (ConserveEx.interpReads 0 1 (by decide)) (BcRoundEx.aligned _ _) (BcRoundEx.aligned _ _) (by unfold InBlock; decide)
    (by rw [ConserveEx.interior]; decide) m 2 ?_ ?_ ?_
  · intro c d hcd
    have hd : d = 1 / 2 := by
      have : BcRoundEx.interp.coef.build (fun _ => (⟨1⟩ : Fl RoundEx.R)) = some (.more (.one (1 / 2)) (1 / 2)) := rfl
      rw [this] at hcd
      injection hcd with hcd
      injection hcd with _ hcd
      exact hcd.symm
    have hh : |(1 / 2 : Fl RoundEx.R).val| ≤ 1 := by
      have h1 := RoundEx.format.close (1 / 2)
      have h2 := abs_add_le (RoundEx.R (1 / 2) - 1 / 2) (1 / 2)
      rw [sub_add_cancel] at h2
      rw [val_div, val_two, val_one]
      refine h2.trans ((add_le_add_left h1 _).trans ?_)
      norm_num [abs_of_pos]
    rw [show ghostCoef Side.minus d c = 1 / 2 by simp [ghostCoef, hd], abs_mul]
    have := hm 0 (addr (NeboEx.fld false 0) (0 + ghostPoint Side.minus ⟨0, 0, 0⟩ ⟨-1, 0, 0⟩))
    calc _ ≤ 1 * (2 : ℚ) := mul_le_mul hh this (abs_nonneg _) zero_le_one
      _ = 2 := one_mul 2
  · norm_num [grow, abs_of_pos]
  · norm_num [grow, abs_of_pos]

/-- Example: three boundary faces, one after the other. -/
example : (∀ x ∈ [(0 : IntVec), ⟨0, 1, 0⟩, ⟨0, 2, 0⟩], InMemory (NeboEx.fld false 0) (x + ⟨-1, 0, 0⟩) ∧ InMemory (NeboEx.fld false 0) (x + 0)) ∧
    (∀ x ∈ [(0 : IntVec), ⟨0, 1, 0⟩, ⟨0, 2, 0⟩], ∀ y ∈ [(0 : IntVec), ⟨0, 1, 0⟩, ⟨0, 2, 0⟩],
      x + ghostPoint .minus 0 ⟨-1, 0, 0⟩ ≠ y + ghostPoint .minus ⟨-1, 0, 0⟩ 0) ∧
    (ghostCoef Side.minus (⟨1 / 2⟩ : Fl RoundEx.R) ⟨1 / 2⟩).val ≠ 0 :=
  ⟨by decide, by decide, by simp [ghostCoef]⟩

/-- Example: a memory that meets the condition of `C105_value_can_be_lost`. -/
example : ∃ m : Mem (Fl (roundEven (K := ℚ) 53)), (m 0 (addr (NeboEx.fld false 0) (0 + 0))).val = -2 ^ 54 :=
  ⟨fun _ _ => ⟨-2 ^ 54⟩, rfl⟩

/-- Example: the Nebo condition of C32's example, in `double`. -/
example : ∃ (o : NeboBc (Fl RoundEx.R)) (n : IntVec) (phi : FieldObj) (b : Nat) (mask : MaskObj), IntVec.Lt 0 n ∧ Target n phi b ∧
    OnMesh n mask.geo ∧ mask.bits.size = roundToInt mask.geo.window.globNpts ∧ o.maskShift true = -o.dest ∧
    (∀ c, Interior n phi c → (o.rhs mask phi (.scalar (t := .num) ⟨5⟩) true).DefinedAt n c) ∧ o.destCoef.val ≠ 0 ∧
    (Expr.scalar (V := Fl RoundEx.R) (t := .num) ⟨5⟩).Independent phi (-o.dest) ∧
    (∀ g, Marked mask g → ¬ Marked mask (g + o.src - o.dest)) ∧
    ∃ g, Marked mask g ∧ Stored n phi (g + o.dest) := by
  refine ⟨⟨⟨-1, 0, 0⟩, 0, .sVol, .sSurfX, ⟨1 / 2⟩, ⟨1 / 2⟩⟩, ⟨4, 3, 1⟩, NeboEx.fld false 0, 0, BcEx.mask, by decide,
    NeboEx.target false 0, NeboEx.onMesh false, by decide, rfl, ?_, by norm_num, trivial, ?_,
    0, (BcEx.marked 0).2 rfl, by unfold Stored; decide⟩
  · intro c hc
    have hh := hasCell_iff (NeboEx.onMesh false)
    have e1 : (NeboEx.geo false).validGhosts.minus = ⟨1, 1, 0⟩ := rfl
    have e2 : (NeboEx.geo false).validGhosts.plus + (NeboEx.geo false).bc.hasExtra = ⟨1, 1, 0⟩ := by decide
    have e5 : (NeboEx.fld false 0).geo.bc.hasExtra = 0 := by decide
    have e6 : Stencil.tSub ⟨0, 0, 0⟩ ⟨-1, 0, 0⟩ = ⟨1, 0, 0⟩ := by decide
    have e7 : Stencil.tSub 0 ⟨-1, 0, 0⟩ = ⟨1, 0, 0⟩ := by decide
    unfold Interior at hc
    rw [e5] at hc
    rw [e1, e2] at hh
    unfold InBox at hh
    have h1 : HasCell (NeboEx.geo false) c := (hh c).2 (by iv_omega)
    have h2 : HasCell (NeboEx.geo false) (c + ⟨1, 0, 0⟩) := (hh _).2 (by iv_omega)
    have h3 : ∀ d : IntVec, d = c ∨ d = c + ⟨1, 0, 0⟩ →
        (Expr.scalar (V := Fl RoundEx.R) (t := .num) ⟨5⟩).DefinedAt ⟨4, 3, 1⟩ d := by
      rintro d (rfl | rfl) <;> simp only [Expr.DefinedAt, ghostMax] <;> iv_omega
    refine ⟨⟨h1, h2⟩, ⟨⟨?_, ?_, h3 c (.inl rfl)⟩, h3 c (.inl rfl)⟩, h1⟩
    · intro q hq
      rw [List.mem_singleton.1 hq, e6]
      exact ⟨h3 c (.inl rfl), h3 _ (.inr rfl)⟩
    · intro q hq
      rw [List.mem_singleton.1 hq, e7]
      exact ⟨h1, h2⟩
  · intro g hg h
    rw [BcEx.marked] at hg h
    subst hg
    revert h
    decide

end BcRound
end SpatialOps
