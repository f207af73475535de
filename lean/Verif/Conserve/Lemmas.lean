import Verif.Conserve.Spec
import Verif.Stencil.Props
import Mathlib.Algebra.BigOperators.Intervals
import Mathlib.Algebra.BigOperators.Ring.Finset
import Mathlib.Algebra.Order.Field.Basic

/-!
# Lemmas for conservation
-/

namespace SpatialOps
namespace Stencil

open Nebo

/-! ## Two-point operators -/

/-- The low and high point of a two-point operator. -/
def lowPt (dest : FieldType) (d : Dir) : IntVec := if staggered dest d then -unit d else 0

theorem lowSide_eq (dest : FieldType) (d : Dir) (c : IntVec) : lowSide dest d c = c + lowPt dest d := by
  unfold lowSide lowPt
  split
  · apply IntVec.ext <;> simp [IntVec.sub_x, IntVec.sub_y, IntVec.sub_z] <;> omega
  · apply IntVec.ext <;> simp

/-- The check of one two-point operator. -/
def twoPoint (r : Reg) : Bool :=
  match r.op with
  | .gradient | .divergence => [Dir.x, .y, .z].any fun d => onlyDir r.src r.dest d && (r.coef == .per d) &&
      (r.type == some (.coefs r.op (.more (.one (lowPt r.dest d)) (lowPt r.dest d + unit d)) r.src r.dest))
  | _ => true

theorem all_twoPoint : registrations.all twoPoint = true := by decide +kernel

theorem onlyDir_iff {src dest : FieldType} {d : Dir} (h : onlyDir src dest d = true) : OnlyDirection src dest d := by
  intro d'
  have := all_dirs h d'
  generalize staggered src d' = b1 at *
  generalize staggered dest d' = b2 at *
  cases b1 <;> cases b2 <;> simp_all

theorem OnlyDirection.unique {src dest : FieldType} {d d' : Dir} (h : OnlyDirection src dest d) (h' : OnlyDirection src dest d') :
    d = d' := ((h' d).1 ((h d).2 rfl))

theorem twoPoint_of {r : Reg} (hr : r ∈ registrations) (ho : r.op = .gradient ∨ r.op = .divergence) {d : Dir}
    (hd : OnlyDirection r.src r.dest d) :
    r.coef = .per d ∧ r.type = some (.coefs r.op (.more (.one (lowPt r.dest d)) (lowPt r.dest d + unit d)) r.src r.dest) := by
  have h := List.all_eq_true.1 all_twoPoint r hr
  unfold twoPoint at h
  have h' : ([Dir.x, .y, .z].any fun d => onlyDir r.src r.dest d && (r.coef == .per d) &&
      (r.type == some (.coefs r.op (.more (.one (lowPt r.dest d)) (lowPt r.dest d + unit d)) r.src r.dest))) = true := by
    rcases ho with ho | ho <;> rw [ho] at h <;> rw [ho] <;> exact h
  obtain ⟨d', -, h1⟩ := List.any_eq_true.1 h'
  simp only [Bool.and_eq_true, beq_iff_eq] at h1
  obtain ⟨⟨h1, h2⟩, h3⟩ := h1
  have := hd.unique (onlyDir_iff h1)
  subst this
  exact ⟨h2, h3⟩

section
variable {K : Type} [Field K]

omit [Field K] in
theorem twoPoint_apply [NatCast K] [One K] [Neg K] [Mul K] [Div K] (h : Dir → K) {r : Reg} (hr : r ∈ registrations) (ho : r.op = .gradient ∨ r.op = .divergence)
    {d : Dir} (hd : OnlyDirection r.src r.dest d) (arg : Expr K .num) :
    r.apply h arg = some (.stencil (.more (.one (lowPt r.dest d, -1 / h d)) (lowPt r.dest d + unit d, 1 / h d)) arg) := by
  obtain ⟨h1, h2⟩ := twoPoint_of hr ho hd
  unfold Reg.apply
  unfold Reg.type at h2
  rw [h2, h1]
  rfl

/-- What a two-point operator leaves in the destination. -/
theorem apply_twoPoint (h : Dir → K) {r : Reg} (hr : r ∈ registrations) (ho : r.op = .gradient ∨ r.op = .divergence)
    {d : Dir} (hd : OnlyDirection r.src r.dest d) (hh : h d ≠ 0) {n : IntVec} (hn : IntVec.Lt 0 n) {src dest : FieldObj} {b : Nat}
    (ha : Applicable n r d src dest b) (m : Mem K) :
    ∃ m', r.applyToField h src dest m = .ok m' ∧
      (∀ c, Interior n dest c →
        valueAt m' dest c * h d = valueAt m src (highSide r.dest d c) - valueAt m src (lowSide r.dest d c)) ∧
      (∀ blk x, (blk ≠ b ∨ ∀ c, Stored n dest c → cellAddr dest.geo c ≠ x) → m' blk x = m blk x) := by
  have hlow : ∀ c, lowSide r.dest d c = c + lowPt r.dest d := lowSide_eq _ _
  have hhigh : ∀ c, highSide r.dest d c = c + (lowPt r.dest d + unit d) := by
    intro c; unfold highSide; rw [lowSide_eq]; apply IntVec.ext <;> simp <;> omega
  have hself : ∀ c, Interior n dest c → HasCell src.geo c := by
    intro c hc
    have h1 := ha.low c hc
    have h2 := ha.high c hc
    unfold highSide at h2
    unfold lowSide at h1 h2
    split at h1
    · rename_i hs
      rw [if_pos hs] at h2
      have : c - unit d + unit d = c := by apply IntVec.ext <;> simp [IntVec.sub_x, IntVec.sub_y, IntVec.sub_z]
      rwa [this] at h2
    · exact h1
  have he := twoPoint_apply h hr ho hd (.field src)
  have hdef : ∀ c, Interior n dest c →
      (Expr.stencil (.more (.one (lowPt r.dest d, -1 / h d)) (lowPt r.dest d + unit d, 1 / h d)) (.field src)).DefinedAt n c := by
    intro c hc q hq
    simp only [Pts.toList, List.mem_append, List.mem_singleton] at hq
    refine ⟨hself c hc, ?_⟩
    rcases hq with rfl | rfl
    · have := ha.low c hc; rw [hlow] at this; exact this
    · have := ha.high c hc; rw [hhigh] at this; exact this
  obtain ⟨m', e1, e2, e3⟩ := C22_assign_pointwise n hn dest b ha.target
    (Expr.stencil (.more (.one (lowPt r.dest d, -1 / h d)) (lowPt r.dest d + unit d, 1 / h d)) (.field src))
    (by unfold Expr.Wf Expr.Wf; exact ⟨ha.mesh, ha.mem⟩) hdef (fun q _ => .inl ha.apart) m
  refine ⟨m', ?_, ?_, ?_⟩
  · unfold Reg.applyToField; rw [he]; exact e1
  · intro c hc
    have hst : Stored n dest c := by
      have hg := ha.target.mesh.ghosts
      unfold Interior at hc
      unfold Stored
      unfold GhostData.Valid at hg
      generalize dest.geo.bc.hasExtra = ex at *
      iv_omega
    have hv := e2 c ⟨hst, hdef c hc⟩
    have hl : valueAt m' dest c = m' b (cellAddr dest.geo c) := by unfold valueAt; rw [ha.target.mem]; rfl
    rw [hl, hv, hhigh, hlow]
    simp only [Expr.value, Pts.sum, valueAt]
    field_simp
    ring
  · intro blk x hx
    apply e3
    rcases hx with hx | hx
    · exact .inl hx
    · exact .inr fun c hc => hx c hc.1

end

/-! ## Any operator -/

theorem weights_points {t : OpType} {cf : Coef} {w : Pts (IntVec × Int)} {den : Nat} {s : Option Dir}
    (hw : weights t cf = some (w, den, s)) : ∀ q ∈ w.toList, q.1 ∈ t.points.toList := by
  have hp : ∀ (pts : Pts IntVec) (cs : Pts Int) (f : Pts (IntVec × Int) → Pts (IntVec × Int) × Nat × Option Dir),
      (∀ w, (f w).1 = w) → (pair pts cs).map f = some (w, den, s) → ∀ q ∈ w.toList, q.1 ∈ pts.toList := by
    intro pts cs f hf h
    cases hpr : pair pts cs with
    | none => rw [hpr] at h; simp at h
    | some w' =>
      rw [hpr] at h
      simp only [Option.map_some, Option.some.injEq] at h
      have := hf w'
      rw [h] at this
      dsimp only at this
      subst this
      exact pair_points hpr
  unfold weights at hw
  split at hw
  · exact hp _ _ _ (fun _ => rfl) hw
  · exact hp _ _ _ (fun _ => rfl) hw
  · exact hp _ _ _ (fun _ => rfl) hw
  · exact hp _ _ _ (fun _ => rfl) hw
  · simp only [Option.some.injEq, Prod.mk.injEq] at hw
    obtain ⟨rfl, -, -⟩ := hw
    intro q hq
    obtain ⟨a, ha, rfl⟩ := (mem_pmap _ _ _).1 hq
    exact ha
  · simp only [Option.some.injEq, Prod.mk.injEq] at hw
    obtain ⟨rfl, -, -⟩ := hw
    intro q hq
    obtain ⟨a, ha, rfl⟩ := (mem_pmap _ _ _).1 hq
    exact ha
  · cases hw

theorem reads_eq {r : Reg} {t : OpType} (ht : r.type = some t) : r.reads = t.points.toList := by
  unfold Reg.reads
  rw [ht]
  cases t <;> rfl

theorem reg_weights {r : Reg} (hr : r ∈ registrations) :
    ∃ t w den s, r.type = some t ∧ weights t r.coef = some (w, den, s) ∧ regOk r = true := by
  have hok := List.all_eq_true.1 all_ok r hr
  have h := hok
  unfold regOk at h
  cases ht : operatorType r.op r.src r.dest with
  | none => rw [ht] at h; simp at h
  | some t =>
    rw [ht] at h
    dsimp only at h
    cases hw : weights t r.coef with
    | none => rw [hw] at h; simp at h
    | some wds =>
      obtain ⟨w, den, s⟩ := wds
      exact ⟨t, w, den, s, ht, hw, hok⟩

/-- What any operator leaves in the destination, for any arithmetic. -/
theorem apply_expr {V : Type} [NatCast V] [One V] [Neg V] [Add V] [Mul V] [Div V] (h : Dir → V) {r : Reg} {t : OpType}
    (ht : r.type = some t) {n : IntVec} (hn : IntVec.Lt 0 n) {src dest : FieldObj} {b : Nat} {e : Expr V .num}
    (he : t.apply (r.coef.build h) (.field src) = some e) (ha : Readable n r src dest b) (m : Mem V) :
    ∃ m', r.applyToField h src dest m = .ok m' ∧
      (∀ c, Interior n dest c → valueAt m' dest c = e.value m c) ∧
      (∀ blk x, (blk ≠ b ∨ ∀ c, Stored n dest c → cellAddr dest.geo c ≠ x) → m' blk x = m blk x) := by
  have hdef : ∀ c, Interior n dest c → e.DefinedAt n c := by
    intro c hc
    refine apply_defined he ?_ ?_ ?_
    · unfold Expr.DefinedAt; exact ha.self c hc
    · intro p hp
      unfold Expr.DefinedAt
      exact ha.reads c hc p (by rw [reads_eq ht]; exact hp)
    · have hx := ha.extra
      unfold Interior at hc
      unfold ghostMax
      generalize dest.geo.bc.hasExtra = ex at *
      iv_omega
  have hind : e.Independent dest 0 := apply_independent he (fun _ => .inl ha.apart) 0
  obtain ⟨m', e1, e2, e3⟩ := C22_assign_pointwise n hn dest b ha.target e
    (apply_wf he (by unfold Expr.Wf; exact ⟨ha.mesh, ha.mem⟩)) hdef hind m
  refine ⟨m', ?_, ?_, ?_⟩
  · unfold Reg.applyToField Reg.apply
    unfold Reg.type at ht
    rw [ht]
    dsimp only [Option.bind_some]
    rw [he]
    exact e1
  · intro c hc
    have hst : Stored n dest c := by
      have hg := ha.target.mesh.ghosts
      unfold Interior at hc
      unfold Stored
      unfold GhostData.Valid at hg
      generalize dest.geo.bc.hasExtra = ex at *
      iv_omega
    have h2 := e2 c ⟨hst, hdef c hc⟩
    have hl : valueAt m' dest c = m' b (cellAddr dest.geo c) := by unfold valueAt; rw [ha.target.mem]; rfl
    rw [hl, h2]
  · intro blk x hx
    apply e3
    rcases hx with hx | hx
    · exact .inl hx
    · exact .inr fun c hc => hx c hc.1

section
variable {K : Type} [Field K]

/-- What any operator leaves in the destination. -/
theorem apply_any (h : Dir → K) {r : Reg} {t : OpType} {w : Pts (IntVec × Int)} {den : Nat} {s : Option Dir}
    (ht : r.type = some t) (hw : weights t r.coef = some (w, den, s)) {n : IntVec} (hn : IntVec.Lt 0 n)
    {src dest : FieldObj} {b : Nat} (ha : Readable n r src dest b) (m : Mem K) :
    ∃ m', r.applyToField h src dest m = .ok m' ∧
      (∀ c, Interior n dest c →
        valueAt m' dest c = (w.sum fun q => valueAt m src (c + q.1) * (q.2 : K)) * factor h den s) ∧
      (∀ blk x, (blk ≠ b ∨ ∀ c, Stored n dest c → cellAddr dest.geo c ≠ x) → m' blk x = m blk x) := by
  obtain ⟨e, he, hv⟩ := apply_value h t r.coef (.field src) w den s hw
  obtain ⟨m', h1, h2, h3⟩ := apply_expr h ht hn he ha m
  refine ⟨m', h1, fun c hc => ?_, h3⟩
  rw [h2 c hc, (hv n m c).2]
  rfl

end

/-! ## Sums over blocks -/

section
variable {K : Type} [AddCommGroup K]

theorem blockSum_congr {lo ext : IntVec} {f g : IntVec → K} (h : ∀ c, InExtent lo ext c → f c = g c) :
    blockSum lo ext f = blockSum lo ext g := by
  unfold blockSum
  refine Finset.sum_congr rfl fun i hi => Finset.sum_congr rfl fun j hj => Finset.sum_congr rfl fun k hk => h _ ?_
  rw [Finset.mem_range] at hi hj hk
  unfold InExtent
  iv_omega

theorem blockSum_sub (lo ext : IntVec) (f g : IntVec → K) :
    blockSum lo ext (fun c => f c - g c) = blockSum lo ext f - blockSum lo ext g := by
  unfold blockSum
  simp only [Finset.sum_sub_distrib]

theorem blockSum_add (lo ext : IntVec) (f g : IntVec → K) :
    blockSum lo ext (fun c => f c + g c) = blockSum lo ext f + blockSum lo ext g := by
  unfold blockSum
  simp only [Finset.sum_add_distrib]

theorem blockSum_mul {K : Type} [Field K] (lo ext : IntVec) (f : IntVec → K) (a : K) :
    blockSum lo ext (fun c => f c * a) = blockSum lo ext f * a := by
  unfold blockSum
  simp only [Finset.sum_mul]

/-- Differences along `d` telescope. -/
theorem blockSum_telescope (d : Dir) (lo ext : IntVec) (hext : IntVec.Le 0 ext) (g : IntVec → K) :
    blockSum lo ext (fun c => g (c + unit d) - g c) =
      blockSum (lo + along (comp ext d) d) (layer ext d) g - blockSum lo (layer ext d) g := by
  have ha : ∀ {x y z x' y' z' : Int}, x = x' → y = y' → z = z' → g ⟨x, y, z⟩ = g ⟨x', y', z'⟩ := by
    rintro x y z x' y' z' rfl rfl rfl; rfl
  have hx : 0 ≤ ext.x ∧ 0 ≤ ext.y ∧ 0 ≤ ext.z := by iv_omega
  unfold blockSum
  cases d with
  | x =>
    simp only [unit, layer, along, comp, Int.toNat_one, Finset.sum_range_one]
    simp only [Finset.sum_comm (s := Finset.range ext.x.toNat)]
    rw [← Finset.sum_sub_distrib]
    refine Finset.sum_congr rfl fun j _ => ?_
    rw [← Finset.sum_sub_distrib]
    refine Finset.sum_congr rfl fun k _ => ?_
    have := Finset.sum_range_sub (fun i : Nat => g ⟨lo.x + i, lo.y + j, lo.z + k⟩) ext.x.toNat
    rw [show g ⟨(lo + ⟨ext.x, 0, 0⟩ : IntVec).x + ((0 : Nat) : Int), (lo + ⟨ext.x, 0, 0⟩ : IntVec).y + j, (lo + ⟨ext.x, 0, 0⟩ : IntVec).z + k⟩ =
      g ⟨lo.x + ext.x.toNat, lo.y + j, lo.z + k⟩ from ha (by simp; omega) (by simp) (by simp)]
    rw [← this]
    refine Finset.sum_congr rfl fun i _ => ?_
    congr 1
    exact ha (by simp; omega) (by simp) (by simp)
  | y =>
    simp only [unit, layer, along, comp, Int.toNat_one, Finset.sum_range_one]
    rw [← Finset.sum_sub_distrib]
    refine Finset.sum_congr rfl fun i _ => ?_
    rw [Finset.sum_comm (s := Finset.range ext.y.toNat), ← Finset.sum_sub_distrib]
    refine Finset.sum_congr rfl fun k _ => ?_
    have := Finset.sum_range_sub (fun j : Nat => g ⟨lo.x + i, lo.y + j, lo.z + k⟩) ext.y.toNat
    rw [show g ⟨(lo + ⟨0, ext.y, 0⟩ : IntVec).x + i, (lo + ⟨0, ext.y, 0⟩ : IntVec).y + ((0 : Nat) : Int), (lo + ⟨0, ext.y, 0⟩ : IntVec).z + k⟩ =
      g ⟨lo.x + i, lo.y + ext.y.toNat, lo.z + k⟩ from ha (by simp) (by simp; omega) (by simp)]
    rw [← this]
    refine Finset.sum_congr rfl fun j _ => ?_
    congr 1
    exact ha (by simp) (by simp; omega) (by simp)
  | z =>
    simp only [unit, layer, along, comp, Int.toNat_one, Finset.sum_range_one]
    rw [← Finset.sum_sub_distrib]
    refine Finset.sum_congr rfl fun i _ => ?_
    rw [← Finset.sum_sub_distrib]
    refine Finset.sum_congr rfl fun j _ => ?_
    have := Finset.sum_range_sub (fun k : Nat => g ⟨lo.x + i, lo.y + j, lo.z + k⟩) ext.z.toNat
    rw [show g ⟨(lo + ⟨0, 0, ext.z⟩ : IntVec).x + i, (lo + ⟨0, 0, ext.z⟩ : IntVec).y + j, (lo + ⟨0, 0, ext.z⟩ : IntVec).z + ((0 : Nat) : Int)⟩ =
      g ⟨lo.x + i, lo.y + j, lo.z + ext.z.toNat⟩ from ha (by simp) (by simp) (by simp; omega)]
    rw [← this]
    refine Finset.sum_congr rfl fun k _ => ?_
    congr 1
    exact ha (by simp) (by simp) (by simp; omega)

theorem layer_sub (ext : IntVec) (d : Dir) : layer (ext - unit d) d = layer ext d := by
  cases d <;> apply IntVec.ext <;> simp [layer, unit, IntVec.sub_x, IntVec.sub_y, IntVec.sub_z]

theorem blockSum_split (d : Dir) (lo ext : IntVec) (hext : IntVec.Lt 0 ext) (a : IntVec → K) :
    blockSum lo ext a = blockSum lo (ext - unit d) a + blockSum (lo + along (comp ext d - 1) d) (layer ext d) a := by
  have ha : ∀ {x y z x' y' z' : Int}, x = x' → y = y' → z = z' → a ⟨x, y, z⟩ = a ⟨x', y', z'⟩ := by
    rintro x y z x' y' z' rfl rfl rfl; rfl
  have hx : 0 < ext.x ∧ 0 < ext.y ∧ 0 < ext.z := by iv_omega
  unfold blockSum
  cases d with
  | x =>
    simp only [unit, layer, along, comp, Int.toNat_one, Finset.sum_range_one, IntVec.sub_x, IntVec.sub_y, IntVec.sub_z,
      Int.sub_zero]
    rw [show ext.x.toNat = (ext.x - 1).toNat + 1 by omega, Finset.sum_range_succ]
    congr 1
    refine Finset.sum_congr rfl fun j _ => Finset.sum_congr rfl fun k _ => ?_
    exact ha (by simp; omega) (by simp) (by simp)
  | y =>
    simp only [unit, layer, along, comp, Int.toNat_one, Finset.sum_range_one, IntVec.sub_x, IntVec.sub_y, IntVec.sub_z,
      Int.sub_zero]
    rw [← Finset.sum_add_distrib]
    refine Finset.sum_congr rfl fun i _ => ?_
    rw [show ext.y.toNat = (ext.y - 1).toNat + 1 by omega, Finset.sum_range_succ]
    congr 1
    refine Finset.sum_congr rfl fun k _ => ?_
    exact ha (by simp) (by simp; omega) (by simp)
  | z =>
    simp only [unit, layer, along, comp, Int.toNat_one, Finset.sum_range_one, IntVec.sub_x, IntVec.sub_y, IntVec.sub_z,
      Int.sub_zero]
    rw [← Finset.sum_add_distrib]
    refine Finset.sum_congr rfl fun i _ => ?_
    rw [← Finset.sum_add_distrib]
    refine Finset.sum_congr rfl fun j _ => ?_
    rw [show ext.z.toNat = (ext.z - 1).toNat + 1 by omega, Finset.sum_range_succ]
    congr 1
    exact ha (by simp) (by simp) (by simp; omega)

end

/-! ## Averages -/

/-- The weights of the averaging operators are not negative. -/
def nonnegOk (r : Reg) : Bool :=
  match r.type with
  | none => false
  | some t => match weights t r.coef with
    | none => false
    | some (w, _, _) => match r.op with
      | .interpolant | .filter | .interpolantD _ => w.toList.all fun q => decide (0 ≤ q.2)
      | _ => true

theorem all_nonneg : registrations.all nonnegOk = true := by decide +kernel

theorem weighted_between {K : Type} [Field K] [LinearOrder K] [IsStrictOrderedRing K] (w : Pts (IntVec × Int))
    (v : IntVec × Int → K) (lo hi : K) (hw : ∀ q ∈ w.toList, (0 : K) ≤ (q.2 : K))
    (hv : ∀ q ∈ w.toList, lo ≤ v q ∧ v q ≤ hi) :
    lo * (m0 w : K) ≤ w.sum (fun q => v q * (q.2 : K)) ∧ w.sum (fun q => v q * (q.2 : K)) ≤ hi * (m0 w : K) := by
  induction w with
  | one q =>
    have h1 := hw q (by simp [Pts.toList])
    have h2 := hv q (by simp [Pts.toList])
    simp only [m0, Pts.sum]
    exact ⟨mul_le_mul_of_nonneg_right h2.1 h1, mul_le_mul_of_nonneg_right h2.2 h1⟩
  | more e q ih =>
    have h1 := hw q (by simp [Pts.toList])
    have h2 := hv q (by simp [Pts.toList])
    obtain ⟨i1, i2⟩ := ih (fun q hq => hw q (by simp [Pts.toList, hq])) (fun q hq => hv q (by simp [Pts.toList, hq]))
    simp only [m0, Pts.sum] at i1 i2 ⊢
    push_cast
    rw [mul_add, mul_add]
    exact ⟨add_le_add i1 (mul_le_mul_of_nonneg_right h2.1 h1), add_le_add i2 (mul_le_mul_of_nonneg_right h2.2 h1)⟩

end Stencil
end SpatialOps
