import Verif.Order.Props

/-!
# Property C111: interpolants and filters rise with the data
-/

namespace SpatialOps
namespace Order

open Nebo Round Stencil Range

section
variable {K : Type} [Field K] [LinearOrder K] [IsStrictOrderedRing K] {rnd : K → K}

/-- The shape of interpolants and filters: a formula whose coefficients are not negative. -/
theorem operator_formula (hr : ∀ x y, x ≤ y → rnd x ≤ rnd y) (h0 : rnd 0 = 0) (h : Dir → Fl rnd) {r : Reg} (hm : r ∈ registrations)
    (ho : r.op = .interpolant ∨ (∃ d, r.op = .interpolantD d) ∨ r.op = .filter) (src : FieldObj) :
    ∃ t f, r.type = some t ∧ t.apply (r.coef.build h) (.field src) = some (f : Formula rnd).expr ∧
      (∀ m m' : Mem (Fl rnd), ∀ c, (∀ q ∈ r.reads, (valueAt m src (c + q)).val ≤ (valueAt m' src (c + q)).val) → Moves m m' true f c) ∧
      ∀ m : Mem (Fl rnd), ∀ c, (∀ q ∈ r.reads, 0 ≤ (valueAt m src (c + q)).val) → Positive m f c := by
  have pos : ∀ x : K, 0 ≤ x → 0 ≤ rnd x := fun x hx => by rw [← h0]; exact hr 0 x hx
  have half : 0 ≤ (1 / 2 : Fl rnd).val := by
    rw [val_div, val_one, val_two]
    exact pos _ (by norm_num)
  have quarter : 0 ≤ (1 / 4 : Fl rnd).val := by
    rw [val_div, val_one, val_four]
    exact pos _ (by norm_num)
  have mean : (match r.type, r.coef with
      | some (.coefs _ (.more (.one _) _) _ _), .half => true
      | some (.coefs _ (.more (.more (.more (.one _) _) _) _) _ _), .quarter => true
      | some (.sum (.one _) _ _), .absent => true
      | _, _ => false) = true ∨ (r.type = some (.average box3D r.src r.dest) ∧ r.coef = .absent) := by
    rcases ho with ho | ⟨d, ho⟩ | ho
    · have := List.all_eq_true.1 all_meanOk r hm
      unfold meanOk at this
      rw [ho] at this
      exact .inl this
    · have := List.all_eq_true.1 all_meanOk r hm
      unfold meanOk at this
      rw [ho] at this
      exact .inl this
    · have := List.all_eq_true.1 all_boxOk r hm
      unfold boxOk at this
      rw [ho] at this
      refine .inr ?_
      simpa using this
  rcases mean with mean | ⟨ht, hc⟩
  · split at mean
    · rename_i o p q sr de ht hc
      refine ⟨_, .stencil (.more (.one (p, 1 / 2)) (q, 1 / 2)) (.field src), ht, by rw [hc]; rfl, ?_, ?_⟩
      · intro m m' c hq x hx
        rw [reads_eq ht] at hq
        simp only [Pts.toList, List.cons_append, List.nil_append, List.mem_cons, List.not_mem_nil, or_false] at hx
        rcases hx with rfl | rfl
        · exact .inl ⟨half, hq p (by simp [OpType.points, Pts.toList])⟩
        · exact .inl ⟨half, hq q (by simp [OpType.points, Pts.toList])⟩
      · intro m c hq x hx
        rw [reads_eq ht] at hq
        simp only [Pts.toList, List.cons_append, List.nil_append, List.mem_cons, List.not_mem_nil, or_false] at hx
        rcases hx with rfl | rfl
        · exact ⟨half, hq p (by simp [OpType.points, Pts.toList])⟩
        · exact ⟨half, hq q (by simp [OpType.points, Pts.toList])⟩
    · rename_i o p q s v sr de ht hc
      refine ⟨_, .stencil (.more (.more (.more (.one (p, 1 / 4)) (q, 1 / 4)) (s, 1 / 4)) (v, 1 / 4)) (.field src), ht, by rw [hc]; rfl, ?_, ?_⟩
      · intro m m' c hq x hx
        rw [reads_eq ht] at hq
        simp only [Pts.toList, List.cons_append, List.nil_append, List.mem_cons, List.not_mem_nil, or_false] at hx
        rcases hx with rfl | rfl | rfl | rfl
        · exact .inl ⟨quarter, hq p (by simp [OpType.points, Pts.toList])⟩
        · exact .inl ⟨quarter, hq q (by simp [OpType.points, Pts.toList])⟩
        · exact .inl ⟨quarter, hq s (by simp [OpType.points, Pts.toList])⟩
        · exact .inl ⟨quarter, hq v (by simp [OpType.points, Pts.toList])⟩
      · intro m c hq x hx
        rw [reads_eq ht] at hq
        simp only [Pts.toList, List.cons_append, List.nil_append, List.mem_cons, List.not_mem_nil, or_false] at hx
        rcases hx with rfl | rfl | rfl | rfl
        · exact ⟨quarter, hq p (by simp [OpType.points, Pts.toList])⟩
        · exact ⟨quarter, hq q (by simp [OpType.points, Pts.toList])⟩
        · exact ⟨quarter, hq s (by simp [OpType.points, Pts.toList])⟩
        · exact ⟨quarter, hq v (by simp [OpType.points, Pts.toList])⟩
    · rename_i p sr de ht hc
      refine ⟨_, .sumStencil (.one p) (.field src), ht, by rw [hc]; rfl, ?_, ?_⟩
      · intro m m' c hq x hx
        rw [reads_eq ht] at hq
        exact hq x hx
      · intro m c hq x hx
        rw [reads_eq ht] at hq
        exact hq x hx
    · simp at mean
  · have hv : 0 ≤ (1 / (len box3D : Fl rnd)).val := by
      rw [val_div, val_one, val_nat]
      exact pos _ (div_nonneg zero_le_one (Nat.cast_nonneg _))
    refine ⟨_, .mul (.sumStencil box3D (.field src)) (.const (1 / (len box3D : Fl rnd))), ht, ?_, ?_, ?_⟩
    · rw [hc]; rfl
    · intro m m' c hq
      rw [reads_eq ht] at hq
      exact .inr (.inl ⟨rfl, .inl ⟨hv, fun x hx => hq x hx⟩⟩)
    · intro m c hq
      rw [reads_eq ht] at hq
      exact ⟨fun x hx => hq x hx, hv⟩

/-- C111. Every registered interpolant and filter, with any monotone rounding that keeps zero: if each value it reads for a cell does not fall from one memory
to another, neither does the value it leaves there, and if none of the values it reads is negative, neither is the value it leaves. -/
theorem _root_.SpatialOps.C111_operators (hr : ∀ x y, x ≤ y → rnd x ≤ rnd y) (h0 : rnd 0 = 0) (h : Dir → Fl rnd) (r : Reg) (hm : r ∈ registrations)
    (ho : r.op = .interpolant ∨ (∃ d, r.op = .interpolantD d) ∨ r.op = .filter) (n : IntVec) (hn : IntVec.Lt 0 n) (src dest : FieldObj) (b : Nat)
    (ha : Readable n r src dest b) (m m' : Mem (Fl rnd)) :
    ∃ x y, r.applyToField h src dest m = .ok x ∧ r.applyToField h src dest m' = .ok y ∧ ∀ c, Interior n dest c →
      ((∀ q ∈ r.reads, (valueAt m src (c + q)).val ≤ (valueAt m' src (c + q)).val) → (valueAt x dest c).val ≤ (valueAt y dest c).val) ∧
      ((∀ q ∈ r.reads, 0 ≤ (valueAt m src (c + q)).val) → 0 ≤ (valueAt x dest c).val) := by
  obtain ⟨t, f, ht, hf, h1, h2⟩ := operator_formula hr h0 h hm ho src
  obtain ⟨x, hx, vx, -⟩ := apply_expr h ht hn hf ha m
  obtain ⟨y, hy, vy, -⟩ := apply_expr h ht hn hf ha m'
  refine ⟨x, y, hx, hy, fun c hc => ⟨fun hq => ?_, fun hq => ?_⟩⟩
  · rw [vx c hc, vy c hc]
    exact moves_value hr m m' true f c (h1 m m' c hq)
  · rw [vx c hc]
    exact positive_value hr h0 m f c (h2 m c hq)

end

/-- Example: an interpolant of the example mesh, in the precision of `double`, meets the conditions. -/
example (m m' : Mem (Fl (K := ℚ) (gradual 53 (-1074)))) (h : Dir → Fl (K := ℚ) (gradual 53 (-1074))) :=
  C111_operators (C111_nearest_even (p := 53) (by norm_num) (-1074)).2 (by simpa [gradual] using nearestEven_int (K := ℚ) 0) h (Reg.mk .interpolant .sVol .sSurfX .half) (by decide +kernel)
    (.inl rfl) ⟨4, 3, 1⟩ (by decide) _ _ 3 (ConserveEx.interpReads 1 3 (by decide)) m m'

end Order
end SpatialOps
