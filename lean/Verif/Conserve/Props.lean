import Verif.Conserve.Lemmas
import Verif.NeboRed.Props
import Mathlib.Tactic.Linarith
import Mathlib.Algebra.Order.Ring.Rat

/-!
# Properties C64 to C67: conservation, summation by parts, bounds and linearity of the operators
-/

namespace SpatialOps
open Nebo Stencil

variable {K : Type} [Field K]

/-! ## C64 -/

/-- C64. The two values a gradient or divergence takes the difference of are the ones half a cell before
and after the value computed, in the direction in which source and destination differ, and at the
same place in the other directions. -/
theorem C64_sides_located [CharZero K] (h : Dir → K) (src dest : FieldType) (d : Dir) (hd : OnlyDirection src dest d) (c : IntVec) :
    (∀ d', position h src (lowSide dest d c) d' = position h dest c d' - if d' = d then h d / 2 else 0) ∧
    (∀ d', position h src (highSide dest d c) d' = position h dest c d' + if d' = d then h d / 2 else 0) := by
  have hs : ∀ d', staggered src d' = if d' = d then !staggered dest d' else staggered dest d' := by
    intro d'
    have := hd d'
    split
    · rename_i e
      have := this.2 e
      generalize staggered src d' = b1 at *
      generalize staggered dest d' = b2 at *
      cases b1 <;> cases b2 <;> simp_all
    · rename_i e
      by_contra hne
      exact e (this.1 hne)
  constructor
  · intro d'
    unfold position lowSide
    rw [hs d']
    by_cases e : d' = d
    · subst e
      rw [if_pos rfl, if_pos rfl]
      cases hst : staggered dest d' <;> cases d' <;>
        simp [comp, unit, IntVec.sub_x, IntVec.sub_y, IntVec.sub_z] <;> ring
    · rw [if_neg e, if_neg e]
      have : comp (if staggered dest d = true then c - unit d else c) d' = comp c d' := by
        split
        · cases d <;> cases d' <;> simp_all [comp, unit, IntVec.sub_x, IntVec.sub_y, IntVec.sub_z]
        · rfl
      rw [this]; simp
  · intro d'
    unfold position highSide lowSide
    rw [hs d']
    by_cases e : d' = d
    · subst e
      rw [if_pos rfl, if_pos rfl]
      cases hst : staggered dest d' <;> cases d' <;>
        simp [comp, unit, IntVec.sub_x, IntVec.sub_y, IntVec.sub_z] <;> ring
    · rw [if_neg e, if_neg e]
      have : comp ((if staggered dest d = true then c - unit d else c) + unit d) d' = comp c d' := by
        split
        · cases d <;> cases d' <;> simp_all [comp, unit, IntVec.sub_x, IntVec.sub_y, IntVec.sub_z]
        · cases d <;> cases d' <;> simp_all [comp, unit]
      rw [this]; simp

/-- C64. `op.apply_to_field(src, dest)` for a registered gradient or divergence succeeds and leaves in every interior
cell of the destination the difference of the two values beside it over the mesh spacing: what
leaves one cell through a face enters the next. Nothing but the destination's cells changes. -/
theorem C64_difference_of_sides (h : Dir → K) (r : Reg) (hr : r ∈ registrations)
    (ho : r.op = .gradient ∨ r.op = .divergence) (d : Dir) (hd : OnlyDirection r.src r.dest d) (hh : h d ≠ 0)
    (n : IntVec) (hn : IntVec.Lt 0 n) (src dest : FieldObj) (b : Nat) (ha : Applicable n r d src dest b) (m : Mem K) :
    ∃ m', r.applyToField h src dest m = .ok m' ∧
      (∀ c, Interior n dest c → valueAt m' dest c =
        (valueAt m src (highSide r.dest d c) - valueAt m src (lowSide r.dest d c)) / h d) ∧
      (∀ blk x, (blk ≠ b ∨ ∀ c, Stored n dest c → cellAddr dest.geo c ≠ x) → m' blk x = m blk x) := by
  obtain ⟨m', h1, h2, h3⟩ := apply_twoPoint h hr ho hd hh hn ha m
  exact ⟨m', h1, fun c hc => by rw [← h2 c hc]; field_simp, h3⟩

/-- C64. The divergence theorem: after `div.apply_to_field(flux, dest)`, over any block of
interior cells the sum of the destination, times the spacing, is the sum of the flux through the faces at
the far end of the block minus that through the faces at the near end: all inner faces cancel. -/
theorem C64_divergence_theorem (h : Dir → K) (r : Reg) (hr : r ∈ registrations) (ho : r.op = .gradient ∨ r.op = .divergence)
    (d : Dir) (hd : OnlyDirection r.src r.dest d) (hh : h d ≠ 0) (n : IntVec) (hn : IntVec.Lt 0 n)
    (flux dest : FieldObj) (b : Nat) (ha : Applicable n r d flux dest b) (m m' : Mem K)
    (happ : r.applyToField h flux dest m = .ok m') (lo ext : IntVec) (hext : IntVec.Le 0 ext)
    (hin : ∀ c, InExtent lo ext c → Interior n dest c) :
    blockSum lo ext (valueAt m' dest) * h d =
      blockSum (lo + along (comp ext d) d) (layer ext d) (fun c => valueAt m flux (lowSide r.dest d c)) -
      blockSum lo (layer ext d) (fun c => valueAt m flux (lowSide r.dest d c)) := by
  obtain ⟨m1, h1, h2, -⟩ := apply_twoPoint h hr ho hd hh hn ha m
  rw [happ] at h1
  injection h1 with h1
  subst h1
  rw [← blockSum_mul, ← blockSum_telescope d lo ext hext]
  refine blockSum_congr fun c hc => ?_
  rw [h2 c (hin c hc)]
  congr 1
  unfold highSide
  rw [lowSide_eq, lowSide_eq]
  congr 1
  apply IntVec.ext <;> simp <;> omega

theorem sum_list_eq {K : Type} [AddCommMonoid K] {n : IntVec} (hn : IntVec.Lt 0 n) {cells : List IntVec} (hl : Lists cells (InBlock n))
    (f : IntVec → K) : (cells.map f).sum = blockSum 0 n f := by
  have hnd : cells.Nodup := hl.1.imp fun {a b} hab => by
    rintro rfl
    unfold FortranLt at hab
    omega
  have e1 : (cells.map f).sum = ∑ c ∈ cells.toFinset, f c := (List.sum_toFinset f hnd).symm
  rw [e1]
  unfold blockSum
  have hn' : 0 < n.x ∧ 0 < n.y ∧ 0 < n.z := by iv_omega
  simp only [Finset.sum_sigma']
  symm
  refine Finset.sum_bij' (fun p _ => (⟨(p.1 : Int), (p.2.1 : Int), (p.2.2 : Int)⟩ : IntVec))
    (fun c _ => ⟨c.x.toNat, c.y.toNat, c.z.toNat⟩) ?_ ?_ ?_ ?_ ?_
  · rintro ⟨i, j, k⟩ hp
    simp only [Finset.mem_sigma, Finset.mem_range] at hp
    rw [List.mem_toFinset, hl.2]
    have h3 : (i : Int) < n.x ∧ (j : Int) < n.y ∧ (k : Int) < n.z := by omega
    iv_omega
  · intro c hc
    rw [List.mem_toFinset, hl.2] at hc
    have h3 : 0 ≤ c.x ∧ 0 ≤ c.y ∧ 0 ≤ c.z ∧ c.x < n.x ∧ c.y < n.y ∧ c.z < n.z := by iv_omega
    simp only [Finset.mem_sigma, Finset.mem_range]
    omega
  · rintro ⟨i, j, k⟩ hp
    simp
  · intro c hc
    rw [List.mem_toFinset, hl.2] at hc
    have h3 : 0 ≤ c.x ∧ 0 ≤ c.y ∧ 0 ≤ c.z := by iv_omega
    apply IntVec.ext <;> simp <;> omega
  · rintro ⟨i, j, k⟩ hp
    simp

/-- C64. Conservation as a user computes it: `nebo_sum_interior(dest)` after
`div.apply_to_field(flux, dest)`, times the spacing, is the flux through the far side of the mesh minus the flux through the
near side. -/
theorem C64_interior_sum (h : Dir → K) (r : Reg) (hr : r ∈ registrations) (ho : r.op = .gradient ∨ r.op = .divergence)
    (d : Dir) (hd : OnlyDirection r.src r.dest d) (hh : h d ≠ 0) (n : IntVec) (hn : IntVec.Lt 0 n)
    (flux dest : FieldObj) (b : Nat) (ha : Applicable n r d flux dest b) (m m' : Mem K)
    (happ : r.applyToField h flux dest m = .ok m') :
    ∃ total : K, Returns (neboSumInterior (.field dest) m') total ∧
      total * h d = blockSum (along (comp n d) d) (layer n d) (fun c => valueAt m flux (lowSide r.dest d c)) -
        blockSum 0 (layer n d) (fun c => valueAt m flux (lowSide r.dest d c)) := by
  have hI : ∀ c, InExtent 0 n c → Interior n dest c := by
    intro c hc
    have hx := ha.target.mesh.extra
    unfold InExtent at hc
    unfold Interior
    generalize dest.geo.bc.hasExtra = ex at *
    iv_omega
  have hB : ∀ c, InBlock n c → InExtent 0 n c := by
    intro c hc
    unfold InExtent
    iv_omega
  obtain ⟨cells, hl, hs, -⟩ := C28_interior_sum_and_norm n hn (.field dest)
    (by unfold Expr.Wf; exact ⟨ha.target.mesh, by rw [ha.target.mem]; simp⟩)
    (by unfold Expr.StencilFree; trivial) (by unfold Expr.HasOperand; trivial) (fun c hc => by
      unfold Expr.DefinedAt; exact (hasCell_iff ha.target.mesh c).2 (by
      have hx := ha.target.mesh.extra
      have hv := ha.target.mesh.valid
      unfold GhostData.Valid at hv
      unfold InBox
      generalize dest.geo.bc.hasExtra = ex at *
      iv_omega)) id (fun a _ => a) 0 m'
  refine ⟨_, hs, ?_⟩
  rw [sum_list_eq hn hl]
  have := C64_divergence_theorem h r hr ho d hd hh n hn flux dest b ha m m' happ 0 n (by iv_omega) hI
  rw [show (0 : IntVec) + along (comp n d) d = along (comp n d) d by apply IntVec.ext <;> simp] at this
  exact this

/-! ### Example: an x flux on a `4x3x1` mesh -/

namespace ConserveEx

/-- The divergence from x faces to scalar volumes. -/
def div : Reg := ⟨.divergence, .sSurfX, .sVol, .per .x⟩
/-- The gradient from scalar volumes to x faces. -/
def grad : Reg := ⟨.gradient, .sVol, .sSurfX, .per .x⟩

theorem hasCell (bx : Bool) (c : IntVec) : HasCell (NeboEx.geo bx) c ↔
    -1 ≤ c.x ∧ c.x < (if bx then 6 else 5) ∧ -1 ≤ c.y ∧ c.y < 4 ∧ 0 ≤ c.z ∧ c.z < 1 := by
  have hh := hasCell_iff (NeboEx.onMesh bx) c
  have e1 : (NeboEx.geo bx).validGhosts.minus = ⟨1, 1, 0⟩ := by cases bx <;> decide
  have e2 : (NeboEx.geo bx).validGhosts.plus + (NeboEx.geo bx).bc.hasExtra = if bx then ⟨2, 1, 0⟩ else ⟨1, 1, 0⟩ := by
    cases bx <;> decide
  rw [e1, e2] at hh
  unfold InBox at hh
  rw [hh]
  cases bx <;> simp only [Bool.false_eq_true, if_true, if_false] <;> constructor <;> intro h <;> iv_omega

theorem interior (bx : Bool) (b : Nat) (c : IntVec) : Interior ⟨4, 3, 1⟩ (NeboEx.fld bx b) c ↔
    0 ≤ c.x ∧ c.x < (if bx then 5 else 4) ∧ 0 ≤ c.y ∧ c.y < 3 ∧ 0 ≤ c.z ∧ c.z < 1 := by
  have e : (NeboEx.fld bx b).geo.bc.hasExtra = if bx then ⟨1, 0, 0⟩ else 0 := by cases bx <;> rfl
  unfold Interior
  rw [e]
  cases bx <;> simp only [Bool.false_eq_true, if_true, if_false] <;> constructor <;> intro h <;> iv_omega

theorem divApplies : Applicable ⟨4, 3, 1⟩ div .x (NeboEx.fld true 1) (NeboEx.fld false 0) 0 where
  target := NeboEx.target false 0
  extra := by decide
  mesh := NeboEx.onMesh true
  mem := by decide
  apart := by decide
  low := by
    intro c hc
    rw [interior] at hc
    show HasCell (NeboEx.geo true) _
    rw [hasCell]
    simp only [lowSide, div, staggered, Bool.false_eq_true, if_true, if_false] at hc ⊢
    omega
  high := by
    intro c hc
    rw [interior] at hc
    show HasCell (NeboEx.geo true) _
    rw [hasCell]
    simp only [highSide, lowSide, div, staggered, unit, Bool.false_eq_true, if_true, if_false, IntVec.add_x, IntVec.add_y,
      IntVec.add_z] at hc ⊢
    omega

theorem gradApplies : Applicable ⟨4, 3, 1⟩ grad .x (NeboEx.fld false 2) (NeboEx.fld true 3) 3 where
  target := NeboEx.target true 3
  extra := by decide
  mesh := NeboEx.onMesh false
  mem := by decide
  apart := by decide
  low := by
    intro c hc
    rw [interior] at hc
    show HasCell (NeboEx.geo false) _
    rw [hasCell]
    simp only [lowSide, grad, staggered, unit, Bool.false_eq_true, if_true, if_false, beq_self_eq_true, IntVec.sub_x,
      IntVec.sub_y, IntVec.sub_z] at hc ⊢
    omega
  high := by
    intro c hc
    rw [interior] at hc
    show HasCell (NeboEx.geo false) _
    rw [hasCell]
    simp only [highSide, lowSide, grad, staggered, unit, Bool.false_eq_true, if_true, if_false, beq_self_eq_true, IntVec.sub_x,
      IntVec.sub_y, IntVec.sub_z, IntVec.add_x, IntVec.add_y, IntVec.add_z] at hc ⊢
    omega

end ConserveEx

/-- Non-vacuity, with a result that is not zero: the flux grows by one from face to face, so each of the three rows of the mesh
gains 4, and the sum of the divergence is 12 over the spacing, one half. -/
example : ∃ m' total, ConserveEx.div.applyToField (fun _ => (1 / 2 : ℚ)) (NeboEx.fld true 1) (NeboEx.fld false 0)
      (fun _ x => (x : ℚ)) = .ok m' ∧
    Returns (neboSumInterior (.field (NeboEx.fld false 0)) m') total ∧ total = 24 := by
  have hr : ConserveEx.div ∈ registrations := by decide +kernel
  have hd : OnlyDirection ConserveEx.div.src ConserveEx.div.dest .x := onlyDir_iff (by decide)
  obtain ⟨m', h1, -, -⟩ := C64_difference_of_sides (fun _ => (1 / 2 : ℚ)) ConserveEx.div hr (.inr rfl) .x hd (by norm_num)
    ⟨4, 3, 1⟩ (by decide) _ _ 0 ConserveEx.divApplies (fun _ x => (x : ℚ))
  obtain ⟨total, h2, h3⟩ := C64_interior_sum (fun _ => (1 / 2 : ℚ)) ConserveEx.div hr (.inr rfl) .x hd (by norm_num)
    ⟨4, 3, 1⟩ (by decide) _ _ 0 ConserveEx.divApplies (fun _ x => (x : ℚ)) m' h1
  refine ⟨m', total, h1, h2, ?_⟩
  have h4 : blockSum (along (comp ⟨4, 3, 1⟩ .x) .x) (layer ⟨4, 3, 1⟩ .x)
      (fun c => valueAt (fun _ x => (x : ℚ)) (NeboEx.fld true 1) (lowSide ConserveEx.div.dest .x c)) -
    blockSum 0 (layer ⟨4, 3, 1⟩ .x)
      (fun c => valueAt (fun _ x => (x : ℚ)) (NeboEx.fld true 1) (lowSide ConserveEx.div.dest .x c)) = 12 := by
    decide +kernel
  rw [h4] at h3
  linarith

/-! ## C65 -/

/-- C65. Summation by parts: for a volume field `phi`, a flux field `F` on its faces in direction `d`, the gradient
`g` of `phi` and the divergence `q` of `F`: over any block of cells, the sum of `phi q` over the cells plus the sum
of `F g` over the faces between them, times the spacing, is what remains at the two ends. -/
theorem C65_summation_by_parts (h : Dir → K) (v f : FieldType) (d : Dir) (hf : v.face d = some f) (hh : h d ≠ 0)
    (n : IntVec) (hn : IntVec.Lt 0 n) (phi F g q : FieldObj) (bg bq : Nat)
    (hg : Applicable n ⟨.gradient, v, f, .per d⟩ d phi g bg) (hq : Applicable n ⟨.divergence, f, v, .per d⟩ d F q bq)
    (m m1 m2 : Mem K) (e1 : (Reg.mk .gradient v f (.per d)).applyToField h phi g m = .ok m1)
    (e2 : (Reg.mk .divergence f v (.per d)).applyToField h F q m = .ok m2)
    (lo ext : IntVec) (hext : IntVec.Lt 0 ext) (hcells : ∀ c, InExtent lo ext c → Interior n q c)
    (hfaces : ∀ c, InExtent lo (ext - unit d) c → Interior n g (highSide v d c)) :
    (blockSum lo ext (fun c => valueAt m phi c * valueAt m2 q c) +
      blockSum lo (ext - unit d) (fun c => valueAt m F (highSide v d c) * valueAt m1 g (highSide v d c))) * h d =
    blockSum (lo + along (comp ext d - 1) d) (layer ext d) (fun c => valueAt m phi c * valueAt m F (highSide v d c)) -
      blockSum lo (layer ext d) (fun c => valueAt m phi c * valueAt m F (lowSide v d c)) := by
  have hreg : (Reg.mk .gradient v f (.per d)) ∈ registrations ∧ (Reg.mk .divergence f v (.per d)) ∈ registrations ∧
      onlyDir v f d = true ∧ onlyDir f v d = true ∧ lowPt f d = -(lowPt v d + unit d) := by
    cases v <;> cases d <;> simp only [FieldType.face, Option.some.injEq, reduceCtorEq] at hf <;> subst hf <;> decide +kernel
  obtain ⟨r1, r2, d1, d2, hpt⟩ := hreg
  obtain ⟨m1', a1, v1, -⟩ := apply_twoPoint h r1 (.inl rfl) (onlyDir_iff d1) hh hn hg m
  obtain ⟨m2', a2, v2, -⟩ := apply_twoPoint h r2 (.inr rfl) (onlyDir_iff d2) hh hn hq m
  rw [e1] at a1
  rw [e2] at a2
  injection a1 with a1
  injection a2 with a2
  subst a1 a2
  dsimp only at v1 v2
  have hlo : ∀ c, lowSide f d (highSide v d c) = c := by
    intro c
    unfold highSide
    rw [lowSide_eq, lowSide_eq, hpt]
    apply IntVec.ext <;> simp
  have hhi : ∀ c, highSide f d (highSide v d c) = c + unit d := by
    intro c
    show lowSide f d (highSide v d c) + unit d = _
    rw [hlo]
  have hnext : ∀ c, lowSide v d (c + unit d) = highSide v d c := by
    intro c
    unfold highSide
    rw [lowSide_eq, lowSide_eq]
    apply IntVec.ext <;> simp <;> omega
  have hsub : ∀ c, InExtent lo (ext - unit d) c → InExtent lo ext c := by
    intro c hc
    unfold InExtent at hc ⊢
    cases d <;> simp only [unit] at hc <;> iv_omega
  -- the last layer is split off
  have hsplit : ∀ a : IntVec → K, blockSum lo ext a =
      blockSum lo (ext - unit d) a + blockSum (lo + along (comp ext d - 1) d) (layer ext d) a :=
    blockSum_split d lo ext hext
  have htele := blockSum_telescope d lo (ext - unit d) (by cases d <;> simp only [unit] <;> iv_omega)
    (fun c => valueAt m phi c * valueAt m F (lowSide v d c))
  rw [layer_sub, show comp (ext - unit d) d = comp ext d - 1 by cases d <;> rfl] at htele
  rw [hsplit, add_mul, add_mul, ← blockSum_mul, ← blockSum_mul, ← blockSum_mul]
  have hA : blockSum lo (ext - unit d) (fun c => valueAt m phi c * valueAt m2 q c * h d) +
      blockSum lo (ext - unit d) (fun c => valueAt m F (highSide v d c) * valueAt m1 g (highSide v d c) * h d) =
      blockSum lo (ext - unit d) (fun c => valueAt m phi (c + unit d) * valueAt m F (lowSide v d (c + unit d)) -
        valueAt m phi c * valueAt m F (lowSide v d c)) := by
    rw [← blockSum_add]
    refine blockSum_congr fun c hc => ?_
    have p1 := v2 c (hcells c (hsub c hc))
    have p2 := v1 _ (hfaces c hc)
    rw [hlo, hhi] at p2
    rw [hnext, mul_assoc, p1, mul_assoc, p2]
    ring
  have hB : blockSum (lo + along (comp ext d - 1) d) (layer ext d) (fun c => valueAt m phi c * valueAt m2 q c * h d) =
      blockSum (lo + along (comp ext d - 1) d) (layer ext d) (fun c => valueAt m phi c * valueAt m F (highSide v d c)) -
      blockSum (lo + along (comp ext d - 1) d) (layer ext d) (fun c => valueAt m phi c * valueAt m F (lowSide v d c)) := by
    rw [← blockSum_sub]
    refine blockSum_congr fun c hc => ?_
    have p1 := v2 c (hcells c (by
      unfold InExtent at hc ⊢
      cases d <;> simp only [along, layer, comp] at hc <;> iv_omega))
    rw [mul_assoc, p1]
    ring
  rw [add_right_comm, hA, htele, hB]
  ring

/-- Non-vacuity: both operators on the example mesh, and a block of two by three cells in its
interior. -/
example : Applicable ⟨4, 3, 1⟩ ⟨.gradient, .sVol, .sSurfX, .per .x⟩ .x (NeboEx.fld false 2) (NeboEx.fld true 3) 3 ∧
    Applicable ⟨4, 3, 1⟩ ⟨.divergence, .sSurfX, .sVol, .per .x⟩ .x (NeboEx.fld true 1) (NeboEx.fld false 0) 0 ∧
    FieldType.sVol.face .x = some .sSurfX ∧
    (∀ c, InExtent ⟨1, 0, 0⟩ ⟨2, 3, 1⟩ c → Interior ⟨4, 3, 1⟩ (NeboEx.fld false 0) c) ∧
    (∀ c, InExtent ⟨1, 0, 0⟩ (⟨2, 3, 1⟩ - unit .x) c → Interior ⟨4, 3, 1⟩ (NeboEx.fld true 3) (highSide .sVol .x c)) := by
  refine ⟨ConserveEx.gradApplies, ConserveEx.divApplies, rfl, fun c hc => ?_, fun c hc => ?_⟩
  · rw [ConserveEx.interior]
    unfold InExtent at hc
    simp only [Bool.false_eq_true, if_false]
    iv_omega
  · rw [ConserveEx.interior]
    unfold InExtent at hc
    simp only [highSide, lowSide, staggered, unit, Bool.false_eq_true, if_true, if_false] at hc ⊢
    iv_omega

/-- C65. If nothing flows through the two ends of the block, the gradient is minus the adjoint of the
divergence. -/
theorem C65_adjoint (h : Dir → K) (v f : FieldType) (d : Dir) (hf : v.face d = some f) (hh : h d ≠ 0)
    (n : IntVec) (hn : IntVec.Lt 0 n) (phi F g q : FieldObj) (bg bq : Nat)
    (hg : Applicable n ⟨.gradient, v, f, .per d⟩ d phi g bg) (hq : Applicable n ⟨.divergence, f, v, .per d⟩ d F q bq)
    (m m1 m2 : Mem K) (e1 : (Reg.mk .gradient v f (.per d)).applyToField h phi g m = .ok m1)
    (e2 : (Reg.mk .divergence f v (.per d)).applyToField h F q m = .ok m2)
    (lo ext : IntVec) (hext : IntVec.Lt 0 ext) (hcells : ∀ c, InExtent lo ext c → Interior n q c)
    (hfaces : ∀ c, InExtent lo (ext - unit d) c → Interior n g (highSide v d c))
    (hnear : ∀ c, InExtent lo (layer ext d) c → valueAt m F (lowSide v d c) = 0)
    (hfar : ∀ c, InExtent (lo + along (comp ext d - 1) d) (layer ext d) c → valueAt m F (highSide v d c) = 0) :
    blockSum lo ext (fun c => valueAt m phi c * valueAt m2 q c) =
      -blockSum lo (ext - unit d) (fun c => valueAt m F (highSide v d c) * valueAt m1 g (highSide v d c)) := by
  have := C65_summation_by_parts h v f d hf hh n hn phi F g q bg bq hg hq m m1 m2 e1 e2 lo ext hext hcells hfaces
  have z1 : blockSum (lo + along (comp ext d - 1) d) (layer ext d)
      (fun c => valueAt m phi c * valueAt m F (highSide v d c)) = 0 := by
    rw [blockSum_congr (g := fun _ => 0) fun c hc => by rw [hfar c hc, mul_zero]]
    simp [blockSum]
  have z2 : blockSum lo (layer ext d) (fun c => valueAt m phi c * valueAt m F (lowSide v d c)) = 0 := by
    rw [blockSum_congr (g := fun _ => 0) fun c hc => by rw [hnear c hc, mul_zero]]
    simp [blockSum]
  rw [z1, z2, sub_zero] at this
  exact eq_neg_of_add_eq_zero_left ((mul_eq_zero.1 this).resolve_right hh)

/-! ## C66 -/

/-- C66. Every registered interpolant and filter (the directional ones included) is an average: wherever the values it reads lie between two bounds, so
does its result. -/
theorem C66_bounds [LinearOrder K] [IsStrictOrderedRing K] (h : Dir → K) (r : Reg) (hr : r ∈ registrations)
    (ho : r.op = .interpolant ∨ r.op = .filter ∨ ∃ d, r.op = .interpolantD d)
    (n : IntVec) (hn : IntVec.Lt 0 n) (src dest : FieldObj) (b : Nat) (ha : Readable n r src dest b) (m : Mem K) :
    ∃ m', r.applyToField h src dest m = .ok m' ∧
      ∀ c, Interior n dest c → ∀ lo hi : K,
        (∀ p ∈ r.reads, lo ≤ valueAt m src (c + p) ∧ valueAt m src (c + p) ≤ hi) →
        lo ≤ valueAt m' dest c ∧ valueAt m' dest c ≤ hi := by
  obtain ⟨t, w, den, s, ht, hw, hok⟩ := reg_weights hr
  obtain ⟨m', h1, h2, -⟩ := apply_any h ht hw hn ha m
  have hnn := List.all_eq_true.1 all_nonneg r hr
  refine ⟨m', h1, fun c hc lo hi hb => ?_⟩
  have hi' : interpOk r.src r.dest w den s = true := by
    unfold regOk at hok
    unfold Reg.type at ht
    rw [ht] at hok
    dsimp only at hok
    rw [hw] at hok
    rcases ho with ho | ho | ⟨d, ho⟩ <;> rw [ho] at hok <;> exact hok
  unfold interpOk at hi'
  simp only [Bool.and_eq_true, beq_iff_eq, bne_iff_ne] at hi'
  obtain ⟨⟨⟨rfl, hden⟩, hm0⟩, -⟩ := hi'
  have hpos : ∀ q ∈ w.toList, (0 : K) ≤ (q.2 : K) := by
    intro q hq
    unfold nonnegOk at hnn
    rw [ht] at hnn
    dsimp only at hnn
    rw [hw] at hnn
    have : (w.toList.all fun q => decide (0 ≤ q.2)) = true := by
      rcases ho with ho | ho | ⟨d, ho⟩ <;> rw [ho] at hnn <;> exact hnn
    have := List.all_eq_true.1 this q hq
    exact_mod_cast of_decide_eq_true this
  have hbd := weighted_between w (fun q => valueAt m src (c + q.1)) lo hi hpos (fun q hq =>
    hb q.1 (by rw [reads_eq ht]; exact weights_points hw q hq))
  rw [hm0] at hbd
  have hd : (0 : K) < (den : K) := by exact_mod_cast Nat.pos_of_ne_zero hden
  rw [h2 c hc]
  unfold factor
  push_cast at hbd
  rw [mul_one_div, le_div_iff₀ hd, div_le_iff₀ hd]
  exact hbd

/-- Non-vacuity of `Readable`: the interpolant from scalar volumes to x faces on the example mesh reads the two cells
beside the face. -/
theorem ConserveEx.interpReads (a b : Nat) (hab : a ≠ b) : Readable ⟨4, 3, 1⟩ ⟨.interpolant, .sVol, .sSurfX, .half⟩ (NeboEx.fld false a)
    (NeboEx.fld true b) b where
  target := NeboEx.target true b
  extra := by show IntVec.Le (NeboEx.geo true).bc.hasExtra _; decide
  mesh := NeboEx.onMesh false
  mem := by simp [NeboEx.fld]
  apart := by simpa [NeboEx.fld] using hab
  self := by
    intro c hc
    rw [ConserveEx.interior] at hc
    show HasCell (NeboEx.geo false) _
    rw [ConserveEx.hasCell]
    simp only [Bool.false_eq_true, if_true, if_false] at hc ⊢
    omega
  reads := by
    intro c hc p hp
    rw [ConserveEx.interior] at hc
    have hr : (Reg.mk .interpolant .sVol .sSurfX .half).reads = [⟨-1, 0, 0⟩, ⟨0, 0, 0⟩] := by decide +kernel
    rw [hr] at hp
    show HasCell (NeboEx.geo false) _
    rw [ConserveEx.hasCell]
    simp only [Bool.false_eq_true, if_true, if_false, IntVec.add_x, IntVec.add_y, IntVec.add_z] at hc ⊢
    simp only [List.mem_cons, List.not_mem_nil, or_false] at hp
    rcases hp with rfl | rfl <;> simp only <;> omega

example : (Reg.mk .interpolant .sVol .sSurfX .half) ∈ registrations := by decide +kernel

/-! ## C67 -/

/-- C67. Every registered operator is linear: if a source holds `α` times a second plus `β` times a third, so does the
result. -/
theorem C67_linear (h : Dir → K) (r : Reg) (hr : r ∈ registrations) (n : IntVec) (hn : IntVec.Lt 0 n)
    (s0 s1 s2 l0 l1 l2 : FieldObj) (b0 b1 b2 : Nat) (ha0 : Readable n r s0 l0 b0) (ha1 : Readable n r s1 l1 b1)
    (ha2 : Readable n r s2 l2 b2) (m m0 m1 m2 : Mem K) (α β : K)
    (e0 : r.applyToField h s0 l0 m = .ok m0) (e1 : r.applyToField h s1 l1 m = .ok m1)
    (e2 : r.applyToField h s2 l2 m = .ok m2) (c : IntVec) (i0 : Interior n l0 c) (i1 : Interior n l1 c) (i2 : Interior n l2 c)
    (hs : ∀ p ∈ r.reads, valueAt m s0 (c + p) = α * valueAt m s1 (c + p) + β * valueAt m s2 (c + p)) :
    valueAt m0 l0 c = α * valueAt m1 l1 c + β * valueAt m2 l2 c := by
  obtain ⟨t, w, den, s, ht, hw, hok⟩ := reg_weights hr
  obtain ⟨m0', a0, v0, -⟩ := apply_any h ht hw hn ha0 m
  obtain ⟨m1', a1, v1, -⟩ := apply_any h ht hw hn ha1 m
  obtain ⟨m2', a2, v2, -⟩ := apply_any h ht hw hn ha2 m
  rw [e0] at a0
  rw [e1] at a1
  rw [e2] at a2
  injection a0 with a0
  injection a1 with a1
  injection a2 with a2
  subst a0 a1 a2
  rw [v0 c i0, v1 c i1, v2 c i2]
  have : (w.sum fun q => valueAt m s0 (c + q.1) * (q.2 : K)) =
      (w.sum fun q => valueAt m s1 (c + q.1) * (q.2 : K)) * α + (w.sum fun q => valueAt m s2 (c + q.1) * (q.2 : K)) * β := by
    rw [← sum_mul, ← sum_mul, ← sum_add]
    refine sum_congr _ fun q hq => ?_
    rw [hs q.1 (by rw [reads_eq ht]; exact weights_points hw q hq)]
    ring
  rw [this]
  ring

/-- Non-vacuity: three sources and three destinations on the example mesh. -/
example : ∃ m m0 m1 m2 : Mem ℚ, ∃ r ∈ registrations,
    Readable ⟨4, 3, 1⟩ r (NeboEx.fld false 0) (NeboEx.fld true 3) 3 ∧ Readable ⟨4, 3, 1⟩ r (NeboEx.fld false 1) (NeboEx.fld true 4) 4 ∧
    Readable ⟨4, 3, 1⟩ r (NeboEx.fld false 2) (NeboEx.fld true 5) 5 ∧
    r.applyToField (fun _ => 1) (NeboEx.fld false 0) (NeboEx.fld true 3) m = .ok m0 ∧
    r.applyToField (fun _ => 1) (NeboEx.fld false 1) (NeboEx.fld true 4) m = .ok m1 ∧
    r.applyToField (fun _ => 1) (NeboEx.fld false 2) (NeboEx.fld true 5) m = .ok m2 ∧
    ∀ c, valueAt m (NeboEx.fld false 0) c = 2 * valueAt m (NeboEx.fld false 1) c + 3 * valueAt m (NeboEx.fld false 2) c := by
  have hr : (Reg.mk .interpolant .sVol .sSurfX .half) ∈ registrations := by decide +kernel
  let m : Mem ℚ := fun b x => if b = 0 then 2 * x + 3 * (x * x) else if b = 1 then x else x * x
  obtain ⟨m0, h0, -⟩ := C66_bounds (fun _ => (1 : ℚ)) _ hr (.inl rfl) ⟨4, 3, 1⟩ (by decide) _ _ 3
    (ConserveEx.interpReads 0 3 (by decide)) m
  obtain ⟨m1, h1, -⟩ := C66_bounds (fun _ => (1 : ℚ)) _ hr (.inl rfl) ⟨4, 3, 1⟩ (by decide) _ _ 4
    (ConserveEx.interpReads 1 4 (by decide)) m
  obtain ⟨m2, h2, -⟩ := C66_bounds (fun _ => (1 : ℚ)) _ hr (.inl rfl) ⟨4, 3, 1⟩ (by decide) _ _ 5
    (ConserveEx.interpReads 2 5 (by decide)) m
  refine ⟨m, m0, m1, m2, _, hr, ConserveEx.interpReads 0 3 (by decide), ConserveEx.interpReads 1 4 (by decide),
    ConserveEx.interpReads 2 5 (by decide), h0, h1, h2, fun c => ?_⟩
  simp [valueAt, NeboEx.fld, m]

end SpatialOps
