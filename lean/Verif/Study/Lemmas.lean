import Verif.Study.Spec
import Verif.Accuracy.Props
import Verif.Grid.Props
import Verif.Loops.Props
import Verif.NeboRed.Props
import Mathlib.Analysis.SpecialFunctions.Pow.Real

/-!
# Lemmas for the study of convergence
-/

namespace SpatialOps
namespace Study

open Nebo Stencil

/-- `GhostData(1)`. -/
def G1 : GhostData := ⟨⟨1, 1, 1⟩, ⟨1, 1, 1⟩, false⟩

theorem makeUniform_eq : GhostData.makeUniform 1 = .ok G1 := by decide

theorem bcExtra_nonneg (t : FieldType) : IntVec.Le 0 t.bcExtra := by cases t <;> decide

theorem bcExtra_staggered (t : FieldType) (d : Dir) : comp t.bcExtra d ≤ if staggered t d then 1 else 0 := by
  cases t <;> cases d <;> decide

/-- The boundary cells of a field of type `t`. -/
def extra (plus : Dir → Bool) (t : FieldType) : IntVec :=
  ⟨extraCells (plus .x) t.bcExtra.x, extraCells (plus .y) t.bcExtra.y, extraCells (plus .z) t.bcExtra.z⟩

theorem extra_nonneg (plus : Dir → Bool) (t : FieldType) : IntVec.Le 0 (extra plus t) := by
  have := bcExtra_nonneg t
  unfold extra extraCells
  unfold IntVec.Le at this ⊢
  cases plus .x <;> cases plus .y <;> cases plus .z <;> simp at this ⊢ <;> omega

theorem extra_le (plus : Dir → Bool) (t : FieldType) (d : Dir) : comp (extra plus t) d ≤ if staggered t d then 1 else 0 := by
  have h1 := bcExtra_staggered t d
  have h0 := bcExtra_nonneg t
  unfold IntVec.Le at h0
  have : comp (extra plus t) d ≤ comp t.bcExtra d := by
    unfold extra extraCells
    cases d <;> simp only [comp] <;> split <;> simp at h0 ⊢ <;> omega
  omega

/-- What is used of a field of the program. -/
structure Good (n : IntVec) (plus : Dir → Bool) (t : FieldType) (f : FieldObj) (b : Nat) : Prop where
  target : Target n f b
  built : Loops.Built n G1 (plus .x) (plus .y) (plus .z) t f b
  offset : f.geo.window.offset = 0
  full : f.geo.window.extent = f.geo.window.npts
  ghosts : f.geo.ghosts = G1
  valid : f.geo.validGhosts = G1
  bc : f.geo.bc.hasExtra = extra plus t
  bcs : f.geo.bc = BcInfo.build (plus .x) (plus .y) (plus .z) t.bcExtra
  interior : f.geo.interior = ⟨f.geo.window.npts, ⟨1, 1, 1⟩, n + extra plus t⟩

theorem newField_ok {n : IntVec} (hn : IntVec.Lt ⟨1, 1, 1⟩ n) (plus : Dir → Bool) (t : FieldType) (b : Nat) :
    ∃ f, newField n plus t b = .ok f ∧ Good n plus t f b := by
  obtain ⟨w, f, c1, c2, c3, c4, c5, c6, c7, c8, c9, c10, c11, c12, c13, lx, ly, lz⟩ :=
    C09_field_layout n G1 (plus .x) (plus .y) (plus .z) t.bcExtra (by decide) (bcExtra_nonneg t)
  have hbc : f.bc = BcInfo.build (plus .x) (plus .y) (plus .z) t.bcExtra := by
    have w2 := c2
    unfold FieldGeo.ctor at w2
    obtain ⟨g1, -, w2⟩ := Outcome.bind_eq_ok.1 w2
    obtain ⟨-, -, w2⟩ := Outcome.bind_eq_ok.1 w2
    obtain ⟨i, -, w2⟩ := Outcome.bind_eq_ok.1 w2
    injection w2 with w2
    rw [← w2]
  have hex : f.bc.hasExtra = extra plus t := by
    rw [hbc, SpatialOps.hasExtra_build]
    rfl
  obtain ⟨a1, a2, a3⟩ := lx.active hn.1
  obtain ⟨b1, b2, b3⟩ := ly.active hn.2.1
  obtain ⟨d1, d2, d3⟩ := lz.active hn.2.2
  have he0 := extra_nonneg plus t
  have hnp : w.npts = n + extra plus t + ⟨1, 1, 1⟩ + ⟨1, 1, 1⟩ := by
    unfold extra
    unfold G1 at a3 b3 d3
    ext <;> simp only [IntVec.add_x, IntVec.add_y, IntVec.add_z] at * <;> omega
  have hm : OnMesh n f := by
    refine ⟨by rw [c3]; exact c6, ?_, by rw [hex]; exact he0, by rw [c12]; decide, by rw [c12]; rfl, by rw [c11]; decide, by rw [c11]; rfl⟩
    rw [c3, c5, hex, c12]
    exact hnp
  refine ⟨⟨f, some b, none, true, .localRam, 0, false, [], [], false, w.globNpts⟩, ?_, ?_⟩
  · unfold newField
    rw [makeUniform_eq, Outcome.ok_bind]
    dsimp only
    rw [c1, Outcome.ok_bind, c2, Outcome.ok_bind]
    rfl
  · refine ⟨⟨hm, rfl, rfl, rfl, ?_⟩, ⟨⟨w, c1, c2⟩, rfl, rfl, rfl⟩, by dsimp only; rw [c3]; exact c4, by dsimp only; rw [c3]; exact c5, c11, c12,
      hex, hbc, ?_⟩
    · unfold origin
      dsimp only
      rw [c3, c4, c12, c11, hex, hnp]
      unfold G1
      iv_omega
    · dsimp only
      rw [c3]
      have e1 : f.interior.offset = ⟨1, 1, 1⟩ := by
        ext
        · exact a1
        · exact b1
        · exact d1
      have e2 : f.interior.extent = n + extra plus t := by
        unfold extra
        ext <;> simp only [IntVec.add_x, IntVec.add_y, IntVec.add_z]
        · exact a2
        · exact b2
        · exact d2
      rw [← e1, ← e2, ← c8]

variable {n : IntVec} {plus : Dir → Bool} {t : FieldType} {f : FieldObj} {b : Nat}

theorem Good.origin_eq (h : Good n plus t f b) : origin f.geo = ⟨1, 1, 1⟩ := by
  unfold origin
  rw [h.offset, h.valid]
  decide

/-- The cells of a field: one around the interior. -/
theorem Good.has (h : Good n plus t f b) (c : IntVec) :
    HasCell f.geo c ↔ IntVec.Le ⟨-1, -1, -1⟩ c ∧ IntVec.Lt c (n + extra plus t + ⟨1, 1, 1⟩) := by
  rw [hasCell_iff h.target.mesh, h.valid, h.bc]
  unfold Nebo.InBox G1
  constructor <;> intro h <;> iv_omega

theorem Good.stored (h : Good n plus t f b) (c : IntVec) : Stored n f c ↔ HasCell f.geo c := by
  rw [h.has]
  unfold Stored
  rw [h.ghosts, h.bc]
  unfold G1
  constructor <;> intro h <;> iv_omega

theorem Good.interior_iff (h : Good n plus t f b) (c : IntVec) :
    Interior n f c ↔ IntVec.Le 0 c ∧ IntVec.Lt c (n + extra plus t) := by
  unfold Interior
  rw [h.bc]

theorem Good.interior_has (h : Good n plus t f b) {c : IntVec} (hc : Interior n f c) : HasCell f.geo c := by
  rw [h.interior_iff] at hc
  rw [h.has]
  iv_omega

/-- All fields of a type have their cells at the same elements. -/
theorem Good.npts (h : Good n plus t f b) : f.geo.window.npts = n + extra plus t + ⟨2, 2, 2⟩ := by
  rw [← h.full, h.target.mesh.size, h.valid, h.bc]
  unfold G1
  ext <;> simp only [IntVec.add_x, IntVec.add_y, IntVec.add_z] <;> omega

section
variable {K : Type} [Field K] [CharZero K]

/-- The spacing of the grid and of the operators. -/
def hK (n : IntVec) (L : Dir → K) (d : Dir) : K := L d / ((comp n d : Int) : K)

theorem extract_comp (v : IntVec) (d : Dir) : extract v d = comp v d := by cases d <;> rfl

omit [CharZero K] in
theorem spacing_eq (hn : IntVec.Lt ⟨1, 1, 1⟩ n) (L : Dir → K) : spacing (fun d => (extract n d).toNat) L = hK n L := by
  funext d
  unfold spacing hK
  dsimp only
  rw [extract_comp]
  have : 0 ≤ comp n d := by
    unfold IntVec.Lt at hn
    cases d <;> simp only [comp] <;> simp at hn <;> omega
  have e : (((comp n d).toNat : Nat) : K) = (((comp n d).toNat : Int) : K) := by norm_cast
  rw [e, Int.toNat_of_nonneg this]

/-- The three coordinates. -/
theorem setCoords_ok (hn : IntVec.Lt ⟨1, 1, 1⟩ n) (L : Dir → K) {X : Dir → FieldObj} {bs : Dir → Nat} (h : ∀ d, Good n plus t (X d) (bs d))
    (hb : ∀ d d', d ≠ d' → bs d ≠ bs d') (m : Mem K) :
    ∃ m', setCoords (Grid.make n L) t X m = .ok m' ∧
      (∀ d c, HasCell (X d).geo c → valueAt m' (X d) c = position (hK n L) t c d) ∧
      ∀ blk, (∀ d, blk ≠ bs d) → ∀ a, m' blk a = m blk a := by
  have hn0 : IntVec.Lt 0 n := by iv_omega
  have step : ∀ d m, ∃ m', (Grid.make n L).setCoord d t (X d) m = .ok m' ∧
      (∀ c, HasCell (X d).geo c → valueAt m' (X d) c = position (hK n L) t c d) ∧ ∀ blk, blk ≠ bs d → ∀ a, m' blk a = m blk a := by
    intro d m
    obtain ⟨m', h1, h2, h3⟩ := C46_coordinates_partial n L d t n hn0 (X d) (bs d) (h d).target (by
      rw [(h d).interior, (h d).origin_eq]) (by rw [(h d).offset]; cases d <;> rfl) m
    refine ⟨m', h1, fun c hc => ?_, fun blk hblk a => h3 blk a (.inl hblk)⟩
    unfold valueAt
    rw [(h d).target.mem]
    exact h2 c hc
  obtain ⟨m1, a1, a2, a3⟩ := step .x m
  obtain ⟨m2, b1, b2, b3⟩ := step .y m1
  obtain ⟨m3, c1, c2, c3⟩ := step .z m2
  refine ⟨m3, ?_, ?_, fun blk hblk a => ?_⟩
  · unfold setCoords
    rw [a1, Outcome.ok_bind, b1, Outcome.ok_bind, c1]
  · intro d c hc
    have mem : ∀ m : Mem K, valueAt m (X d) c = m (bs d) (cellAddr (X d).geo c) := by
      intro m
      unfold valueAt
      rw [(h d).target.mem]
      rfl
    cases d with
    | x =>
      rw [← a2 c hc, mem, mem, c3 _ (hb .x .z (by decide)), b3 _ (hb .x .y (by decide))]
    | y => rw [← b2 c hc, mem, mem, c3 _ (hb .y .z (by decide))]
    | z => exact c2 c hc
  · rw [c3 _ (hblk .z), b3 _ (hblk .y), a3 _ (hblk .x)]

omit [CharZero K] in
/-- The expression in the coordinate fields. -/
theorem expr_facts (F : Fn K) {X : Dir → FieldObj} {bs : Dir → Nat} (h : ∀ d, Good n plus t (X d) (bs d)) {l : FieldObj} {b : Nat}
    (hl : Good n plus t l b) (hb : ∀ d, bs d ≠ b) :
    (F.expr X).Wf n ∧ (∀ c, HasCell l.geo c → (F.expr X).DefinedAt n c) ∧ (F.expr X).Independent l 0 ∧
      ∀ (m : Mem K) (c : IntVec) (p : Dir → K), (∀ d, valueAt m (X d) c = p d) → (F.expr X).value m c = F.at p := by
  induction F with
  | coord d =>
    refine ⟨⟨(h d).target.mesh, by rw [(h d).target.mem]; simp⟩, fun c hc => ?_, .inl ?_, fun m c p hp => hp d⟩
    · have := (hl.has c).1 hc
      exact ((h d).has c).2 this
    · rw [(h d).target.mem, hl.target.mem]
      simpa using hb d
  | const v =>
    refine ⟨trivial, fun c hc => ?_, trivial, fun m c p _ => rfl⟩
    have := (hl.has c).1 hc
    have h1 := extra_le plus t .x
    have h2 := extra_le plus t .y
    have h3 := extra_le plus t .z
    simp only [comp] at h1 h2 h3
    have q1 : (if staggered t .x then (1 : Int) else 0) ≤ 1 := by split <;> omega
    have q2 : (if staggered t .y then (1 : Int) else 0) ≤ 1 := by split <;> omega
    have q3 : (if staggered t .z then (1 : Int) else 0) ≤ 1 := by split <;> omega
    unfold Fn.expr Expr.DefinedAt
    simp only [ghostMax]
    generalize extra plus t = ex at *
    iv_omega
  | un g a ih =>
    obtain ⟨i1, i2, i3, i4⟩ := ih
    exact ⟨i1, i2, i3, fun m c p hp => congrArg g (i4 m c p hp)⟩
  | bin g a b iha ihb =>
    obtain ⟨i1, i2, i3, i4⟩ := iha
    obtain ⟨j1, j2, j3, j4⟩ := ihb
    exact ⟨⟨i1, j1⟩, fun c hc => ⟨i2 c hc, j2 c hc⟩, ⟨i3, j3⟩, fun m c p hp => congrArg₂ g (i4 m c p hp) (j4 m c p hp)⟩

omit [CharZero K] in
/-- Assigning the function gives each cell its value. -/
theorem assign_fn (hn : IntVec.Lt ⟨1, 1, 1⟩ n) (h : Dir → K) (F : Fn K) {X : Dir → FieldObj} {bs : Dir → Nat} (hX : ∀ d, Good n plus t (X d) (bs d))
    {l : FieldObj} {b : Nat} (hl : Good n plus t l b) (hb : ∀ d, bs d ≠ b) (m : Mem K)
    (hm : ∀ d c, HasCell (X d).geo c → valueAt m (X d) c = position h t c d) :
    ∃ m', assign l (F.expr X) m = .ok m' ∧ (∀ c, HasCell l.geo c → valueAt m' l c = F.at (position h t c)) ∧
      ∀ blk, blk ≠ b → ∀ a, m' blk a = m blk a := by
  obtain ⟨f1, f2, f3, f4⟩ := expr_facts F hX hl hb
  obtain ⟨m', h1, h2, h3⟩ := C22_assign_pointwise n (by iv_omega) l b hl.target (F.expr X) f1 (fun c hc => f2 c (hl.interior_has hc)) f3 m
  refine ⟨m', h1, fun c hc => ?_, fun blk hblk a => h3 blk a (.inl hblk)⟩
  unfold valueAt
  rw [hl.target.mem, Option.getD_some, h2 c ⟨(hl.stored c).2 hc, f2 c hc⟩]
  exact f4 m c _ fun d => hm d c (((hX d).has c).2 ((hl.has c).1 hc))

end

/-- The database returns the operator of the type. -/
theorem retrieve_ok {r : Reg} (hr : r ∈ registrations) : retrieve r.type = .ok r := by
  obtain ⟨i, hi, rfl⟩ := List.mem_iff_getElem.1 hr
  have := (C31_each_type_registered_once [] (by simp [OpDb.registered, OpDb.since]) id i hi).2.2
  rw [List.nil_append] at this
  unfold retrieve
  rw [this, Outcome.ok_bind]
  simp only [id, List.getElem?_eq_getElem hi]

/-! ## The operator -/

theorem weights_some : ∀ r ∈ registrations, ∃ t w den s, r.type = some t ∧ weights t r.coef = some (w, den, s) := by
  have : ∀ r ∈ registrations, (r.type.bind fun t => weights t r.coef).isSome = true := by decide +kernel
  intro r hr
  have := this r hr
  cases ht : r.type with
  | none => rw [ht] at this; simp at this
  | some t =>
    rw [ht, Option.bind_some, Option.isSome_iff_exists] at this
    obtain ⟨⟨w, den, s⟩, h⟩ := this
    exact ⟨t, w, den, s, rfl, h⟩

/-- Other blocks stay as they are. -/
theorem apply_frame (h : Dir → ℝ) {r : Reg} (hr : r ∈ registrations) (hn : IntVec.Lt 0 n) {src dest : FieldObj} {b : Nat}
    (ha : Readable n r src dest b) {m m' : Mem ℝ} (e : r.applyToField h src dest m = .ok m') : ∀ blk, blk ≠ b → ∀ a, m' blk a = m blk a := by
  obtain ⟨t, w, den, s, ht, hw⟩ := weights_some r hr
  obtain ⟨m'', h1, -, h3⟩ := apply_any h ht hw hn ha m
  rw [e] at h1
  injection h1 with h1
  subst h1
  exact fun blk hb a => h3 blk a (.inl hb)

/-- The places of a field's cells. -/
theorem Good.box (h : Good n plus t f b) (hn : IntVec.Lt ⟨1, 1, 1⟩ n) {L lo hi : Dir → ℝ} (hL : ∀ d, 0 < L d) (ha : Around n L lo hi)
    {c : IntVec} (hc : HasCell f.geo c) : Accuracy.InBox lo hi (position (meshSpacing n L) t c) := by
  intro d
  obtain ⟨a1, a2⟩ := ha d
  have h1 := (h.has c).1 hc
  have h2 := extra_le plus t d
  have hnd : 0 < comp n d := by
    unfold IntVec.Lt at hn
    cases d <;> simp only [comp] <;> simp at hn <;> omega
  have b1 : -1 ≤ comp c d := by
    unfold IntVec.Le at h1
    cases d <;> simp only [comp] <;> simp at h1 <;> omega
  have b2 : comp c d ≤ comp n d + comp (extra plus t) d := by
    have h1 := h1.2
    unfold IntVec.Lt at h1
    generalize extra plus t = ex at *
    cases d <;> simp only [comp, IntVec.add_x, IntVec.add_y, IntVec.add_z] at * <;> omega
  have hnr : (0 : ℝ) < (comp n d : ℝ) := by exact_mod_cast hnd
  have hpos : 0 < meshSpacing n L d := div_pos (hL d) hnr
  have hLn : L d = meshSpacing n L d * (comp n d : ℝ) := by
    unfold meshSpacing
    field_simp
  have b1' : (-1 : ℝ) ≤ (comp c d : ℝ) := by exact_mod_cast b1
  unfold position
  split
  · rename_i hs
    rw [if_pos hs] at h2
    have b2' : (comp c d : ℝ) ≤ (comp n d : ℝ) + 1 := by exact_mod_cast (by omega : comp c d ≤ comp n d + 1)
    constructor <;> nlinarith
  · rename_i hs
    rw [if_neg hs] at h2
    have b2' : (comp c d : ℝ) ≤ (comp n d : ℝ) := by exact_mod_cast (by omega : comp c d ≤ comp n d)
    constructor <;> nlinarith

/-! ## The norm -/

/-- A view of the interior. -/
theorem Good.view (h : Good n plus t f b) (hn : IntVec.Lt ⟨2, 2, 2⟩ n) :
    ∃ v, interiorOf f = .ok v ∧ OnMesh (n - ⟨2, 2, 2⟩) v.geo ∧ v.values = some b ∧
      (∀ c, HasCell v.geo c ↔ Interior n f (c + ⟨1, 1, 1⟩)) ∧ ∀ {K : Type} (m : Mem K) c, valueAt m v c = valueAt m f (c + ⟨1, 1, 1⟩) := by
  have he := extra_nonneg plus t
  have hnp := h.npts
  have hi := h.interior
  rw [hnp] at hi
  generalize hex : extra plus t = ex at *
  have hsv : FieldGeo.singleValueCheck false f.geo.interior G1 = .ok () := by
    unfold FieldGeo.singleValueCheck
    rw [Outcome.throwIf_false (by simp), Outcome.ok_bind, Outcome.throwIf_false (by simp)]
  obtain ⟨dis, hv⟩ : ∃ dis, FieldGeo.windowCopy false f.geo.interior f.geo =
      .ok { f.geo with window := f.geo.interior, validGhosts := G1, disableInterior := dis } := by
    unfold FieldGeo.windowCopy
    rw [h.ghosts, show G1.copy = .ok G1 from by decide, Outcome.ok_bind, hsv, Outcome.ok_bind,
      Outcome.assert_true (by rw [hi]; unfold Window.sanityCheck; simp only [IntVec.add_x, IntVec.add_y, IntVec.add_z, IntVec.sub_x, IntVec.sub_y, IntVec.sub_z]; iv_omega),
      Outcome.ok_bind, Outcome.assert_true (by rw [hi, hnp]; simp only [IntVec.add_x]; iv_omega), Outcome.ok_bind,
      Outcome.assert_true (by rw [hi, hnp]; simp only [IntVec.add_y]; iv_omega), Outcome.ok_bind,
      Outcome.assert_true (by rw [hi, hnp]; simp only [IntVec.add_z]; iv_omega), Outcome.ok_bind]
    exact ⟨_, by rw [← h.ghosts]; rfl⟩
  have horg : origin { f.geo with window := f.geo.interior, validGhosts := G1, disableInterior := dis } = ⟨2, 2, 2⟩ := by
    unfold origin
    dsimp only
    rw [hi]
    rfl
  refine ⟨{ f with geo := { f.geo with window := f.geo.interior, validGhosts := G1, disableInterior := dis } }, ?_, ⟨?_, ?_, ?_, ?_, rfl, ?_, ?_⟩,
    h.target.mem, ?_, ?_⟩
  · unfold interiorOf
    rw [hv, Outcome.ok_bind]
    rfl
  · dsimp only
    rw [hi]
    unfold Window.Fits
    iv_omega
  · dsimp only
    rw [hi, h.bc, hex]
    unfold G1
    ext <;> simp only [IntVec.add_x, IntVec.add_y, IntVec.add_z, IntVec.sub_x, IntVec.sub_y, IntVec.sub_z] <;> omega
  · dsimp only
    rw [h.bc, hex]
    exact he
  · exact (by decide : G1.Valid)
  · dsimp only
    rw [h.ghosts]
    decide
  · dsimp only
    rw [h.ghosts]
    rfl
  · intro c
    rw [h.interior_iff, hex]
    unfold HasCell
    rw [horg]
    dsimp only
    rw [hi]
    unfold Window.Covers
    constructor <;> intro h <;> iv_omega
  · intro K m c
    unfold valueAt
    dsimp only
    congr 1
    unfold cellAddr
    rw [horg, h.origin_eq]
    dsimp only
    rw [hi, hnp]
    congr 1
    ext <;> simp only [IntVec.add_x, IntVec.add_y, IntVec.add_z] <;> omega

theorem fortranLt_ne {a b : IntVec} (h : FortranLt a b) : a ≠ b := by
  rintro rfl
  unfold FortranLt at h
  omega

theorem Lists.perm {l1 l2 : List IntVec} {P : IntVec → Prop} (h1 : Lists l1 P) (h2 : Lists l2 P) : l1.Perm l2 := by
  rw [List.perm_ext_iff_of_nodup (h1.1.imp fortranLt_ne) (h2.1.imp fortranLt_ne)]
  intro a
  rw [h1.2, h2.2]

theorem Lists.shift {l : List IntVec} {P Q : IntVec → Prop} (h : Lists l P) (s : IntVec) (hpq : ∀ c, P c ↔ Q (c + s)) :
    Lists (l.map (· + s)) Q := by
  constructor
  · rw [List.pairwise_map]
    refine h.1.imp fun {a b} hab => ?_
    unfold FortranLt at hab ⊢
    simp only [IntVec.add_x, IntVec.add_y, IntVec.add_z]
    omega
  · intro c
    rw [List.mem_map]
    constructor
    · rintro ⟨a, ha, rfl⟩
      exact (hpq a).1 ((h.2 a).1 ha)
    · intro hc
      have e : c - s + s = c := by
        ext <;> simp only [IntVec.add_x, IntVec.add_y, IntVec.add_z, IntVec.sub_x, IntVec.sub_y, IntVec.sub_z] <;> omega
      exact ⟨c - s, (h.2 _).2 ((hpq _).2 (by rw [e]; exact hc)), e⟩

/-- The norm of an expression of views. -/
theorem norm_view (hn : IntVec.Lt ⟨2, 2, 2⟩ n) {f : FieldObj} {b : Nat} (hf : Good n plus t f b) (e : Expr ℝ .num) (he : e.Wf (n - ⟨2, 2, 2⟩))
    (hs : e.StencilFree) (ho : e.HasOperand) (hd : ∀ c, e.DefinedAt (n - ⟨2, 2, 2⟩) c ↔ Interior n f (c + ⟨1, 1, 1⟩))
    (m : Mem ℝ) (w : IntVec → ℝ) (hw : ∀ c, e.value m c = w (c + ⟨1, 1, 1⟩)) :
    ∃ cells, Lists cells (Interior n f) ∧
      Returns (neboNorm Real.sqrt (fun x y => x ^ y) 2 e m) (Real.sqrt (cells.map fun c => w c ^ 2).sum) := by
  have he1 : IntVec.Le (extra plus t) ⟨1, 1, 1⟩ := by
    have h1 := extra_le plus t .x
    have h2 := extra_le plus t .y
    have h3 := extra_le plus t .z
    simp only [comp] at h1 h2 h3
    unfold IntVec.Le
    dsimp only
    refine ⟨h1.trans ?_, h2.trans ?_, h3.trans ?_⟩ <;> split <;> omega
  have he0 := extra_nonneg plus t
  obtain ⟨cells, h1, -, h2⟩ := C27_sum_and_norm (n - ⟨2, 2, 2⟩) (by unfold IntVec.Lt at *; simp only [IntVec.sub_x, IntVec.sub_y, IntVec.sub_z]; simp at hn ⊢; omega)
    e he hs ho (by
      intro c hc
      rw [hd, hf.interior_iff]
      unfold InBlock at hc
      unfold IntVec.Le IntVec.Lt at *
      simp only [IntVec.sub_x, IntVec.sub_y, IntVec.sub_z, IntVec.add_x, IntVec.add_y, IntVec.add_z] at *
      simp at *
      omega) Real.sqrt (fun x y => x ^ y) 2 (by
      intro c hc
      rw [hd, hf.interior_iff] at hc
      unfold ghostMax
      unfold IntVec.Le IntVec.Lt at *
      simp only [IntVec.sub_x, IntVec.sub_y, IntVec.sub_z, IntVec.add_x, IntVec.add_y, IntVec.add_z, IntVec.neg_x, IntVec.neg_y, IntVec.neg_z] at *
      simp at *
      omega) m
  refine ⟨cells.map (· + ⟨1, 1, 1⟩), Lists.shift h1 _ hd, ?_⟩
  rw [List.map_map]
  have : (cells.map fun c => (e.value m c : ℝ) ^ (2 : ℝ)) = cells.map ((fun c => w c ^ 2) ∘ (· + ⟨1, 1, 1⟩)) := by
    refine List.map_congr_left fun c _ => ?_
    rw [hw]
    exact Real.rpow_two _
  rw [← this]
  exact h2

/-- What `interior_norm` returns. -/
theorem interiorNorm_ok (hn : IntVec.Lt ⟨2, 2, 2⟩ n) {f1 f2 : FieldObj} {b1 b2 : Nat} (h1 : Good n plus t f1 b1) (h2 : Good n plus t f2 b2)
    (m : Mem ℝ) :
    ∃ cells, Lists cells (Interior n f1) ∧
      Returns (interiorNorm Real.sqrt (fun x y => x ^ y) 2 f1 f2 m)
        (Real.sqrt (cells.map fun c => (valueAt m f1 c - valueAt m f2 c) ^ 2).sum / Real.sqrt (cells.map fun c => valueAt m f2 c ^ 2).sum) := by
  obtain ⟨v1, a1, a2, a3, a4, a5⟩ := h1.view hn
  obtain ⟨v2, b1, b2, b3, b4, b5⟩ := h2.view hn
  have hii : ∀ c, Interior n f2 c ↔ Interior n f1 c := fun c => by rw [h1.interior_iff, h2.interior_iff]
  obtain ⟨l1, c1, k1, c2⟩ := norm_view hn h1 (.bin (s := .num) (t := .num) (fun x y : ℝ => x - y) (.field v1) (.field v2))
    ⟨⟨a2, by rw [a3]; simp⟩, ⟨b2, by rw [b3]; simp⟩⟩ ⟨trivial, trivial⟩ (.inl trivial)
    (fun c => ⟨fun h => (a4 c).1 h.1, fun h => ⟨(a4 c).2 h, (b4 c).2 ((hii _).2 h)⟩⟩) m (fun c => valueAt m f1 c - valueAt m f2 c)
    (fun c => by rw [← a5, ← b5]; rfl)
  obtain ⟨l2, d1, k2, d2⟩ := norm_view hn h2 (.field v2) ⟨b2, by rw [b3]; simp⟩ trivial trivial b4 m (fun c => valueAt m f2 c)
    (fun c => by rw [← b5]; rfl)
  have hp : l2.Perm l1 := Lists.perm ⟨d1.1, fun c => (d1.2 c).trans (hii c)⟩ c1
  refine ⟨l1, c1, max k1 k2, fun j hj => ?_⟩
  unfold interiorNorm
  rw [a1, Outcome.ok_bind, b1, Outcome.ok_bind]
  dsimp only
  rw [c2 j (le_trans (le_max_left _ _) hj), d2 j (le_trans (le_max_right _ _) hj), (hp.map _).sum_eq]
  rfl

/-- The root of a sum of squares of numbers of at most `E`. -/
theorem sqrt_sum_le {l : List IntVec} {w : IntVec → ℝ} {E : ℝ} (hE : 0 ≤ E) (h : ∀ c ∈ l, |w c| ≤ E) :
    Real.sqrt (l.map fun c => w c ^ 2).sum ≤ E * Real.sqrt l.length := by
  have : (l.map fun c => w c ^ 2).sum ≤ l.length * E ^ 2 := by
    induction l with
    | nil => simp
    | cons a l ih =>
      have h1 := ih fun c hc => h c (List.mem_cons_of_mem _ hc)
      have h2 : w a ^ 2 ≤ E ^ 2 := by
        rw [← sq_abs]
        exact pow_le_pow_left₀ (abs_nonneg _) (h a List.mem_cons_self) 2
      simp only [List.map_cons, List.sum_cons, List.length_cons, Nat.cast_add, Nat.cast_one]
      linarith
  calc Real.sqrt (l.map fun c => w c ^ 2).sum ≤ Real.sqrt (l.length * E ^ 2) := Real.sqrt_le_sqrt this
    _ = E * Real.sqrt l.length := by
      rw [Real.sqrt_mul (Nat.cast_nonneg _), Real.sqrt_sq hE, mul_comm]

end Study
end SpatialOps
