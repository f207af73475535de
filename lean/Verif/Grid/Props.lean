import Verif.Grid.Model
import Verif.Stencil.Props

namespace SpatialOps
namespace Stencil

open Nebo

/-! ## The nested loops -/

theorem range_flatMap {β : Type} (a b : Nat) (f : Nat → β) :
    ((List.range a).flatMap fun i => (List.range b).map fun j => f (b * i + j)) = (List.range (a * b)).map f := by
  induction a with
  | zero => simp
  | succ a ih =>
    rw [List.range_succ, List.flatMap_append, ih, Nat.succ_mul, List.range_add, List.map_append]
    simp [Nat.mul_comm]

theorem flatMap_congr' {α β : Type} {l : List α} {f g : α → List β} (h : ∀ a ∈ l, f a = g a) :
    l.flatMap f = l.flatMap g := by
  induction l with
  | nil => rfl
  | cons a l ih => rw [List.flatMap_cons, List.flatMap_cons, h a (by simp), ih fun b hb => h b (by simp [hb])]

theorem loopIndices_eq {e : IntVec} (he : IntVec.Lt 0 e) : ∃ N : Nat, (N : Int) = e.x * e.y * e.z ∧
    ∃ g : Nat → IntVec, loopIndices e = (List.range N).map g ∧ ∀ k < N, IsNthCell e k (g k) := by
  obtain ⟨h0, h1, h2⟩ := he
  simp only [IntVec.zero_x, IntVec.zero_y, IntVec.zero_z] at h0 h1 h2
  obtain ⟨x, y, z⟩ := e
  dsimp only at h0 h1 h2 ⊢
  obtain ⟨x, rfl⟩ := Int.eq_ofNat_of_zero_le h0.le
  obtain ⟨y, rfl⟩ := Int.eq_ofNat_of_zero_le h1.le
  obtain ⟨z, rfl⟩ := Int.eq_ofNat_of_zero_le h2.le
  have hx : 0 < x := by omega
  have hy : 0 < y := by omega
  have hz : 0 < z := by omega
  refine ⟨z * (y * x), by push_cast; ring, fun k => ⟨((k % x : Nat) : Int), ((k / x % y : Nat) : Int),
    ((k / x / y : Nat) : Int)⟩, ?_, ?_⟩
  · unfold loopIndices upTo
    dsimp only
    simp only [Int.toNat_natCast, List.flatMap_map, List.map_map, Function.comp_def]
    rw [← range_flatMap z (y * x)]
    congr 1
    funext k
    rw [← range_flatMap y x]
    apply flatMap_congr'
    intro j hj
    rw [List.mem_range] at hj
    · apply List.map_congr_left
      intro i hi
      rw [List.mem_range] at hi
      have e1 : (y * x * k + (x * j + i)) % x = i := by
        rw [show y * x * k + (x * j + i) = i + x * (y * k + j) by ring, Nat.add_mul_mod_self_left, Nat.mod_eq_of_lt hi]
      have e2 : (y * x * k + (x * j + i)) / x = y * k + j := by
        rw [show y * x * k + (x * j + i) = i + x * (y * k + j) by ring, Nat.add_mul_div_left _ _ hx,
          Nat.div_eq_of_lt hi]; omega
      rw [e1, e2]
      have e3 : (y * k + j) % y = j := by rw [Nat.mul_add_mod, Nat.mod_eq_of_lt hj]
      have e4 : (y * k + j) / y = k := by
        rw [Nat.mul_add_div hy, Nat.div_eq_of_lt hj]; omega
      rw [e3, e4]
  · intro k hk
    have hxy : k / x / y < z := by
      rw [Nat.div_div_eq_div_mul]
      exact Nat.div_lt_of_lt_mul (by rw [Nat.mul_comm x y, Nat.mul_comm]; exact hk)
    have m1 := Nat.mod_lt k hx
    have m2 := Nat.mod_lt (k / x) hy
    refine ⟨⟨⟨?_, ?_, ?_⟩, ?_, ?_, ?_⟩, ?_⟩ <;> simp only [IntVec.zero_x, IntVec.zero_y, IntVec.zero_z] <;>
      try first | exact Int.natCast_nonneg _ | exact_mod_cast m1 | exact_mod_cast m2 | exact_mod_cast hxy
    unfold fortranPos
    dsimp only
    have d1 := Nat.mod_add_div k x
    have d2 := Nat.mod_add_div (k / x) y
    have : ((k % x + x * (k / x % y + y * (k / x / y)) : Nat) : Int) = (k : Int) := by rw [d2, d1]
    rw [← this]; push_cast; ring

section
variable {K : Type} [Field K]

theorem fold_coord {b : Nat} {w : Window} (hw : w.Fits) (hn : w.Nonempty) (h off : K) (d : Dir) (o : Int)
    (g : Nat → IntVec) (m : Mem K) (N : Nat) (hN : (N : Int) ≤ w.localNpts)
    (hg : ∀ k < N, IsNthCell w.extent k (g k)) :
    ∃ m', foldO (coordBody (some b) w.globNpts h off d o) ((List.range N).map g) (m, It.start 0 w) =
        .ok (m', It.nth 0 w N) ∧
      (∀ k < N, m' b (winAddr w (g k)) = h * ((extract (g k) d - o : Int) : K) + off) ∧
      (∀ blk a, (blk ≠ b ∨ ∀ k < N, winAddr w (g k) ≠ a) → m' blk a = m blk a) := by
  induction N with
  | zero => exact ⟨m, rfl, fun k hk => absurd hk (by omega), fun _ _ _ => rfl⟩
  | succ N ih =>
    obtain ⟨m', h1, h2, h3⟩ := ih (by omega) fun k hk => hg k (by omega)
    have hloc := hg N (by omega)
    have hdist : ∀ k < N, winAddr w (g k) ≠ winAddr w (g N) := by
      intro k hk he
      have hk' := hg k (by omega)
      have := winAddr_inj hw hk'.1 hloc.1 he
      have e1 := hk'.2
      rw [this, hloc.2] at e1
      omega
    refine ⟨m'.write b (winAddr w (g N)) (h * ((extract (g N) d - o : Int) : K) + off), ?_, ?_, ?_⟩
    · rw [List.range_succ, List.map_append, foldO_append, h1, Outcome.ok_bind]
      simp only [List.map_cons, List.map_nil, foldO]
      unfold coordBody
      dsimp only
      rw [store_ok hw hn hloc]
      rfl
    · intro k hk
      unfold Mem.write
      by_cases hkN : k = N
      · subst hkN; simp
      · rw [if_neg, h2 k (by omega)]
        rintro ⟨-, he⟩
        exact hdist k (by omega) he
    · intro blk a ha
      unfold Mem.write
      rw [if_neg, h3 blk a]
      · rcases ha with ha | ha
        · exact .inl ha
        · exact .inr fun k hk => ha k (by omega)
      · rintro ⟨rfl, rfl⟩
        rcases ha with ha | ha
        · exact ha rfl
        · exact ha N (by omega) rfl

/-- C46 (what the code does). On any writable CPU field on the mesh whose interior window starts at its
first interior cell, `set_coord` succeeds, changes nothing outside the field's interior and valid ghost
cells, and gives each of these its coordinate reduced by the offset of the field's window times the
spacing. -/
theorem _root_.SpatialOps.C46_set_coord_values [CharZero K] (npts : IntVec) (L : Dir → K) (d : Dir) (t : FieldType)
    (n : IntVec) (hn : IntVec.Lt 0 n) (f : FieldObj) (b : Nat) (ht : Target n f b)
    (hi : f.geo.interior.offset = origin f.geo) (m : Mem K) :
    ∃ m', (Grid.make npts L).setCoord d t f m = .ok m' ∧
      (∀ c, HasCell f.geo c → m' b (cellAddr f.geo c) =
        position (fun e => L e / ((comp npts e : Int) : K)) t c d -
          L d / ((comp npts d : Int) : K) * ((comp f.geo.window.offset d : Int) : K)) ∧
      (∀ blk a, (blk ≠ b ∨ ∀ c, HasCell f.geo c → cellAddr f.geo c ≠ a) → m' blk a = m blk a) := by
  have hw := ht.mesh.fits
  have hne : f.geo.window.Nonempty := by
    have h1 := ht.mesh.size
    have h2 := ht.mesh.extra
    have h3 := ht.mesh.valid
    unfold Window.Nonempty
    rw [h1]
    unfold GhostData.Valid at h3
    generalize f.geo.bc.hasExtra = ex at *
    generalize f.geo.validGhosts.minus = mi at *
    generalize f.geo.validGhosts.plus = pl at *
    iv_omega
  obtain ⟨N, hN, g, hg, hcell⟩ := loopIndices_eq hne
  obtain ⟨m', h1, h2, h3⟩ := fold_coord (b := b) hw hne ((Grid.make npts L).spacing d)
    (shift d t * (Grid.make npts L).spacing d) d (extract f.geo.interior.offset d) g m N
    (by rw [hN]; exact le_refl _) hcell
  have hex : ∀ (v : IntVec), extract v d = comp v d := fun v => by cases d <;> rfl
  have surj : ∀ c, HasCell f.geo c → ∃ k < N, g k = c + f.geo.validGhosts.minus ∧
      cellAddr f.geo c = winAddr f.geo.window (g k) := by
    intro c hc
    have hb : InBlock f.geo.window.extent (c + f.geo.validGhosts.minus) := by
      unfold HasCell Window.Covers origin at hc
      generalize f.geo.window.offset = wo at *
      generalize f.geo.window.extent = we at *
      generalize f.geo.validGhosts.minus = mi at *
      iv_omega
    have hbd := fortranPos_bound hb
    refine ⟨(fortranPos f.geo.window.extent (c + f.geo.validGhosts.minus)).toNat, by omega, ?_, ?_⟩
    · refine nthCell_unique (hcell _ (by omega)) ⟨hb, ?_⟩
      omega
    · have : g (fortranPos f.geo.window.extent (c + f.geo.validGhosts.minus)).toNat = c + f.geo.validGhosts.minus := by
        refine nthCell_unique (hcell _ (by omega)) ⟨hb, ?_⟩
        omega
      rw [this]
      unfold cellAddr winAddr origin
      congr 1
      ext <;> simp <;> ring
  refine ⟨m', ?_, ?_, ?_⟩
  · unfold Grid.setCoord FieldObj.beginM
    rw [Outcome.throwIf_false (by simp [ht.cpu]), Outcome.ok_bind, Outcome.throwIf_false (by simp [ht.writable]),
      Outcome.ok_bind, Outcome.pure_eq, Outcome.ok_bind]
    dsimp only
    rw [ht.mem, hg, h1]
    rfl
  · intro c hc
    obtain ⟨k, hk, e1, e2⟩ := surj c hc
    rw [e2, h2 k hk, e1, hi, hex, hex, position_stagger]
    have e3 : comp (c + f.geo.validGhosts.minus) d - comp (origin f.geo) d =
        comp c d - comp f.geo.window.offset d := by
      unfold origin; cases d <;> simp [comp]
    rw [e3]
    unfold Grid.make shift
    dsimp only
    rw [hex]
    push_cast
    ring
  · intro blk a ha
    apply h3
    rcases ha with ha | ha
    · exact .inl ha
    · right
      intro k hk he
      have hb := (hcell k hk).1
      have hc : HasCell f.geo (g k - f.geo.validGhosts.minus) := by
        unfold HasCell Window.Covers origin
        generalize f.geo.window.offset = wo at *
        generalize f.geo.window.extent = we at *
        generalize f.geo.validGhosts.minus = mi at *
        generalize g k = gk at *
        iv_omega
      obtain ⟨k', hk', e1, e2⟩ := surj _ hc
      apply ha _ hc
      rw [e2, ← he]
      have : g k' = g k := by rw [e1]; ext <;> simp
      rw [this]

/-- C46 (for fields whose window starts at the first element of their memory, such as any field with all
its ghosts valid made with a memory window of its own). `set_coord` gives every interior and valid ghost
cell its coordinate: multiples of the spacing for cell faces, half way between for cell centres. -/
theorem _root_.SpatialOps.C46_coordinates_partial [CharZero K] (npts : IntVec) (L : Dir → K) (d : Dir) (t : FieldType)
    (n : IntVec) (hn : IntVec.Lt 0 n) (f : FieldObj) (b : Nat) (ht : Target n f b)
    (hi : f.geo.interior.offset = origin f.geo) (h0 : comp f.geo.window.offset d = 0) (m : Mem K) :
    ∃ m', (Grid.make npts L).setCoord d t f m = .ok m' ∧
      (∀ c, HasCell f.geo c → m' b (cellAddr f.geo c) = position (fun e => L e / ((comp npts e : Int) : K)) t c d) ∧
      (∀ blk a, (blk ≠ b ∨ ∀ c, HasCell f.geo c → cellAddr f.geo c ≠ a) → m' blk a = m blk a) := by
  obtain ⟨m', h1, h2, h3⟩ := C46_set_coord_values npts L d t n hn f b ht hi m
  refine ⟨m', h1, fun c hc => ?_, h3⟩
  rw [h2 c hc, h0]; simp

/-- Example: x coordinates of x-surface values on a `4x3x1` mesh of length 2 in x: cell `c` has
coordinate `c/2`, ghost cells included. -/
example (m : Mem ℚ) : ∃ m', (Grid.make ⟨4, 3, 1⟩ (fun _ => (2 : ℚ))).setCoord .x .sSurfX (NeboEx.fld true 0) m = .ok m' ∧
    ∀ c, HasCell (NeboEx.geo true) c → m' 0 (cellAddr (NeboEx.geo true) c) = 1 / 2 * (c.x : ℚ) := by
  obtain ⟨m', h1, h2, -⟩ := C46_coordinates_partial (K := ℚ) ⟨4, 3, 1⟩ (fun _ => 2) .x .sSurfX ⟨4, 3, 1⟩ (by decide)
    (NeboEx.fld true 0) 0 (NeboEx.target true 0) (by decide) (by decide) m
  refine ⟨m', h1, fun c hc => ?_⟩
  refine (h2 c hc).trans ?_
  simp only [position, staggered, comp]
  norm_num

/-- C46 (deviation). If the field's window does not start at the first element of its memory in the
direction asked for, as is so after its valid ghosts were reduced, every cell gets a wrong
coordinate. -/
theorem _root_.SpatialOps.C46_wrong_when_window_is_offset [CharZero K] (npts : IntVec) (L : Dir → K) (d : Dir)
    (t : FieldType) (n : IntVec) (hn : IntVec.Lt 0 n) (f : FieldObj) (b : Nat) (ht : Target n f b)
    (hi : f.geo.interior.offset = origin f.geo) (h0 : comp f.geo.window.offset d ≠ 0) (hL : L d ≠ 0)
    (hnp : comp npts d ≠ 0) (m : Mem K) :
    ∃ m', (Grid.make npts L).setCoord d t f m = .ok m' ∧
      ∀ c, HasCell f.geo c → m' b (cellAddr f.geo c) ≠ position (fun e => L e / ((comp npts e : Int) : K)) t c d := by
  obtain ⟨m', h1, h2, -⟩ := C46_set_coord_values npts L d t n hn f b ht hi m
  refine ⟨m', h1, fun c hc he => ?_⟩
  rw [h2 c hc, sub_eq_self] at he
  rcases mul_eq_zero.1 he with he | he
  · rw [div_eq_zero_iff] at he
    rcases he with he | he
    · exact hL he
    · exact hnp (Int.cast_eq_zero.1 he)
  · exact h0 (Int.cast_eq_zero.1 he)

/-- The layout of the example field with no valid ghosts. -/
def GridEx.reduced : FieldGeo :=
  { NeboEx.geo false with window := ⟨⟨6, 5, 1⟩, ⟨1, 1, 0⟩, ⟨4, 3, 1⟩⟩, validGhosts := ⟨0, 0, false⟩ }

/-- Example: the field above after `reset_valid_ghosts(0)`; the first interior scalar volume gets x
coordinate -1/4 instead of 1/4. -/
example (m : Mem ℚ) : ∃ g, (NeboEx.geo false).resetValidGhosts ⟨0, 0, false⟩ = .ok g ∧
    ∃ m', (Grid.make ⟨4, 3, 1⟩ (fun _ => (2 : ℚ))).setCoord .x .sVol { NeboEx.fld false 0 with geo := g } m = .ok m' ∧
      m' 0 (cellAddr g 0) = -1 / 4 := by
  refine ⟨GridEx.reduced, by decide, ?_⟩
  obtain ⟨m', h1, h2, -⟩ := C46_set_coord_values (K := ℚ) ⟨4, 3, 1⟩ (fun _ => 2) .x .sVol ⟨4, 3, 1⟩ (by decide)
    { NeboEx.fld false 0 with geo := GridEx.reduced } 0
    ⟨⟨by decide, by decide, by decide, by decide, by decide, by decide, by decide⟩, rfl, rfl, rfl, by decide⟩
    (by decide) m
  refine ⟨m', h1, (h2 0 (by unfold HasCell Window.Covers; decide)).trans ?_⟩
  norm_num [position, staggered, comp, GridEx.reduced]

end
end Stencil
end SpatialOps
