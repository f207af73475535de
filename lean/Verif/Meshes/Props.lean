import Verif.Meshes.Lemmas
import Verif.NeboPar.Props
import Verif.Release.Props

/-!
# Properties: assignments whose operands lie on another mesh than the destination (C100)
-/

namespace SpatialOps
namespace Nebo
namespace Meshes

/-- A field of `nx` by `ny` cells without ghosts, stored in block `b`. -/
def fldN (nx ny : Int) (b : Nat) : FieldObj :=
  ⟨⟨⟨⟨nx, ny, 1⟩, 0, ⟨nx, ny, 1⟩⟩, ⟨⟨nx, ny, 1⟩, 0, ⟨nx, ny, 1⟩⟩, BcInfo.build false false false 0, ⟨0, 0, false⟩,
    ⟨0, 0, false⟩, false⟩, some b, none, true, .localRam, 0, false, [], [], false, nx * ny⟩

theorem fldN_target {nx ny : Int} (hx : 0 < nx) (hy : 0 < ny) (b : Nat) : Target ⟨nx, ny, 1⟩ (fldN nx ny b) b := by
  have e0 : (BcInfo.build false false false 0).hasExtra = 0 := by decide
  have hf : (fldN nx ny b).geo.window = ⟨⟨nx, ny, 1⟩, 0, ⟨nx, ny, 1⟩⟩ := rfl
  have ho : origin (fldN nx ny b).geo = 0 := by unfold origin fldN; ext <;> simp
  refine ⟨⟨?_, ?_, ?_, ?_, rfl, ?_, rfl⟩, rfl, rfl, rfl, ?_⟩
  · rw [hf]; unfold Window.Fits; iv_omega
  · show (⟨nx, ny, 1⟩ : IntVec) = ⟨nx, ny, 1⟩ + (BcInfo.build false false false 0).hasExtra + 0 + 0
    rw [e0]; ext <;> simp
  · show IntVec.Le 0 (BcInfo.build false false false 0).hasExtra
    rw [e0]; iv_omega
  · show IntVec.Le 0 (0 : IntVec) ∧ IntVec.Le 0 (0 : IntVec); decide
  · show IntVec.Le 0 (0 : IntVec) ∧ IntVec.Le 0 (0 : IntVec); decide
  · rw [ho]
    show IntVec.Le 0 ((0 : IntVec) - 0) ∧
      IntVec.Le (0 + ⟨nx, ny, 1⟩ + (BcInfo.build false false false 0).hasExtra + 0) (⟨nx, ny, 1⟩ : IntVec)
    rw [e0]; iv_omega

/-- C100 (violated in full by C100_larger_accepted). In the debug build an assignment that reads, at every cell, a field on a
smaller mesh than the destination's is refused: an exception or a failed assertion, never undefined behaviour
or a normal end.
Missing: operands on meshes that are not smaller in every direction. -/
theorem _root_.SpatialOps.C100_smaller_refused_partial {V : Type} [Add V] [Mul V] (n : IntVec) (hn : IntVec.Lt 0 n) (l : FieldObj) (b : Nat)
    (ht : Target n l b) (e : Expr V .num) (he : e.Sane) (n' : IntVec) (hs : Smaller n' n) (hr : e.AlwaysReads n') (m : Mem V) :
    Refused (assign l e m) ∧ Refused (interiorAssign l e m) :=
  ⟨small_refused hn ht he hs hr true m, small_refused hn ht he hs hr false m⟩

/-- C100. What happens otherwise, when all operands lie on one other mesh. The region is the one the operands' mesh
would give (`lo` cells before and `hi` cells after the mesh). If it has as many cells as the destination's, or more, then the assignment ends normally, and a
cell of the destination gets the value at the operands' cell that comes after as many others, row by row,
which in general is not the same cell. -/
theorem _root_.SpatialOps.C100_in_order {V : Type} [Add V] [Mul V] (n n' : IntVec) (hn : IntVec.Lt 0 n) (hn' : IntVec.Lt 0 n')
    (l : FieldObj) (b : Nat) (ht : Target n l b) (e : Expr V .num) (he : e.Wf n') (hd : ∀ c, Interior n' l c → e.DefinedAt n' c)
    (ha : ∀ c a, ¬ Rel.Reads e c b a) (useGhost : Bool) (m : Mem V) :
    ∃ lo hi, IntVec.Le 0 lo ∧ IntVec.Le 0 hi ∧
      (∀ c, Around n' lo hi c ↔ if useGhost then Stored n' l c ∧ e.DefinedAt n' c else Interior n' l c) ∧
      (cells (n + lo + hi) ≤ cells (n' + lo + hi) → ∃ m', sequentialAssign useGhost l e m = .ok m' ∧
        (∀ c c', SameTurn n n' lo hi c c' → m' b (cellAddr l.geo c) = e.value m c') ∧
        ∀ blk a, (blk ≠ b ∨ ∀ c, Around n lo hi c → cellAddr l.geo c ≠ a) → m' blk a = m blk a) :=
  in_order hn hn' ht he hd ha useGhost m

/-- C100. If the operands' mesh differs from the destination's only in having more cells in the last direction, then every
cell gets the value at the same cell. -/
theorem _root_.SpatialOps.C100_longer_correct {V : Type} [Add V] [Mul V] (n n' : IntVec) (hn : IntVec.Lt 0 n)
    (hx : n'.x = n.x) (hy : n'.y = n.y) (hz : n.z ≤ n'.z)
    (l : FieldObj) (b : Nat) (ht : Target n l b) (e : Expr V .num) (he : e.Wf n') (hd : ∀ c, Interior n' l c → e.DefinedAt n' c)
    (ha : ∀ c a, ¬ Rel.Reads e c b a) (m : Mem V) :
    ∃ m', interiorAssign l e m = .ok m' ∧ Assigned l b e (Interior n l) m m' := by
  have hn' : IntVec.Lt 0 n' := by iv_omega
  obtain ⟨lo, hi, h1, h2, h3, h4⟩ := C100_in_order n n' hn hn' l b ht e he hd ha false m
  simp only [Bool.false_eq_true, if_false] at h3
  have hxe := ht.mesh.extra
  have p1 := (h3 (-lo)).1 (by unfold Around; iv_omega)
  have p2 := (h3 (n' + hi - ⟨1, 1, 1⟩)).1 (by unfold Around; iv_omega)
  have p3 := (h3 (n' + l.geo.bc.hasExtra - ⟨1, 1, 1⟩)).2 (by unfold Interior; iv_omega)
  unfold Interior at p1 p2
  unfold Around at p3
  have e1 : lo = 0 := by ext <;> iv_omega
  have e2 : hi = l.geo.bc.hasExtra := by ext <;> iv_omega
  subst e1 e2
  have hreg : ∀ c, Around n 0 l.geo.bc.hasExtra c ↔ Interior n l c := by
    intro c; unfold Around Interior; constructor <;> intro h <;> iv_omega
  obtain ⟨m', k1, k2, k3⟩ := h4 (by
    unfold cells
    simp only [IntVec.add_x, IntVec.add_y, IntVec.add_z, IntVec.zero_x, IntVec.zero_y, IntVec.zero_z, hx, hy]
    have a : 0 < n.x := hn.1
    have b : 0 < n.y := hn.2.1
    have a' : 0 ≤ l.geo.bc.hasExtra.x := hxe.1
    have b' : 0 ≤ l.geo.bc.hasExtra.y := hxe.2.1
    exact mul_le_mul_of_nonneg_left (by omega) (by positivity))
  refine ⟨m', k1, fun c hc => k2 c c ⟨fortranPos (n + 0 + l.geo.bc.hasExtra) (c + 0), ⟨?_, rfl⟩, ?_, ?_⟩, fun blk a h => k3 blk a ?_⟩
  · unfold Interior at hc; unfold InBlock; iv_omega
  · unfold Interior at hc; unfold InBlock; iv_omega
  · unfold fortranPos
    simp only [IntVec.add_x, IntVec.add_y, hx, hy]
  · rcases h with h | h
    · exact .inl h
    · exact .inr fun c hc => h c ((hreg c).1 hc)

/-! ## Concrete cases -/

/-- Run the first task that has something to do; if there is none, return from one `wait()`. -/
def exec {V : Type} : Nat → ParState V → ParState V
  | 0, s => s
  | k + 1, s =>
    match s.tasks.findIdx? (fun t => match t with | some _ => true | none => false) with
    | some i =>
      match s.tasks[i]? with
      | some (some (.read b a q)) => exec k { s with tasks := s.tasks.set i (some (q (s.mem b a))) }
      | some (some (.write b a v q)) => exec k { s with tasks := s.tasks.set i (some q), mem := s.mem.write b a v }
      | some (some .done) => exec k { s with tasks := s.tasks.set i none, sem := s.sem + 1 }
      | _ => s
    | none => if 0 < s.sem ∧ 0 < s.waits then exec k { s with sem := s.sem - 1, waits := s.waits - 1 } else s

theorem exec_run {V : Type} (s0 : ParState V) : ∀ k j s, ParRun s0 j s → ∃ i, ParRun s0 i (exec k s)
  | 0, j, _, h => ⟨j, h⟩
  | k + 1, j, s, h => by
    unfold exec
    split
    · split
      · next hs => exact exec_run s0 k _ _ (.step h (.read hs))
      · next hs => exact exec_run s0 k _ _ (.step h (.write hs))
      · next hs => exact exec_run s0 k _ _ (.step h (.post hs))
      · exact ⟨j, h⟩
    · split
      · next hs => exact exec_run s0 k _ _ (.step h (.wait hs.1 hs.2))
      · exact ⟨j, h⟩

/-- The number of a memory cell, as its value. -/
def mem0 : Mem Int := fun b a => 100 * b + a

/-- `4x4 <<= 6x4`. -/
def src : Expr Int .num := .field (fldN 6 4 1)

theorem src_wf : src.Wf ⟨6, 4, 1⟩ := ⟨(fldN_target (by decide) (by decide) 1).mesh, by decide⟩

theorem src_defined (c : IntVec) (h : Interior ⟨6, 4, 1⟩ (fldN 4 4 0) c) : src.DefinedAt ⟨6, 4, 1⟩ c := by
  have e0 : (fldN 4 4 0).geo.bc.hasExtra = 0 := by decide
  have ho : origin (fldN 6 4 1).geo = 0 := by decide
  unfold Interior at h
  rw [e0] at h
  show HasCell (fldN 6 4 1).geo c
  unfold HasCell
  rw [ho]
  show Window.Covers ⟨⟨6, 4, 1⟩, 0, ⟨6, 4, 1⟩⟩ (0 + c)
  unfold Window.Covers
  iv_omega

theorem src_reads (c : IntVec) (a : Int) : ¬ Rel.Reads src c 0 a := by
  rintro ⟨h, -⟩
  cases h

/-- C100. A field of 4x4 cells is assigned from one of 6x4 cells: the debug build accepts this, and the first cell
of the second row gets the fifth cell of the first row of the operand, not the first of its second row. -/
theorem _root_.SpatialOps.C100_larger_accepted :
    Target ⟨4, 4, 1⟩ (fldN 4 4 0) 0 ∧ src.Wf ⟨6, 4, 1⟩ ∧
    ∃ m', assign (fldN 4 4 0) src mem0 = .ok m' ∧
      m' 0 (cellAddr (fldN 4 4 0).geo ⟨0, 1, 0⟩) = src.value mem0 ⟨4, 0, 0⟩ ∧
      src.value mem0 ⟨4, 0, 0⟩ ≠ src.value mem0 ⟨0, 1, 0⟩ := by
  refine ⟨fldN_target (by decide) (by decide) 0, src_wf, ?_⟩
  have h : Rel.peek (some (assign (fldN 4 4 0) src mem0)) 0 4 = some 104 := by decide +kernel
  cases ho : assign (fldN 4 4 0) src mem0 with
  | ok m' =>
    rw [ho] at h
    injection h with h
    exact ⟨m', rfl, h, by decide +kernel⟩
  | _ => rw [ho] at h; cases h

/-- Cell `a` of block 0 after running the first task to its end, then the next, and so on. -/
def parPeek (k : Nat) (o : Outcome (ParState Int)) (a : Int) : Option (Nat × Int) :=
  match o with
  | .ok s => some ((exec k s).waits, (exec k s).mem 0 a)
  | _ => none

/-- C100. The same statement divided into two parts ends normally with another result: the first cell
of the third row gets the first cell of the operand's third row. So the result depends on the number of threads. -/
theorem _root_.SpatialOps.C100_parts_change_result :
    ∃ s0 k s m', parallelAssign true (fldN 4 4 0) 2 src mem0 = .ok s0 ∧ ParRun s0 k s ∧ s.waits = 0 ∧
      assign (fldN 4 4 0) src mem0 = .ok m' ∧
      s.mem 0 (cellAddr (fldN 4 4 0).geo ⟨0, 2, 0⟩) = src.value mem0 ⟨0, 2, 0⟩ ∧
      m' 0 (cellAddr (fldN 4 4 0).geo ⟨0, 2, 0⟩) = src.value mem0 ⟨2, 1, 0⟩ ∧
      src.value mem0 ⟨2, 1, 0⟩ ≠ src.value mem0 ⟨0, 2, 0⟩ := by
  have h : Rel.peek (some (assign (fldN 4 4 0) src mem0)) 0 8 = some 108 := by decide +kernel
  have hp : parPeek 60 (parallelAssign true (fldN 4 4 0) 2 src mem0) 8 = some (0, 112) := by decide +kernel
  cases ho : assign (fldN 4 4 0) src mem0 with
  | ok m' =>
    rw [ho] at h
    injection h with h
    cases hq : parallelAssign true (fldN 4 4 0) 2 src mem0 with
    | ok s0 =>
      rw [hq] at hp
      injection hp with hp
      injection hp with hp1 hp2
      obtain ⟨k, hk⟩ := exec_run s0 60 0 s0 .start
      exact ⟨s0, k, exec 60 s0, m', rfl, hk, hp1, rfl, hp2, h, by decide +kernel⟩
    | _ => rw [hq] at hp; cases hp
  | _ => rw [ho] at h; cases h

/-- The hypotheses of C100_smaller_refused_partial are met: a field of 6x4 cells assigned from one of 4x4 cells plus itself. -/
example : Target ⟨6, 4, 1⟩ (fldN 6 4 0) 0 ∧ Smaller ⟨4, 4, 1⟩ ⟨6, 4, 1⟩ ∧
    (Expr.bin (V := Int) (s := .num) (t := .num) (· + ·) (.field (fldN 6 4 0)) (.field (fldN 4 4 1))).AlwaysReads ⟨4, 4, 1⟩ :=
  ⟨fldN_target (by decide) (by decide) 0, by unfold Smaller; decide, .inr (fldN_target (by decide) (by decide) 1).mesh⟩

/-- The hypotheses of C100_longer_correct are met with two rows of three cells and three planes of them. -/
example : ∃ (n n' : IntVec) (l f : FieldObj), Target n l 0 ∧ n'.x = n.x ∧ n'.y = n.y ∧ n.z < n'.z ∧
    (Expr.field (V := Int) f).Wf n' ∧ (∀ c a, ¬ Rel.Reads (Expr.field (V := Int) f) c 0 a) ∧
    ∀ c, Interior n' l c → (Expr.field (V := Int) f).DefinedAt n' c := by
  refine ⟨⟨3, 2, 1⟩, ⟨3, 2, 3⟩, fldN 3 2 0, { fldN 3 2 1 with geo := { (fldN 3 2 1).geo with window := ⟨⟨3, 2, 3⟩, 0, ⟨3, 2, 3⟩⟩ } },
    fldN_target (by decide) (by decide) 0, rfl, rfl, by decide, ⟨⟨by decide, by decide, by decide, by decide, rfl, by decide, rfl⟩, by decide⟩,
    ?_, fun c h => ?_⟩
  · rintro c a ⟨h, -⟩
    cases h
  · have e0 : (fldN 3 2 0).geo.bc.hasExtra = 0 := by decide
    unfold Interior at h
    rw [e0] at h
    show Window.Covers ⟨⟨3, 2, 3⟩, 0, ⟨3, 2, 3⟩⟩ ((0 : IntVec) + 0 + c)
    unfold Window.Covers
    iv_omega

/-- The hypotheses of C100_in_order are met, with 16 cells of 24. -/
example : Target ⟨4, 4, 1⟩ (fldN 4 4 0) 0 ∧ src.Wf ⟨6, 4, 1⟩ ∧
    (∀ c, Interior ⟨6, 4, 1⟩ (fldN 4 4 0) c → src.DefinedAt ⟨6, 4, 1⟩ c) ∧ (∀ c a, ¬ Rel.Reads src c 0 a) ∧
    cells (⟨4, 4, 1⟩ + 0 + 0) ≤ cells (⟨6, 4, 1⟩ + 0 + 0) :=
  ⟨fldN_target (by decide) (by decide) 0, src_wf, src_defined, src_reads, by decide⟩

end Meshes
end Nebo
end SpatialOps
