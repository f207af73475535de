import Verif.Matlab.Lemmas
import Mathlib.Data.Rat.Floor

/-!
# Properties of the files `write_matlab` writes (C78)
-/

namespace SpatialOps
namespace Matlab

open Loops Nebo

section
variable {K : Type} [Field K] [LinearOrder K] [IsStrictOrderedRing K] [FloorRing K]

theorem numerals (p : Nat) (vs : List K) :
    List.Forall₂ (fun v s => ∃ y, Numeral s y ∧ |y - v| ≤ |v| / (2 * 10 ^ p) ∧ (HasDigits (p + 1) v → y = v)) vs
      (vs.map (scientific p)) := by
  induction vs with
  | nil => exact .nil
  | cons v vs ih => exact .cons (scientific_numeral p v) ih

theorem contents_eq (pre : List Char) (nums : List (List Char)) :
    lit "function x = load_" ++ pre ++ lit "()\n" ++ lit "x = [ " ++ List.intercalate (lit "\n, ") nums ++ lit " ];\n" =
      contents pre nums := rfl

/-- C78. For a field with values in CPU memory, `write_matlab` returns and leaves in the file `load_<prefix>.m` a function of
that name with one decimal number for each cell of the field, in Fortran order: of all cells if `includeGhost`
is set. Each number differs from the value of its cell by at most a relative 5e-15, and not at all if
the value has no more than 15 decimal digits. No other file changes. -/
theorem _root_.SpatialOps.C78_all_cells (f : FieldObj) (b : Nat) (hf : InCpu f b) (hw : Proper f.geo.window) (m : Mem K)
    (pre : List Char) (fs : Files) :
    ∃ vs nums, CellsOf m b f.geo.window vs ∧
      List.Forall₂ (fun v s => ∃ y : K, Numeral s y ∧ |y - v| ≤ |v| / (2 * 10 ^ 14) ∧ (HasDigits 15 v → y = v)) vs nums ∧
      (writeMatlab true m f pre true fs).2 = .ok () ∧
      ∀ name, (writeMatlab true m f pre true fs).1 name =
        if name = "load_".toList ++ pre ++ ".m".toList then some (contents pre nums) else fs name := by
  have hs : sent (scientific 14) m f pre true =
      (contents pre ((cells m (b, f.geo.window) 0 f.geo.window.localNpts.toNat).map (scientific 14)), .ok ()) := by
    unfold sent
    have hb : f.beginC = .ok ⟨some b, It.start 0 f.geo.window⟩ := by
      unfold FieldObj.beginC
      rw [hf, Outcome.throwIf_false (by rintro ⟨-, h, -⟩; cases h)]
      rfl
    have he : f.endC = .ok ⟨some b, It.nth 0 f.geo.window f.geo.window.localNpts.toNat⟩ := by
      unfold FieldObj.endC
      rw [hf, Outcome.throwIf_false (by intro h; exact h (.inr (by simp))), Outcome.ok_bind, It.finish_eq_nth hw.2]
      rfl
    rw [hb, he]
    dsimp only
    have := row_ok (scientific 14) m (s := (b, f.geo.window)) hw (lit "function x = load_" ++ pre ++ lit "()\n")
    rw [contents_eq] at this
    exact this
  refine ⟨cells m (b, f.geo.window) 0 f.geo.window.localNpts.toNat, _, cells_of m (s := (b, f.geo.window)) hw, numerals 14 _, ?_, ?_⟩
  · unfold writeMatlab write
    rw [hs]
  · intro name
    unfold writeMatlab write
    rw [hs]
    rfl

/-- C78. The same for the interior cells, if `includeGhost` is not set. -/
theorem _root_.SpatialOps.C78_interior_cells (f : FieldObj) (b : Nat) (hf : InCpu f b) (hw : Proper f.geo.interior)
    (hn : f.geo.interior.npts = f.geo.window.npts) (hi : f.geo.disableInterior = false) (m : Mem K) (pre : List Char) (fs : Files) :
    ∃ vs nums, CellsOf m b f.geo.interior vs ∧
      List.Forall₂ (fun v s => ∃ y : K, Numeral s y ∧ |y - v| ≤ |v| / (2 * 10 ^ 14) ∧ (HasDigits 15 v → y = v)) vs nums ∧
      (writeMatlab true m f pre false fs).2 = .ok () ∧
      ∀ name, (writeMatlab true m f pre false fs).1 name =
        if name = "load_".toList ++ pre ++ ".m".toList then some (contents pre nums) else fs name := by
  have hg : f.geo.window.globNpts = f.geo.interior.globNpts := by unfold Window.globNpts; rw [hn]
  have hs : sent (scientific 14) m f pre false =
      (contents pre ((cells m (b, f.geo.interior) 0 f.geo.interior.localNpts.toNat).map (scientific 14)), .ok ()) := by
    unfold sent
    have hb : f.interiorBeginC = .ok ⟨some b, It.start 0 f.geo.interior⟩ := by
      unfold FieldObj.interiorBeginC
      rw [hf, hi, Outcome.throwIf_false (by simp), Outcome.ok_bind, Outcome.throwIf_false (by rintro ⟨-, h⟩; cases h)]
      rfl
    have he : f.interiorEndC = .ok ⟨some b, It.nth 0 f.geo.interior f.geo.interior.localNpts.toNat⟩ := by
      unfold FieldObj.interiorEndC
      rw [hf, hi, Outcome.throwIf_false (by simp), Outcome.ok_bind,
        Outcome.throwIf_false (by intro h; exact h (.inr (by simp))), Outcome.ok_bind, It.finish_eq_nth hw.2]
      rfl
    rw [hb, he, hg]
    dsimp only
    have := row_ok (scientific 14) m (s := (b, f.geo.interior)) hw (lit "function x = load_" ++ pre ++ lit "()\n")
    rw [contents_eq] at this
    exact this
  refine ⟨cells m (b, f.geo.interior) 0 f.geo.interior.localNpts.toNat, _, cells_of m (s := (b, f.geo.interior)) hw, numerals 14 _, ?_, ?_⟩
  · unfold writeMatlab write
    rw [hs]
  · intro name
    unfold writeMatlab write
    rw [hs]
    rfl

omit [LinearOrder K] [IsStrictOrderedRing K] [FloorRing K] in
/-- C78. Such a file can be read: it determines the numbers in it, how many they are and their order. -/
theorem _root_.SpatialOps.C78_file_determines_values (pre : List Char) (nums nums' : List (List Char)) (ys ys' : List K)
    (h : List.Forall₂ Numeral nums ys) (h' : List.Forall₂ Numeral nums' ys') (he : contents pre nums = contents pre nums') :
    ys = ys' := by
  have e1 : List.intercalate "\n, ".toList nums = List.intercalate "\n, ".toList nums' := by
    unfold contents at he
    exact List.append_cancel_left (List.append_cancel_right he)
  have hc : ∀ {ns : List (List Char)} {zs : List K}, List.Forall₂ Numeral ns zs → ∀ s ∈ ns, s ≠ [] ∧ '\n' ∉ s := by
    intro ns zs hz s hs
    induction hz with
    | nil => cases hs
    | cons h1 _ ih =>
      rcases List.mem_cons.1 hs with rfl | hs
      · exact ⟨(numeral_chars h1).1, fun hm => (numeral_chars h1).2 _ hm rfl⟩
      · exact ih hs
  have hu : ∀ {ns : List (List Char)} {zs zs' : List K}, List.Forall₂ Numeral ns zs → List.Forall₂ Numeral ns zs' → zs = zs' := by
    intro ns zs zs' hz hz'
    induction hz generalizing zs' with
    | nil => cases hz'; rfl
    | cons h1 _ ih =>
      cases hz' with
      | cons h1' h2' => rw [numeral_unique h1 h1', ih h2']
  suffices nums = nums' by subst this; exact hu h h'
  cases nums with
  | nil =>
    cases nums' with
    | nil => rfl
    | cons s ss =>
      rw [intercalate_cons, List.intercalate_nil] at e1
      exact absurd (List.append_eq_nil_iff.1 e1.symm).1 (hc h' s (by simp)).1
  | cons s ss =>
    cases nums' with
    | nil =>
      rw [intercalate_cons, List.intercalate_nil] at e1
      exact absurd (List.append_eq_nil_iff.1 e1).1 (hc h s (by simp)).1
    | cons t ts =>
      rw [intercalate_cons, intercalate_cons] at e1
      obtain ⟨rfl, rfl⟩ := lines_inj (fun u hu => (hc h u (by simp [hu])).2) (fun u hu => (hc h' u (by simp [hu])).2)
        (hc h s (by simp)).2 (hc h' t (by simp)).2 e1
      rfl

omit [IsStrictOrderedRing K] in
/-- C78, what fails. If the file cannot be opened, the call ends as if it had been written. -/
theorem _root_.SpatialOps.C78_unopened_not_reported (m : Mem K) (f : FieldObj) (pre : List Char) (g : Bool) (fs : Files) :
    (writeMatlab false m f pre g fs).1 = fs ∧ (writeMatlab false m f pre g fs).2 = (writeMatlab true m f pre g fs).2 :=
  ⟨rfl, rfl⟩

omit [IsStrictOrderedRing K] in
/-- C78, what fails. For a field without values in CPU memory, in GPU memory only, the call ends by an exception, but only after the file
has been replaced by one with the head of the function and no values. -/
theorem _root_.SpatialOps.C78_failure_destroys_file (m : Mem K) (f : FieldObj) (hg : f.memType = .gpu) (hv : f.values = none)
    (hr : f.readOnly = false) (pre : List Char) (g : Bool) (fs : Files) :
    (writeMatlab true m f pre g fs).2 = .throws ∧
    (writeMatlab true m f pre g fs).1 ("load_".toList ++ pre ++ ".m".toList) = some ("function x = load_".toList ++ pre ++ "()\n".toList) := by
  have hs : sent (scientific 14) m f pre g = (lit "function x = load_" ++ pre ++ lit "()\n", .throws) := by
    have hb : f.beginC = .throws := by
      unfold FieldObj.beginC
      rw [hv, hr, hg, Outcome.throwIf_true (by simp)]
      rfl
    have hb' : f.interiorBeginC = .throws := by
      unfold FieldObj.interiorBeginC
      rw [hv, hg]
      cases f.geo.disableInterior
      · rw [Outcome.throwIf_false (by simp), Outcome.ok_bind, Outcome.throwIf_true (by simp)]
        rfl
      · rw [Outcome.throwIf_true rfl]
        rfl
    unfold sent
    cases g
    · rw [hb']; rfl
    · rw [hb]; rfl
  unfold writeMatlab write
  rw [hs]
  exact ⟨rfl, if_pos rfl⟩

/-- C78, what fails. The file does not determine the values of the field: a `double` needs up to 17 digits. The `double` after 1 is
written as 1, so the files for a field that is 1 everywhere and one that is that number everywhere are the same. -/
theorem _root_.SpatialOps.C78_values_not_determined :
    ∃ x y : K, x ≠ y ∧ Round.roundEven 53 x = x ∧ Round.roundEven 53 y = y ∧
      ∀ opens f pre g fs, writeMatlab opens (fun _ _ => x) f pre g fs = writeMatlab opens (fun _ _ => y) f pre g fs := by
  refine ⟨1, ((2 ^ 52 + 1 : Int) : K) * 2 ^ (-52 : Int), ?_, ?_, ?_, ?_⟩
  · norm_num
  · simpa using Round.roundEven_two_pow (K := K) (p := 53) (by norm_num) 0
  · exact Round.roundEven_int 53 _ _ (by norm_num [abs_of_pos]) (by norm_num [abs_of_pos])
  · have h : scientific 14 (1 : K) = scientific 14 (((2 ^ 52 + 1 : Int) : K) * 2 ^ (-52 : Int)) := by
      unfold scientific
      rw [scaled_near_one (p := 14) (x := (1 : K)) le_rfl (by norm_num),
        scaled_near_one (p := 14) (x := ((2 ^ 52 + 1 : Int) : K) * 2 ^ (-52 : Int)) (by norm_num) (by norm_num),
        if_neg (by norm_num), if_neg (by norm_num)]
    intro opens f pre g fs
    unfold writeMatlab write
    rw [sent_const _ h]

end

/-! ## Examples -/

namespace MatlabEx

/-- Two by two cells with a ghost cell on each side in `x` and `y`. -/
def fld : FieldObj :=
  let g : GhostData := ⟨⟨1, 1, 0⟩, ⟨1, 1, 0⟩, false⟩
  ⟨⟨⟨⟨4, 4, 1⟩, 0, ⟨4, 4, 1⟩⟩, ⟨⟨4, 4, 1⟩, ⟨1, 1, 0⟩, ⟨2, 2, 1⟩⟩, BcInfo.build false false false 0, g, g, false⟩,
    some 0, none, true, .localRam, 0, false, [], [], false, 16⟩

/-- Cell number `a` holds `-a/3`. -/
def mem : Mem ℚ := fun _ a => -a / 3

example : InCpu fld 0 ∧ Proper fld.geo.window ∧ Proper fld.geo.interior ∧ fld.geo.interior.npts = fld.geo.window.npts ∧
    fld.geo.disableInterior = false := ⟨rfl, ⟨by decide, by decide⟩, ⟨by decide, by decide⟩, rfl, rfl⟩

/-- The file for the interior. -/
example : (writeMatlab true mem fld "T".toList false fun _ => none).1 "load_T.m".toList = some
    ("function x = load_T()\nx = [ -1.66666666666667e+00\n, -2.00000000000000e+00\n, " ++
      "-3.00000000000000e+00\n, -3.33333333333333e+00 ];\n").toList := by decide +kernel

example : scientific 14 (-1 / 8 : ℚ) = "-1.25000000000000e-01".toList := by decide +kernel
example : scientific 14 (0 : ℚ) = "0.00000000000000e+00".toList := by decide +kernel
example : scientific 14 (99999999999999999 : ℚ) = "1.00000000000000e+17".toList := by decide +kernel

/-- A numeral and its meaning. -/
example : Numeral "-1.25e-01".toList (-1 / 8 : ℚ) := by
  refine ⟨['-'], ['1'], ['2', '5'], ['-'], ['0', '1'], -1, -1, 125, 1, by decide, .minus, .minus, by simp, ?_, ?_, by norm_num⟩
  · exact .more (s := ['1', '2']) (n := 12) (c := '5') (d := 5)
      (.more (s := ['1']) (n := 1) (c := '2') (d := 2) (.one (by decide)) (by decide)) (by decide)
  · exact .more (s := ['0']) (n := 0) (c := '1') (d := 1) (.one (by decide)) (by decide)

/-- Hypotheses of `C78_failure_destroys_file`. -/
example : ∃ f : FieldObj, f.memType = .gpu ∧ f.values = none ∧ f.readOnly = false :=
  ⟨{ fld with values := none, memType := .gpu }, rfl, rfl, rfl⟩

/-- A value with 15 digits. -/
example : HasDigits 15 (-1 / 8 : ℚ) := ⟨-125, -3, by norm_num, by norm_num⟩

end MatlabEx

end Matlab
end SpatialOps
