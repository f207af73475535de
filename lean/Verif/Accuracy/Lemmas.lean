import Verif.Accuracy.Spec
import Verif.Accuracy.Taylor
import Verif.Conserve.Lemmas

/-!
# Lemmas for accuracy
-/

namespace SpatialOps
namespace Accuracy

open Nebo Stencil Set

/-! ## Averages -/

/-- The mean of `φ` over a list. -/
noncomputable def mean (l : List Int) (φ : Int → ℝ) : ℝ := (l.map φ).sum / l.length

theorem mean_close {l : List Int} (hl : l ≠ []) {φ ψ : Int → ℝ} {ε : ℝ} (h : ∀ o ∈ l, |φ o - ψ o| ≤ ε) :
    |mean l φ - mean l ψ| ≤ ε := by
  have hlen : (0 : ℝ) < l.length := by exact_mod_cast List.length_pos_iff.2 hl
  have key : |(l.map φ).sum - (l.map ψ).sum| ≤ l.length * ε := by
    clear hl hlen
    induction l with
    | nil => simp
    | cons a l ih =>
      have h1 := h a (by simp)
      have h2 := ih fun o ho => h o (by simp [ho])
      simp only [List.map_cons, List.sum_cons, List.length_cons]
      push_cast
      rw [abs_le] at *
      constructor <;> linarith [h1.1, h1.2, h2.1, h2.2]
  unfold mean
  rw [← sub_div, abs_div, abs_of_pos hlen, div_le_iff₀ hlen]
  linarith

theorem mean_const {l : List Int} (hl : l ≠ []) (x : ℝ) : mean l (fun _ => x) = x := by
  have hlen : (0 : ℝ) < l.length := by exact_mod_cast List.length_pos_iff.2 hl
  unfold mean
  simp
  field_simp

/-- The distances, in half cells, at which an operator with the given share reads in one direction. -/
inductive Offs : List Int → ℝ → Prop where
  | none : Offs [0] 0
  | half : Offs [-1, 1] (1 / 8)
  | full : Offs [-2, 2] (1 / 2)
  | box : Offs [-2, 0, 2] (1 / 3)

theorem Offs.ne {l : List Int} {κ : ℝ} (h : Offs l κ) : l ≠ [] := by cases h <;> simp
theorem Offs.neg {l : List Int} {κ : ℝ} (h : Offs l κ) : ∃ o ∈ l, -o ∈ l ∧ ∀ q ∈ l, -o ≤ q ∧ q ≤ o := by
  cases h
  · exact ⟨0, by simp⟩
  · exact ⟨1, by simp⟩
  · exact ⟨2, by simp⟩
  · exact ⟨2, by simp⟩

/-- The error of the mean in one direction. -/
theorem line_bound {l : List Int} {κ : ℝ} (hl : Offs l κ) {f f1 f2 : ℝ → ℝ} {a η lo hi M : ℝ} (hη : 0 < η)
    (hin : ∀ o ∈ l, lo ≤ a + η * o / 2 ∧ a + η * o / 2 ≤ hi)
    (h1 : ∀ t ∈ Icc lo hi, HasDerivAt f (f1 t) t) (h2 : ∀ t ∈ Icc lo hi, HasDerivAt f1 (f2 t) t)
    (hM : ∀ t ∈ Icc lo hi, |f2 t| ≤ M) :
    |mean l (fun o => f (a + η * o / 2)) - f a| ≤ κ * η ^ 2 * M := by
  have key : ∀ δ : ℝ, 0 ≤ δ → lo ≤ a - δ → a + δ ≤ hi → |f (a + δ) + f (a - δ) - 2 * f a| ≤ M * δ ^ 2 := by
    intro δ hδ hlo hhi
    have hs : ∀ t ∈ Icc (a - δ) (a + δ), t ∈ Icc lo hi := fun t ht => ⟨hlo.trans ht.1, ht.2.trans hhi⟩
    exact second hδ (fun t ht => h1 t (hs t ht)) (fun t ht => h2 t (hs t ht)) (fun t ht => hM t (hs t ht))
  cases hl with
  | none => simp [mean]
  | half =>
    have e1 := hin (-1) (by simp)
    have e2 := hin 1 (by simp)
    push_cast at e1 e2
    have := key (η / 2) (by linarith) (by linarith [e1.1]) (by linarith [e2.2])
    simp only [mean, List.map_cons, List.map_nil, List.sum_cons, List.sum_nil, List.length_cons, List.length_nil]
    push_cast
    rw [show a + η * -1 / 2 = a - η / 2 by ring, show a + η * 1 / 2 = a + η / 2 by ring]
    rw [abs_le] at this ⊢
    constructor <;> nlinarith [this.1, this.2]
  | full =>
    have e1 := hin (-2) (by simp)
    have e2 := hin 2 (by simp)
    push_cast at e1 e2
    have := key η hη.le (by linarith [e1.1]) (by linarith [e2.2])
    simp only [mean, List.map_cons, List.map_nil, List.sum_cons, List.sum_nil, List.length_cons, List.length_nil]
    push_cast
    rw [show a + η * -2 / 2 = a - η by ring, show a + η * 2 / 2 = a + η by ring]
    rw [abs_le] at this ⊢
    constructor <;> nlinarith [this.1, this.2]
  | box =>
    have e1 := hin (-2) (by simp)
    have e2 := hin 2 (by simp)
    push_cast at e1 e2
    have := key η hη.le (by linarith [e1.1]) (by linarith [e2.2])
    simp only [mean, List.map_cons, List.map_nil, List.sum_cons, List.sum_nil, List.length_cons, List.length_nil]
    push_cast
    rw [show a + η * -2 / 2 = a - η by ring, show a + η * 2 / 2 = a + η by ring, show a + η * 0 / 2 = a by ring]
    rw [abs_le] at this ⊢
    constructor <;> nlinarith [this.1, this.2]

/-! ## Points -/

/-- The point with these coordinates. -/
def pt (x y z : ℝ) : Dir → ℝ
  | .x => x
  | .y => y
  | .z => z

theorem pt_eta (p : Dir → ℝ) : pt (p .x) (p .y) (p .z) = p := by funext d; cases d <;> rfl
theorem pt_x (x y z t : ℝ) : Function.update (pt x y z) .x t = pt t y z := by
  funext d; cases d <;> simp [Function.update, pt]
theorem pt_y (x y z t : ℝ) : Function.update (pt x y z) .y t = pt x t z := by
  funext d; cases d <;> simp [Function.update, pt]
theorem pt_z (x y z t : ℝ) : Function.update (pt x y z) .z t = pt x y t := by
  funext d; cases d <;> simp [Function.update, pt]

theorem inBox_pt {lo hi : Dir → ℝ} {x y z : ℝ} : InBox lo hi (pt x y z) ↔
    (lo .x ≤ x ∧ x ≤ hi .x) ∧ (lo .y ≤ y ∧ y ≤ hi .y) ∧ (lo .z ≤ z ∧ z ≤ hi .z) := by
  unfold InBox
  constructor
  · intro h; exact ⟨h .x, h .y, h .z⟩
  · rintro ⟨h1, h2, h3⟩ d; cases d <;> assumption

/-- The derivative along a line. -/
theorem IsPartial.line {lo hi : Dir → ℝ} {d : Dir} {F G : (Dir → ℝ) → ℝ} (h : IsPartial lo hi d F G) {p : Dir → ℝ}
    (hp : InBox lo hi p) : ∀ t ∈ Icc (lo d) (hi d),
      HasDerivAt (fun t => F (Function.update p d t)) (G (Function.update p d t)) t := by
  intro t ht
  have hb : InBox lo hi (Function.update p d t) := by
    intro d'
    by_cases e : d' = d
    · subst e; simpa using ht
    · simpa [Function.update_of_ne e] using hp d'
  have := h _ hb
  simpa using this

theorem update_inBox {lo hi : Dir → ℝ} {d : Dir} {p : Dir → ℝ} (hp : InBox lo hi p) {t : ℝ} (ht : t ∈ Icc (lo d) (hi d)) :
    InBox lo hi (Function.update p d t) := by
  intro d'
  by_cases e : d' = d
  · subst e; simpa using ht
  · simpa [Function.update_of_ne e] using hp d'

/-- The error of the mean over a product of offsets. -/
theorem product_bound {l : Dir → List Int} {κ : Dir → ℝ} (hl : ∀ d, Offs (l d) (κ d)) {h lo hi M : Dir → ℝ}
    (hh : ∀ d, 0 < h d) {F : (Dir → ℝ) → ℝ} {F1 F2 : Dir → (Dir → ℝ) → ℝ} (h1 : ∀ d, IsPartial lo hi d F (F1 d))
    (h2 : ∀ d, IsPartial lo hi d (F1 d) (F2 d)) (hM : ∀ d p, InBox lo hi p → |F2 d p| ≤ M d) {p : Dir → ℝ}
    (hin : ∀ d, ∀ o ∈ l d, lo d ≤ p d + h d * o / 2 ∧ p d + h d * o / 2 ≤ hi d) :
    |mean (l .z) (fun k => mean (l .y) fun j => mean (l .x) fun i =>
        F (pt (p .x + h .x * i / 2) (p .y + h .y * j / 2) (p .z + h .z * k / 2))) - F p| ≤
      κ .x * h .x ^ 2 * M .x + κ .y * h .y ^ 2 * M .y + κ .z * h .z ^ 2 * M .z := by
  have hp : InBox lo hi p := by
    intro d
    obtain ⟨o, h1, h2, -⟩ := (hl d).neg
    have a := hin d o h1
    have b := hin d (-o) h2
    push_cast at b
    have := hh d
    constructor
    · linarith [a.1, b.1]
    · linarith [a.2, b.2]
  have line : ∀ d, ∀ q : Dir → ℝ, InBox lo hi q → q d = p d →
      |mean (l d) (fun o => F (Function.update q d (p d + h d * o / 2))) - F q| ≤ κ d * h d ^ 2 * M d := by
    intro d q hq hqd
    have := line_bound (hl d) (f := fun t => F (Function.update q d t)) (a := p d) (hh d) (hin d)
      ((h1 d).line hq) ((h2 d).line hq) (fun t ht => hM d _ (update_inBox hq ht))
    rw [← hqd] at this ⊢
    rwa [Function.update_eq_self] at this
  have hpx := hp .x
  have hpy := hp .y
  have hpz := hp .z
  have bx : |mean (l .z) (fun k => mean (l .y) fun j => mean (l .x) fun i =>
        F (pt (p .x + h .x * i / 2) (p .y + h .y * j / 2) (p .z + h .z * k / 2))) -
      mean (l .z) (fun k => mean (l .y) fun j => F (pt (p .x) (p .y + h .y * j / 2) (p .z + h .z * k / 2)))| ≤
      κ .x * h .x ^ 2 * M .x := by
    refine mean_close (hl .z).ne fun k hk => mean_close (hl .y).ne fun j hj => ?_
    have := line .x (pt (p .x) (p .y + h .y * j / 2) (p .z + h .z * k / 2))
      (inBox_pt.2 ⟨hpx, hin .y j hj, hin .z k hk⟩) rfl
    simpa only [pt_x] using this
  have by' : |mean (l .z) (fun k => mean (l .y) fun j => F (pt (p .x) (p .y + h .y * j / 2) (p .z + h .z * k / 2))) -
      mean (l .z) (fun k => F (pt (p .x) (p .y) (p .z + h .z * k / 2)))| ≤ κ .y * h .y ^ 2 * M .y := by
    refine mean_close (hl .z).ne fun k hk => ?_
    have := line .y (pt (p .x) (p .y) (p .z + h .z * k / 2)) (inBox_pt.2 ⟨hpx, hpy, hin .z k hk⟩) rfl
    simpa only [pt_y] using this
  have bz := line .z (pt (p .x) (p .y) (p .z)) (inBox_pt.2 ⟨hpx, hpy, hpz⟩) rfl
  simp only [pt_z] at bz
  rw [pt_eta] at bz
  rw [abs_le] at *
  constructor <;> linarith [bx.1, bx.2, by'.1, by'.2, bz.1, bz.2]

/-! ## Registrations -/

/-- How far, in half cells, the source's value at displacement `p` lies from the destination's in direction `d`. -/
def off (src dest : FieldType) (p : IntVec) (d : Dir) : Int := 2 * comp p d + (indexStagger src d - indexStagger dest d)

theorem position_off (h : Dir → ℝ) (src dest : FieldType) (c p : IntVec) (d : Dir) :
    position h src (c + p) d = position h dest c d + h d * (off src dest p d : ℝ) / 2 := by
  rw [position_add, position_stagger, position_stagger]
  unfold off
  push_cast
  ring

/-- The offsets of the averaging operators. -/
def offs (r : Reg) (d : Dir) : List Int :=
  match r.op with
  | .filter => [-2, 0, 2]
  | .interpolantD d' => if d = d' then [-2, 2] else [0]
  | _ => if staggered r.src d = staggered r.dest d then [0] else [-1, 1]

theorem offs_share (r : Reg) (d : Dir) : Offs (offs r d) (share r d) := by
  obtain ⟨op, src, dest, coef⟩ := r
  have hd : ∀ P : Prop, [Decidable P] → Offs (if P then [0] else [-1, 1]) (if P then 0 else 1 / 8) := by
    intro P _
    split
    · exact .none
    · exact .half
  have hf : ∀ P : Prop, [Decidable P] → Offs (if P then [-2, 2] else [0]) (if P then 1 / 2 else 0) := by
    intro P _
    split
    · exact .full
    · exact .none
  cases op with
  | filter => exact .box
  | interpolantD d' => exact hf _
  | _ => exact hd _

/-- All combinations, the first varying fastest. -/
def combos (a b c : List Int) : List IntVec := c.flatMap fun k => b.flatMap fun j => a.map fun i => ⟨i, j, k⟩

theorem sum_flatMap {α : Type} (l : List α) (g : α → List IntVec) (φ : IntVec → ℝ) :
    ((l.flatMap g).map φ).sum = (l.map fun a => ((g a).map φ).sum).sum := by
  induction l with
  | nil => rfl
  | cons a l ih => simp only [List.flatMap_cons, List.map_append, List.sum_append, List.map_cons, List.sum_cons, ih]

theorem sum_map_div (l : List Int) (φ : Int → ℝ) (x : ℝ) : (l.map fun o => φ o / x).sum = (l.map φ).sum / x := by
  induction l with
  | nil => simp
  | cons a l ih => simp only [List.map_cons, List.sum_cons, ih]; ring

theorem combos_mean (a b c : List Int) (φ : IntVec → ℝ) :
    ((combos a b c).map φ).sum / (a.length * b.length * c.length : ℕ) =
      mean c fun k => mean b fun j => mean a fun i => φ ⟨i, j, k⟩ := by
  unfold combos mean
  rw [sum_flatMap]
  simp only [sum_flatMap, List.map_map]
  rw [sum_map_div]
  simp only [sum_map_div]
  push_cast
  rw [div_div, div_div]
  congr 1
  ring

theorem sum_toList {α : Type} (w : Pts α) (φ : α → ℝ) : w.sum φ = (w.toList.map φ).sum := by
  induction w with
  | one a => simp [Pts.sum, Pts.toList]
  | more e a ih => simp [Pts.sum, Pts.toList, ih]

/-- The check of one averaging operator. -/
def meanOk (r : Reg) : Bool :=
  match r.type with
  | none => false
  | some t => match weights t r.coef with
    | none => false
    | some (w, den, s) => match r.op with
      | .interpolant | .filter | .interpolantD _ =>
        s == none && (w.toList.all fun q => q.2 == 1) &&
        (w.toList.map fun q => (⟨off r.src r.dest q.1 .x, off r.src r.dest q.1 .y, off r.src r.dest q.1 .z⟩ : IntVec)) ==
          combos (offs r .x) (offs r .y) (offs r .z) &&
        den == (offs r .x).length * (offs r .y).length * (offs r .z).length
      | _ => true

theorem all_mean : registrations.all meanOk = true := by decide +kernel

/-- A vector in half cells with only one component. -/
def only (k : Int) (d : Dir) : IntVec := ⟨if d = .x then k else 0, if d = .y then k else 0, if d = .z then k else 0⟩

/-- The check of one differentiating operator: half the distance between its points is `k` half cells. -/
def slopeOk (r : Reg) (d : Dir) (k : Nat) : Bool :=
  match r.type with
  | none => false
  | some t => match weights t r.coef with
    | none => false
    | some (w, den, s) => (s == some d) && (den == k) &&
      (match w with
        | .more (.one a) b => a.2 == -1 && b.2 == 1 &&
          ((⟨off r.src r.dest a.1 .x, off r.src r.dest a.1 .y, off r.src r.dest a.1 .z⟩ : IntVec) == only (-k) d) &&
          ((⟨off r.src r.dest b.1 .x, off r.src r.dest b.1 .y, off r.src r.dest b.1 .z⟩ : IntVec) == only k d)
        | _ => false)

/-- Likewise for every operator. -/
def slopesOk (r : Reg) : Bool :=
  match r.op with
  | .gradient | .divergence => [Dir.x, .y, .z].all fun d => !onlyDir r.src r.dest d || slopeOk r d 1
  | .gradientD d => slopeOk r d 2
  | _ => true

theorem all_slopes : registrations.all slopesOk = true := by decide +kernel

theorem position_only (h : Dir → ℝ) (src dest : FieldType) (c p : IntVec) (d : Dir) (k : Int)
    (hk : (⟨off src dest p .x, off src dest p .y, off src dest p .z⟩ : IntVec) = only k d) :
    position h src (c + p) = Function.update (position h dest c) d (position h dest c d + h d * (k : ℝ) / 2) := by
  have hx := congrArg IntVec.x hk
  have hy := congrArg IntVec.y hk
  have hz := congrArg IntVec.z hk
  simp only [only] at hx hy hz
  funext d'
  rw [position_off h src dest]
  by_cases e : d' = d
  · subst e
    rw [Function.update_self]
    have : off src dest p d' = k := by cases d' <;> simpa using by assumption
    rw [this]
  · rw [Function.update_of_ne e]
    have : off src dest p d' = 0 := by
      cases d' <;> cases d <;> first | exact absurd rfl e | simpa using by assumption
    rw [this]
    simp

/-- The error of the difference. -/
theorem slope_bound {lo hi h : Dir → ℝ} {d : Dir} (hh : 0 < h d) {F F1 F2 F3 : (Dir → ℝ) → ℝ} {M : ℝ}
    (h1 : IsPartial lo hi d F F1) (h2 : IsPartial lo hi d F1 F2) (h3 : IsPartial lo hi d F2 F3)
    (hM : ∀ p, InBox lo hi p → |F3 p| ≤ M) {p : Dir → ℝ} {k : ℝ} (hk : 0 < k)
    (hlo : InBox lo hi (Function.update p d (p d + h d * -k / 2)))
    (hhi : InBox lo hi (Function.update p d (p d + h d * k / 2))) :
    |(F (Function.update p d (p d + h d * k / 2)) - F (Function.update p d (p d + h d * -k / 2))) / (k * h d) - F1 p| ≤
      k ^ 2 / 24 * h d ^ 2 * M := by
  have hkh : 0 < h d * k := mul_pos hh hk
  have a1 := hlo d
  have a2 := hhi d
  rw [Function.update_self] at a1 a2
  have hp : InBox lo hi p := by
    intro d'
    by_cases e : d' = d
    · subst e
      constructor <;> linarith [a1.1, a2.2]
    · simpa [Function.update_of_ne e] using hlo d'
  have hs : ∀ t ∈ Icc (p d - h d * k / 2) (p d + h d * k / 2), t ∈ Icc (lo d) (hi d) :=
    fun t ht => ⟨by linarith [a1.1, ht.1], by linarith [a2.2, ht.2]⟩
  have := third (f := fun t => F (Function.update p d t)) (a := p d) (δ := h d * k / 2) (by linarith)
    (fun t ht => h1.line hp t (hs t ht)) (fun t ht => h2.line hp t (hs t ht)) (fun t ht => h3.line hp t (hs t ht))
    (fun t ht => hM _ (update_inBox hp (hs t ht)))
  simp only [Function.update_eq_self] at this
  rw [show p d + h d * -k / 2 = p d - h d * k / 2 by ring]
  set A := F (Function.update p d (p d + h d * k / 2))
  set B := F (Function.update p d (p d - h d * k / 2))
  have e : (A - B) / (k * h d) - F1 p = (A - B - 2 * (h d * k / 2) * F1 p) / (h d * k) := by
    field_simp
  rw [e, abs_div, abs_of_pos hkh, div_le_iff₀ hkh]
  refine this.trans (le_of_eq ?_)
  ring

/-- For every function of position there is a memory in which the field samples it. -/
theorem exists_values {n : IntVec} {f : FieldObj} (hm : OnMesh n f.geo) (h : Dir → ℝ) (t : FieldType) (F : (Dir → ℝ) → ℝ) :
    ∃ m : Mem ℝ, ∀ c, HasCell f.geo c → valueAt m f c = F (position h t c) := by
  classical
  refine ⟨fun _ a => if hc : ∃ c, HasCell f.geo c ∧ cellAddr f.geo c = a then F (position h t hc.choose) else 0, ?_⟩
  intro c hc
  unfold valueAt
  have hex : ∃ c', HasCell f.geo c' ∧ cellAddr f.geo c' = cellAddr f.geo c := ⟨c, hc, rfl⟩
  beta_reduce
  rw [dif_pos hex]
  have hs := hex.choose_spec
  have hfit : ∀ c', HasCell f.geo c' → InBlock f.geo.window.npts (origin f.geo + c') := by
    intro c' h'
    have hw := hm.fits
    unfold HasCell Window.Covers at h'
    unfold Window.Fits at hw
    unfold InBlock
    iv_omega
  have := fortranPos_inj (hfit _ hs.1) (hfit _ hc) hs.2
  have e : hex.choose = c := by
    generalize hex.choose = c' at *
    have hx := congrArg IntVec.x this
    have hy := congrArg IntVec.y this
    have hz := congrArg IntVec.z this
    simp only [IntVec.add_x, IntVec.add_y, IntVec.add_z] at hx hy hz
    apply IntVec.ext <;> omega
  rw [e]

end Accuracy
end SpatialOps
