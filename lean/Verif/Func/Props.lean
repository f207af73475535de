import Verif.Func.Spec
import Verif.Nebo.Props
import Mathlib.Tactic.FieldSimp
import Mathlib.Tactic.Linarith

/-!
# Property C47: analytic field functions
-/

namespace SpatialOps
namespace Func
open Nebo

/-- A Nebo assignment of an expression over the coordinate field computes the expression's
meaning. -/
theorem computes_of (x : FieldObj) (e : Expr ℝ .num) (g : ℝ → ℝ)
    (hwf : ∀ n, OnMesh n x.geo → x.values ≠ none → e.Wf n)
    (hdef : ∀ n c, IntVec.Le (-⟨ghostMax, ghostMax, ghostMax⟩) c → IntVec.Lt c (n + ⟨ghostMax, ghostMax, ghostMax⟩) →
      HasCell x.geo c → e.DefinedAt n c)
    (hind : ∀ f : FieldObj, x.values ≠ f.values → e.Independent f 0)
    (hval : ∀ mem c bx, x.values = some bx → e.value mem c = g (mem bx (cellAddr x.geo c))) :
    Computes (fun f mem => assign f e mem) x g := by
  intro n f bf bx mem hn ht hx hx1 hxb hb hcov
  have hrange : ∀ c, HasCell x.geo c → IntVec.Le (-⟨ghostMax, ghostMax, ghostMax⟩) c ∧
      IntVec.Lt c (n + ⟨ghostMax, ghostMax, ghostMax⟩) := by
    intro c hc
    rw [hasCell_iff hx] at hc
    unfold InBox at hc
    unfold FewGhosts at hx1
    constructor <;> iv_omega
  obtain ⟨mem', h1, h2, h3⟩ := C22_assign_pointwise n hn f bf ht e (hwf n hx (by simp [hxb]))
    (fun c hc => hdef n c (hrange c (hcov c hc)).1 (hrange c (hcov c hc)).2 (hcov c hc))
    (hind f (by rw [hxb, ht.mem]; simpa using hb)) mem
  refine ⟨mem', h1, ?_, fun b a hba => h3 b a (Or.inl hba)⟩
  intro c hc hxc
  rw [h2 c ⟨hc, hdef n c (hrange c hxc).1 (hrange c hxc).2 hxc⟩, hval mem c bx hxb]


/-- C47. `LinearFunction1D`: `evaluate` computes a function of the coordinate, `dx` its derivative
and `d2x` its second derivative. -/
theorem _root_.SpatialOps.C47_linear (x : FieldObj) (m b : ℝ) :
    ∃ g g' g'' : ℝ → ℝ, Computes (Linear.evaluate ⟨x, m, b⟩) x g ∧ Computes (Linear.dx ⟨x, m, b⟩) x g' ∧
      Computes (Linear.d2x ⟨x, m, b⟩) x g'' ∧ (∀ t, g t = m * t + b) ∧
      (∀ t, HasDerivAt g (g' t) t) ∧ (∀ t, HasDerivAt g' (g'' t) t) := by
  refine ⟨fun t => t * m + b, fun _ => m, fun _ => 0, ?_, ?_, ?_, fun t => by ring, fun t => ?_, fun t => hasDerivAt_const t m⟩
  · apply computes_of
    · intro n h1 h2; simp [add, mul, num, Expr.Wf, h1, h2]
    · intro n c h1 h2 h3; simp [add, mul, num, Expr.DefinedAt, h1, h2, h3]
    · intro f h; simp [add, mul, num, Expr.Independent, h]
    · intro mem c bx h; simp [add, mul, num, Expr.value, h]
  · apply computes_of
    · intro n h1 h2; simp [num, Expr.Wf]
    · intro n c h1 h2 h3; simp [num, Expr.DefinedAt, h1, h2]
    · intro f h; simp [num, Expr.Independent]
    · intro mem c bx h; simp [num, Expr.value]
  · apply computes_of
    · intro n h1 h2; simp [num, Expr.Wf]
    · intro n c h1 h2 h3; simp [num, Expr.DefinedAt, h1, h2]
    · intro f h; simp [num, Expr.Independent]
    · intro mem c bx h; simp [num, Expr.value]
  · simpa using ((hasDerivAt_id t).mul_const m).add_const b

/-- C47. `SinFunction`. -/
theorem _root_.SpatialOps.C47_sin (x : FieldObj) (a b base : ℝ) :
    ∃ g g' g'' : ℝ → ℝ, Computes (Sine.evaluate ⟨x, a, b, base⟩) x g ∧ Computes (Sine.dx ⟨x, a, b, base⟩) x g' ∧
      Computes (Sine.d2x ⟨x, a, b, base⟩) x g'' ∧ (∀ t, g t = a * Real.sin (b * t) + base) ∧
      (∀ t, HasDerivAt g (g' t) t) ∧ (∀ t, HasDerivAt g' (g'' t) t) := by
  have hlin : ∀ t : ℝ, HasDerivAt (fun t => t * b) b t := fun t => by simpa using (hasDerivAt_id t).mul_const b
  refine ⟨fun t => a * Real.sin (t * b) + base, fun t => a * b * Real.cos (t * b), fun t => -a * b * b * Real.sin (t * b),
    ?_, ?_, ?_, fun t => by rw [mul_comm b t], fun t => ?_, fun t => ?_⟩
  · apply computes_of
    · intro n h1 h2; simp [add, mul, num, app, Expr.Wf, h1, h2]
    · intro n c h1 h2 h3; simp [add, mul, num, app, Expr.DefinedAt, h1, h2, h3]
    · intro f h; simp [add, mul, num, app, Expr.Independent, h]
    · intro mem c bx h; simp [add, mul, num, app, Expr.value, h]
  · apply computes_of
    · intro n h1 h2; simp [mul, num, app, Expr.Wf, h1, h2]
    · intro n c h1 h2 h3; simp [mul, num, app, Expr.DefinedAt, h1, h2, h3]
    · intro f h; simp [mul, num, app, Expr.Independent, h]
    · intro mem c bx h; simp [mul, num, app, Expr.value, h]
  · apply computes_of
    · intro n h1 h2; simp [mul, num, app, Expr.Wf, h1, h2]
    · intro n c h1 h2 h3; simp [mul, num, app, Expr.DefinedAt, h1, h2, h3]
    · intro f h; simp [mul, num, app, Expr.Independent, h]
    · intro mem c bx h; simp [mul, num, app, Expr.value, h]
  · have h := (((hlin t).sin).const_mul a).add_const base
    rwa [show a * (Real.cos (t * b) * b) = a * b * Real.cos (t * b) by ring] at h
  · have h := ((hlin t).cos).const_mul (a * b)
    rwa [show a * b * (-Real.sin (t * b) * b) = -a * b * b * Real.sin (t * b) by ring] at h

/-- The bell curve and its slope. -/
theorem hasDerivAt_bell (k xo t : ℝ) :
    HasDerivAt (fun t => Real.exp (k * (t - xo) * (t - xo))) (2 * k * (t - xo) * Real.exp (k * (t - xo) * (t - xo))) t := by
  have h1 : HasDerivAt (fun t => t - xo) 1 t := (hasDerivAt_id t).sub_const xo
  have h2 := ((h1.const_mul k).mul h1).exp
  have h3 : HasDerivAt (fun t => Real.exp (k * (t - xo) * (t - xo)))
      (Real.exp (k * (t - xo) * (t - xo)) * (k * 1 * (t - xo) + k * (t - xo) * 1)) t := h2
  rwa [show Real.exp (k * (t - xo) * (t - xo)) * (k * 1 * (t - xo) + k * (t - xo) * 1) =
    2 * k * (t - xo) * Real.exp (k * (t - xo) * (t - xo)) by ring] at h3

/-- C47. `GaussianFunction`: `evaluate` computes the bell curve and `d2x` its second derivative.
Missing: `dx` is not the first derivative, see `C47_gaussian_dx_wrong`. -/
theorem _root_.SpatialOps.C47_gaussian_partial (x : FieldObj) (a b xo yo : ℝ) (hb : b ≠ 0) :
    ∃ g g' g'' : ℝ → ℝ, Computes (Gaussian.make x a b xo yo).evaluate x g ∧
      Computes (Gaussian.make x a b xo yo).d2x x g'' ∧ (∀ t, g t = a * Real.exp (-(t - xo) ^ 2 / (2 * b ^ 2)) + yo) ∧
      (∀ t, HasDerivAt g (g' t) t) ∧ (∀ t, HasDerivAt g' (g'' t) t) := by
  refine ⟨fun t => a * Real.exp (-1 / (2 * b * b) * (t - xo) * (t - xo)) + yo,
    fun t => a * (2 * (-1 / (2 * b * b)) * (t - xo) * Real.exp (-1 / (2 * b * b) * (t - xo) * (t - xo))),
    fun t => -2 / (2 * b * b) * (a * Real.exp (-1 / (2 * b * b) * (t - xo) * (t - xo))) *
      (1 - 2 / (2 * b * b) * (t - xo) * (t - xo)), ?_, ?_, fun t => ?_, fun t => ?_, fun t => ?_⟩
  · apply computes_of
    · intro n h1 h2; simp [Gaussian.make, Gaussian.bell, add, sub, mul, num, app, Expr.Wf, h1, h2]
    · intro n c h1 h2 h3; simp [Gaussian.make, Gaussian.bell, add, sub, mul, num, app, Expr.DefinedAt, h1, h2, h3]
    · intro f h; simp [Gaussian.make, Gaussian.bell, add, sub, mul, num, app, Expr.Independent, h]
    · intro mem c bx h; simp [Gaussian.make, Gaussian.bell, add, sub, mul, num, app, Expr.value, h]
  · apply computes_of
    · intro n h1 h2; simp [Gaussian.make, Gaussian.bell, sub, mul, num, app, Expr.Wf, h1, h2]
    · intro n c h1 h2 h3; simp [Gaussian.make, Gaussian.bell, sub, mul, num, app, Expr.DefinedAt, h1, h2, h3]
    · intro f h; simp [Gaussian.make, Gaussian.bell, sub, mul, num, app, Expr.Independent, h]
    · intro mem c bx h; simp [Gaussian.make, Gaussian.bell, sub, mul, num, app, Expr.value, h]
  · have : -1 / (2 * b * b) * (t - xo) * (t - xo) = -(t - xo) ^ 2 / (2 * b ^ 2) := by
      field_simp
    simp only [this]
  · exact ((hasDerivAt_bell _ xo t).const_mul a).add_const yo
  · have h1 : HasDerivAt (fun t => 2 * (-1 / (2 * b * b)) * (t - xo)) (2 * (-1 / (2 * b * b))) t := by
      simpa using ((hasDerivAt_id t).sub_const xo).const_mul (2 * (-1 / (2 * b * b)))
    have h2 := (h1.mul (hasDerivAt_bell (-1 / (2 * b * b)) xo t)).const_mul a
    refine HasDerivAt.congr_deriv h2 ?_
    field_simp
    ring

/-- C47, deviation. Whatever the parameters, `GaussianFunction::dx` is not the derivative of
`evaluate`: it lacks the amplitude, has the offset from the centre squared, and adds the base
value. -/
theorem _root_.SpatialOps.C47_gaussian_dx_wrong (x : FieldObj) (a b xo yo : ℝ) (hb : b ≠ 0) :
    ∃ g h : ℝ → ℝ, Computes (Gaussian.make x a b xo yo).evaluate x g ∧ Computes (Gaussian.make x a b xo yo).dx x h ∧
      ∃ t, ¬ HasDerivAt g (h t) t := by
  refine ⟨fun t => a * Real.exp (-1 / (2 * b * b) * (t - xo) * (t - xo)) + yo,
    fun t => -2 / (2 * b * b) * (t - xo) * (t - xo) * Real.exp (-1 / (2 * b * b) * (t - xo) * (t - xo)) + yo, ?_, ?_, ?_⟩
  · apply computes_of
    · intro n h1 h2; simp [Gaussian.make, Gaussian.bell, add, sub, mul, num, app, Expr.Wf, h1, h2]
    · intro n c h1 h2 h3; simp [Gaussian.make, Gaussian.bell, add, sub, mul, num, app, Expr.DefinedAt, h1, h2, h3]
    · intro f h; simp [Gaussian.make, Gaussian.bell, add, sub, mul, num, app, Expr.Independent, h]
    · intro mem c bx h; simp [Gaussian.make, Gaussian.bell, add, sub, mul, num, app, Expr.value, h]
  · apply computes_of
    · intro n h1 h2; simp [Gaussian.make, Gaussian.bell, add, sub, mul, num, app, Expr.Wf, h1, h2]
    · intro n c h1 h2 h3; simp [Gaussian.make, Gaussian.bell, add, sub, mul, num, app, Expr.DefinedAt, h1, h2, h3]
    · intro f h; simp [Gaussian.make, Gaussian.bell, add, sub, mul, num, app, Expr.Independent, h]
    · intro mem c bx h; simp [Gaussian.make, Gaussian.bell, add, sub, mul, num, app, Expr.value, h]
  · by_contra hc
    simp only [not_exists, not_not] at hc
    have key : ∀ t, a * (2 * (-1 / (2 * b * b)) * (t - xo) * Real.exp (-1 / (2 * b * b) * (t - xo) * (t - xo))) =
        -2 / (2 * b * b) * (t - xo) * (t - xo) * Real.exp (-1 / (2 * b * b) * (t - xo) * (t - xo)) + yo :=
      fun t => (((hasDerivAt_bell _ xo t).const_mul a).add_const yo).unique (hc t)
    have h0 := key xo
    simp only [sub_self, mul_zero, zero_mul, zero_add] at h0
    have e1 : xo + 1 - xo = 1 := by ring
    have e2 : xo + 2 - xo = 2 := by ring
    have h1 := key (xo + 1)
    have h2 := key (xo + 2)
    rw [e1, ← h0, add_zero] at h1
    rw [e2, ← h0, add_zero] at h2
    have p1 := Real.exp_ne_zero (-1 / (2 * b * b) * 1 * 1)
    have p2 := Real.exp_ne_zero (-1 / (2 * b * b) * 2 * 2)
    have a1 : a = 1 := by
      field_simp at h1
      linarith
    have a2 : a = 2 := by
      field_simp at h2
      linarith
    linarith

/-- C47. `HyperTanFunction` computes the formula in its documentation; it has no derivatives: both
calls fail an assertion. -/
theorem _root_.SpatialOps.C47_tanh (x : FieldObj) (A w l1 l2 : ℝ) :
    Computes (HyperTan.evaluate ⟨x, A, w, l1, l2⟩) x
      (fun t => A / 4 * (1 + Real.tanh ((t - l1) / w)) * (1 - Real.tanh ((t - l2) / w))) ∧
    ∀ f mem, HyperTan.dx ⟨x, A, w, l1, l2⟩ f mem = .abort ∧ HyperTan.d2x ⟨x, A, w, l1, l2⟩ f mem = .abort := by
  refine ⟨?_, fun f mem => ⟨rfl, rfl⟩⟩
  apply computes_of
  · intro n h1 h2; simp [add, sub, mul, div, num, app, Expr.Wf, h1, h2]
  · intro n c h1 h2 h3; simp [add, sub, mul, div, num, app, Expr.DefinedAt, h1, h2, h3]
  · intro f h; simp [add, sub, mul, div, num, app, Expr.Independent, h]
  · intro mem c bx h
    simp only [add, sub, mul, div, num, app, Expr.value, h, Option.getD_some]
    ring

/-- The conditions of `Computes` are met: coordinate field and destination on the same mesh. -/
example : ∃ (n : IntVec) (x f : FieldObj), IntVec.Lt 0 n ∧ Target n f 0 ∧ OnMesh n x.geo ∧
    FewGhosts x.geo ∧ x.values = some 1 ∧ ∀ c, Interior n f c → HasCell x.geo c :=
  ⟨⟨4, 3, 1⟩, NeboEx.fld true 1, NeboEx.fld true 0, by decide, NeboEx.target true 0, NeboEx.onMesh true, by unfold FewGhosts; decide, rfl, by
    intro c hc
    rw [show (NeboEx.fld true 1).geo = NeboEx.geo true from rfl, hasCell_iff (NeboEx.onMesh true)]
    unfold Interior at hc
    rw [show (NeboEx.fld true 0).geo.bc.hasExtra = ⟨1, 0, 0⟩ by decide] at hc
    rw [show (NeboEx.geo true).validGhosts.minus = ⟨1, 1, 0⟩ from rfl,
      show (NeboEx.geo true).validGhosts.plus + (NeboEx.geo true).bc.hasExtra = ⟨2, 1, 0⟩ by decide]
    unfold InBox
    iv_omega⟩

end Func
end SpatialOps
