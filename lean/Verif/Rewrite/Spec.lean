import Verif.Round.Spec

/-!
# Specification: ways to write a formula that give the same numbers
-/

namespace SpatialOps
namespace Rewrite

open Nebo Round Stencil

section
variable {K : Type} [Field K] {rnd : K → K}

/-- The formula yields a number of the format, if memory holds such numbers. -/
def InFormat : Formula rnd → Prop
  | .const v => rnd v.val = v.val
  | .field _ | .single _ | .add _ _ | .sub _ _ | .mul _ _ | .overConst _ _ | .overField _ _ | .stencil _ _ => True
  | .neg a => InFormat a
  | .sumStencil _ a => InFormat a
  | .cond _ a b => InFormat a ∧ InFormat b

/-- Formulas that differ by rules that floating point arithmetic obeys exactly. -/
inductive Rewrites : Formula rnd → Formula rnd → Prop
  | refl (a) : Rewrites a a
  | symm {a b} : Rewrites a b → Rewrites b a
  | trans {a b c} : Rewrites a b → Rewrites b c → Rewrites a c
  | add {a b a' b'} : Rewrites a a' → Rewrites b b' → Rewrites (.add a b) (.add a' b')
  | sub {a b a' b'} : Rewrites a a' → Rewrites b b' → Rewrites (.sub a b) (.sub a' b')
  | mul {a b a' b'} : Rewrites a a' → Rewrites b b' → Rewrites (.mul a b) (.mul a' b')
  | neg {a a'} : Rewrites a a' → Rewrites (.neg a) (.neg a')
  | overConst {a a'} (v) : Rewrites a a' → Rewrites (.overConst a v) (.overConst a' v)
  | overField {a a'} (f) : Rewrites a a' → Rewrites (.overField a f) (.overField a' f)
  | stencil {a a'} (pts) : Rewrites a a' → Rewrites (.stencil pts a) (.stencil pts a')
  | sumStencil {a a'} (pts) : Rewrites a a' → Rewrites (.sumStencil pts a) (.sumStencil pts a')
  | cond {a b a' b'} (t) : Rewrites a a' → Rewrites b b' → Rewrites (.cond t a b) (.cond t a' b')
  /-- `a + b`, `b + a` -/
  | addComm (a b) : Rewrites (.add a b) (.add b a)
  /-- `a * b`, `b * a` -/
  | mulComm (a b) : Rewrites (.mul a b) (.mul b a)
  /-- `a - b`, `a + (-b)` -/
  | subNeg (a b) : Rewrites (.sub a b) (.add a (.neg b))
  /-- `a - (-b)`, `a + b` -/
  | subNegNeg (a b) : Rewrites (.sub a (.neg b)) (.add a b)
  /-- `-(-a)`, `a` -/
  | negNeg (a) : Rewrites (.neg (.neg a)) a
  /-- `(-a) * (-b)`, `a * b` -/
  | negMulNeg (a b) : Rewrites (.mul (.neg a) (.neg b)) (.mul a b)
  /-- `2 * a`, `a + a` -/
  | twice (a) : Rewrites (.mul (.const ⟨2⟩) a) (.add a a)
  /-- `a / 2`, `a * 0.5` -/
  | half (a) : Rewrites (.overConst a ⟨2⟩) (.mul a (.const ⟨1 / 2⟩))
  /-- `-(a - b)`, `b - a` -/
  | negSub (a b) : Rewrites (.neg (.sub a b)) (.sub b a)
  /-- `-(a + b)`, `-a - b` -/
  | negAdd (a b) : Rewrites (.neg (.add a b)) (.sub (.neg a) b)
  /-- `(-a) * b`, `-(a * b)` -/
  | negMul (a b) : Rewrites (.mul (.neg a) b) (.neg (.mul a b))
  /-- `(-a) / v`, `-(a / v)` -/
  | negOver (a v) : Rewrites (.overConst (.neg a) v) (.neg (.overConst a v))
  /-- `a - a`, `0` -/
  | subSelf (a) : Rewrites (.sub a a) (.const ⟨0⟩)
  /-- `a * 0`, `0` -/
  | mulZero (a) : Rewrites (.mul a (.const ⟨0⟩)) (.const ⟨0⟩)
  /-- `a + 0`, `a` -/
  | addZero {a} : InFormat a → Rewrites (.add a (.const ⟨0⟩)) a
  /-- `a * 1`, `a` -/
  | mulOne {a} : InFormat a → Rewrites (.mul a (.const ⟨1⟩)) a
  /-- `a / 1`, `a` -/
  | overOne {a} : InFormat a → Rewrites (.overConst a ⟨1⟩) a
  /-- `cond(t, a)(a)`, `a` -/
  | condSame (t a) : Rewrites (.cond t a a) a
  /-- A stencil of one point with coefficient 1 and the shift without coefficient. -/
  | shift {a} (p) : InFormat a → Rewrites (.stencil (.one (p, ⟨1⟩)) a) (.sumStencil (.one p) a)

end
end Rewrite
end SpatialOps
