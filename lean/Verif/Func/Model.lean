import Verif.Nebo.Model
import Mathlib.Analysis.SpecialFunctions.Trigonometric.Deriv
import Mathlib.Analysis.SpecialFunctions.ExpDeriv

/-!
# Model of the analytic field functions

spatialops/FieldFunctions.h, with the constructors that take the coordinate field. Numbers are
real; `sin`, `cos`, `exp` and `tanh` are the real functions. Every member function is one Nebo
assignment and is modelled by it. The constructors that take a patch cannot be instantiated (the
assignment to the parameter at FieldFunctions.h:394 is to a constant) and are left out.
-/

namespace SpatialOps
namespace Func
open Nebo

noncomputable section

/-- `a+b` of Nebo expressions, as used in FieldFunctions.h:515. -/
def add (a b : Expr ℝ .num) : Expr ℝ .num := .bin (s := .num) (t := .num) (fun x y : ℝ => x + y) a b
/-- `a-b` of Nebo expressions, as used in FieldFunctions.h:640. -/
def sub (a b : Expr ℝ .num) : Expr ℝ .num := .bin (s := .num) (t := .num) (fun x y : ℝ => x - y) a b
/-- `a*b` of Nebo expressions, as used in FieldFunctions.h:515. -/
def mul (a b : Expr ℝ .num) : Expr ℝ .num := .bin (s := .num) (t := .num) (fun x y : ℝ => x * y) a b
/-- `a/b` of Nebo expressions, as used in FieldFunctions.h:688. -/
def div (a b : Expr ℝ .num) : Expr ℝ .num := .bin (s := .num) (t := .num) (fun x y : ℝ => x / y) a b
/-- A number in a Nebo expression, as used in FieldFunctions.h:515. -/
def num (v : ℝ) : Expr ℝ .num := .scalar (t := .num) v
/-- `sin(a)`, `cos(a)`, `exp(a)`, `tanh(a)` of Nebo expressions, as used in FieldFunctions.h:573, 583, 640, 688. -/
def app (f : ℝ → ℝ) (a : Expr ℝ .num) : Expr ℝ .num := .un (s := .num) (t := .num) f a

/-- The base class' `dx` and `d2x`: a failed assertion. FieldFunctions.h:202-203. -/
def notImplemented (_f : FieldObj) (_mem : Mem ℝ) : Outcome (Mem ℝ) := .abort

/-- `LinearFunction1D`: members, FieldFunctions.h:260. -/
structure Linear where
  x : FieldObj
  m : ℝ
  b : ℝ

/-- `LinearFunction1D::evaluate`, FieldFunctions.h:508-516. -/
def Linear.evaluate (o : Linear) (f : FieldObj) (mem : Mem ℝ) : Outcome (Mem ℝ) :=
  assign f (add (mul (.field o.x) (num o.m)) (num o.b)) mem

/-- `LinearFunction1D::dx`, FieldFunctions.h:518-524. -/
def Linear.dx (o : Linear) (f : FieldObj) (mem : Mem ℝ) : Outcome (Mem ℝ) := assign f (num o.m) mem

/-- `LinearFunction1D::d2x`, FieldFunctions.h:526-532. -/
def Linear.d2x (_o : Linear) (f : FieldObj) (mem : Mem ℝ) : Outcome (Mem ℝ) := assign f (num 0) mem

/-- `SinFunction`: members, FieldFunctions.h:295. -/
structure Sine where
  x : FieldObj
  a : ℝ
  b : ℝ
  base : ℝ

/-- `SinFunction::evaluate`, FieldFunctions.h:567-574. -/
def Sine.evaluate (o : Sine) (f : FieldObj) (mem : Mem ℝ) : Outcome (Mem ℝ) :=
  assign f (add (mul (num o.a) (app Real.sin (mul (.field o.x) (num o.b)))) (num o.base)) mem

/-- `SinFunction::dx`, FieldFunctions.h:576-584. -/
def Sine.dx (o : Sine) (f : FieldObj) (mem : Mem ℝ) : Outcome (Mem ℝ) :=
  assign f (mul (num (o.a * o.b)) (app Real.cos (mul (.field o.x) (num o.b)))) mem

/-- `SinFunction::d2x`, FieldFunctions.h:586-594. -/
def Sine.d2x (o : Sine) (f : FieldObj) (mem : Mem ℝ) : Outcome (Mem ℝ) :=
  assign f (mul (num (-o.a * o.b * o.b)) (app Real.sin (mul (.field o.x) (num o.b)))) mem

/-- `GaussianFunction`: members, FieldFunctions.h:332. -/
structure Gaussian where
  x : FieldObj
  a : ℝ
  b : ℝ
  xo : ℝ
  yo : ℝ

/-- The constructor, FieldFunctions.h:602-615. -/
def Gaussian.make (x : FieldObj) (a b xo yo : ℝ) : Gaussian := ⟨x, a, 2 * b * b, xo, yo⟩

/-- `exp(-1.0/b_ * (x-xo_)*(x-xo_))`, FieldFunctions.h:640, 650, 660. -/
def Gaussian.bell (o : Gaussian) : Expr ℝ .num :=
  app Real.exp (mul (mul (num (-1 / o.b)) (sub (.field o.x) (num o.xo))) (sub (.field o.x) (num o.xo)))

/-- `GaussianFunction::evaluate`, FieldFunctions.h:633-641. -/
def Gaussian.evaluate (o : Gaussian) (f : FieldObj) (mem : Mem ℝ) : Outcome (Mem ℝ) :=
  assign f (add (mul (num o.a) o.bell) (num o.yo)) mem

/-- `GaussianFunction::dx`, FieldFunctions.h:643-651. -/
def Gaussian.dx (o : Gaussian) (f : FieldObj) (mem : Mem ℝ) : Outcome (Mem ℝ) :=
  assign f (add (mul (mul (mul (num (-2 / o.b)) (sub (.field o.x) (num o.xo))) (sub (.field o.x) (num o.xo))) o.bell)
    (num o.yo)) mem

/-- `GaussianFunction::d2x`, FieldFunctions.h:653-661. -/
def Gaussian.d2x (o : Gaussian) (f : FieldObj) (mem : Mem ℝ) : Outcome (Mem ℝ) :=
  assign f (mul (mul (num (-2 / o.b)) (mul (num o.a) o.bell))
    (sub (num 1) (mul (mul (num (2 / o.b)) (sub (.field o.x) (num o.xo))) (sub (.field o.x) (num o.xo))))) mem

/-- `HyperTanFunction`: members, FieldFunctions.h:368. -/
structure HyperTan where
  x : FieldObj
  amplitude : ℝ
  width : ℝ
  l1 : ℝ
  l2 : ℝ

/-- `HyperTanFunction::evaluate`, FieldFunctions.h:681-689. -/
def HyperTan.evaluate (o : HyperTan) (f : FieldObj) (mem : Mem ℝ) : Outcome (Mem ℝ) :=
  assign f (mul (mul (num (o.amplitude / 2))
      (add (num 1) (app Real.tanh (div (sub (.field o.x) (num o.l1)) (num o.width)))))
    (sub (num 1) (mul (num (1 / 2)) (add (num 1) (app Real.tanh (div (sub (.field o.x) (num o.l2)) (num o.width))))))) mem

/-- `dx` of `HyperTanFunction`: inherited. FieldFunctions.h:202, 356-369. -/
def HyperTan.dx (_o : HyperTan) := notImplemented
/-- `d2x` of `HyperTanFunction`: inherited. FieldFunctions.h:203, 356-369. -/
def HyperTan.d2x (_o : HyperTan) := notImplemented

end

end Func
end SpatialOps
