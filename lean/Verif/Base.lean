/-!
# Base definitions shared by all models

`Outcome` separates the ways a C++ call can end; `IntVec` is the 3-vector of
integers used throughout SpatialOps.
-/

namespace SpatialOps

/-- How a modelled C++ call ends. `abort` is a failed `assert` (debug build),
`throws` a C++ exception, `ub` undefined behaviour (division by zero, null or
dangling access). None of these is ever conflated with a normal result. -/
inductive Outcome (α : Type u) where
  | ok (a : α)
  | abort
  | throws
  | ub
  deriving DecidableEq, Repr

namespace Outcome

/-- Sequencing: the first abnormal end wins. -/
def bind {α : Type u} {β : Type v} : Outcome α → (α → Outcome β) → Outcome β
  | ok a, f => f a
  | abort, _ => abort
  | throws, _ => throws
  | ub, _ => ub

instance : Monad Outcome where
  pure := ok
  bind := bind

@[simp] theorem pure_eq {α : Type} (a : α) : (pure a : Outcome α) = ok a := rfl
@[simp] theorem ok_bind {α β : Type} (a : α) (f : α → Outcome β) : (ok a >>= f) = f a := rfl
@[simp] theorem abort_bind {α β : Type} (f : α → Outcome β) : ((abort : Outcome α) >>= f) = abort := rfl
@[simp] theorem throws_bind {α β : Type} (f : α → Outcome β) : ((throws : Outcome α) >>= f) = throws := rfl
@[simp] theorem ub_bind {α β : Type} (f : α → Outcome β) : ((ub : Outcome α) >>= f) = ub := rfl

theorem bind_eq_ok {α β : Type} {x : Outcome α} {f : α → Outcome β} {b : β} :
    (x >>= f) = ok b ↔ ∃ a, x = ok a ∧ f a = ok b := by
  cases x <;> simp

/-- `assert(p)`. -/
def assert (p : Prop) [Decidable p] : Outcome Unit := if p then ok () else abort
/-- `if(p) throw ...`. -/
def throwIf (p : Prop) [Decidable p] : Outcome Unit := if p then throws else ok ()
/-- An operation that is undefined unless `p` holds. -/
def ubUnless (p : Prop) [Decidable p] : Outcome Unit := if p then ok () else ub

theorem assert_true {p : Prop} [Decidable p] (h : p) : assert p = ok () := if_pos h
theorem assert_false {p : Prop} [Decidable p] (h : ¬ p) : assert p = abort := if_neg h
theorem throwIf_true {p : Prop} [Decidable p] (h : p) : throwIf p = throws := if_pos h
theorem throwIf_false {p : Prop} [Decidable p] (h : ¬ p) : throwIf p = ok () := if_neg h
theorem ubUnless_true {p : Prop} [Decidable p] (h : p) : ubUnless p = ok () := if_pos h
theorem ubUnless_false {p : Prop} [Decidable p] (h : ¬ p) : ubUnless p = ub := if_neg h

end Outcome

/-- `Numeric3Vec<int>`, spatialops/structured/Numeric3Vec.h:45-148 and the
typedef IntVec.h:41. The array `ijk[3]` is three fields; `operator[]` with an
index of 3 or more (an assertion failure) is not representable. -/
@[ext] structure IntVec where
  x : Int
  y : Int
  z : Int
  deriving DecidableEq, Repr, Inhabited

namespace IntVec

/-- Numeric3Vec.h:93-97 -/
instance : Add IntVec := ⟨fun a b => ⟨a.x + b.x, a.y + b.y, a.z + b.z⟩⟩
/-- Numeric3Vec.h:98-102 -/
instance : Sub IntVec := ⟨fun a b => ⟨a.x - b.x, a.y - b.y, a.z - b.z⟩⟩
/-- Numeric3Vec.h:103-107 -/
instance : Mul IntVec := ⟨fun a b => ⟨a.x * b.x, a.y * b.y, a.z * b.z⟩⟩
/-- Componentwise negation (IndexTriplet.h `Negate`). -/
instance : Neg IntVec := ⟨fun a => ⟨-a.x, -a.y, -a.z⟩⟩
/-- Numeric3Vec.h:52 default constructor. -/
instance : Zero IntVec := ⟨⟨0, 0, 0⟩⟩

@[simp] theorem add_x (a b : IntVec) : (a + b).x = a.x + b.x := rfl
@[simp] theorem add_y (a b : IntVec) : (a + b).y = a.y + b.y := rfl
@[simp] theorem add_z (a b : IntVec) : (a + b).z = a.z + b.z := rfl
@[simp] theorem sub_x (a b : IntVec) : (a - b).x = a.x - b.x := rfl
@[simp] theorem sub_y (a b : IntVec) : (a - b).y = a.y - b.y := rfl
@[simp] theorem sub_z (a b : IntVec) : (a - b).z = a.z - b.z := rfl
@[simp] theorem mul_x (a b : IntVec) : (a * b).x = a.x * b.x := rfl
@[simp] theorem mul_y (a b : IntVec) : (a * b).y = a.y * b.y := rfl
@[simp] theorem mul_z (a b : IntVec) : (a * b).z = a.z * b.z := rfl
@[simp] theorem neg_x (a : IntVec) : (-a).x = -a.x := rfl
@[simp] theorem neg_y (a : IntVec) : (-a).y = -a.y := rfl
@[simp] theorem neg_z (a : IntVec) : (-a).z = -a.z := rfl
@[simp] theorem zero_x : (0 : IntVec).x = 0 := rfl
@[simp] theorem zero_y : (0 : IntVec).y = 0 := rfl
@[simp] theorem zero_z : (0 : IntVec).z = 0 := rfl

/-- Componentwise `≤`. -/
def Le (a b : IntVec) : Prop := a.x ≤ b.x ∧ a.y ≤ b.y ∧ a.z ≤ b.z
/-- Componentwise `<`. -/
def Lt (a b : IntVec) : Prop := a.x < b.x ∧ a.y < b.y ∧ a.z < b.z

instance (a b : IntVec) : Decidable (Le a b) := by unfold Le; infer_instance
instance (a b : IntVec) : Decidable (Lt a b) := by unfold Lt; infer_instance

/-- Number of points in a block of these dimensions. -/
def prod (a : IntVec) : Int := a.x * a.y * a.z

end IntVec
end SpatialOps
