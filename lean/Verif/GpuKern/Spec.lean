import Verif.GpuKern.Model

/-!
# Specification of CUDA kernels
-/

namespace SpatialOps
namespace GpuKern

section
variable {V : Type}

/-- `n` steps of a kernel, in any order. -/
inductive KRun (L : Launch) (s0 : KState V) : Nat → KState V → Prop where
  | start : KRun L s0 0 s0
  | step {n : Nat} {s s' : KState V} : KRun L s0 n s → KStep L s s' → KRun L s0 (n + 1) s'

/-- The access to memory a thread is about to make. -/
def Code.access : Code V → Option (Loc × Bool)
  | .read a _ => some (a, false)
  | .write a _ _ => some (a, true)
  | _ => none

/-- Two threads are about to access the same element, one of them to write. -/
def KState.Race (L : Launch) (s : KState V) : Prop :=
  ∃ t t' a w w', L.Valid t ∧ L.Valid t' ∧ t ≠ t' ∧ (s.code t).access = some (a, w) ∧ (s.code t').access = some (a, w') ∧
    (w = true ∨ w' = true) ∧ ((∃ i, a = .sh i) → t.b1 = t'.b1 ∧ t.b2 = t'.b2)

/-- A thread is about to access an element that does not exist. -/
def KState.Fault (L : Launch) (s : KState V) : Prop := ∃ t a w, L.Valid t ∧ (s.code t).access = some (a, w) ∧ ¬ L.Has a

/-- All threads have ended. -/
def KState.Done (L : Launch) (s : KState V) : Prop := ∀ t, L.Valid t → s.code t = .halt

/-- A cell not on the boundary. -/
def Inner (nx ny nz i j k : Int) : Prop := 1 ≤ i ∧ i < nx - 1 ∧ 1 ≤ j ∧ j < ny - 1 ∧ 1 ≤ k ∧ k < nz - 1

variable [Add V] [Sub V] [Mul V] [Div V] [OfNat V 2]

/-- The seven-point stencil at cell `(i, j, k)` of a field stored with `i` fastest, the same spacing `h` in all directions, in the order of
evaluation of the program. -/
def seven (nx ny : Int) (h : V) (f : Int → V) (i j k : Int) : V :=
  (f (i - 1 + nx * (j + ny * k)) + f (i + 1 + nx * (j + ny * k)) - 2 * f (i + nx * (j + ny * k)) +
    (f (i + nx * (j - 1 + ny * k)) + f (i + nx * (j + 1 + ny * k)) - 2 * f (i + nx * (j + ny * k))) +
    (f (i + nx * (j + ny * (k - 1))) + f (i + nx * (j + ny * (k + 1))) - 2 * f (i + nx * (j + ny * k)))) / (h * h)

/-- The same with a spacing of its own for each direction. -/
def sevenXYZ (nx ny : Int) (hx hy hz : V) (f : Int → V) (i j k : Int) : V :=
  (f (i - 1 + nx * (j + ny * k)) + f (i + 1 + nx * (j + ny * k)) - 2 * f (i + nx * (j + ny * k))) / (hx * hx) +
    (f (i + nx * (j - 1 + ny * k)) + f (i + nx * (j + 1 + ny * k)) - 2 * f (i + nx * (j + ny * k))) / (hy * hy) +
    (f (i + nx * (j + ny * (k - 1))) + f (i + nx * (j + ny * (k + 1))) - 2 * f (i + nx * (j + ny * k))) / (hz * hz)

end
end GpuKern
end SpatialOps
