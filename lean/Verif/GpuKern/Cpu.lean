import Verif.GpuKern.Lemmas

/-!
# Lemmas about the seven-point stencil on the host
-/

namespace SpatialOps
namespace GpuKern

section
variable {V : Type}

/-- A piece of program that gives the elements of `S` the values `g`. -/
def Sets (body : (Int → V) → Int → V) (S : Int → Prop) (g : Int → V) : Prop :=
  ∀ out m, (S m → body out m = g m) ∧ (¬ S m → body out m = out m)

theorem sets_loop {body : Int → (Int → V) → Int → V} {S : Int → Int → Prop} {g : Int → V} :
    ∀ (r : Nat) (i : Int), (∀ l, i ≤ l → l < i + r → Sets (body l) (S l) g) →
      Sets (forLoop body r i) (fun m => ∃ l, i ≤ l ∧ l < i + r ∧ S l m) g
  | 0, i, _ => fun out m => ⟨fun ⟨l, a, b, _⟩ => by omega, fun _ => rfl⟩
  | r + 1, i, h => by
    intro out m
    have ih := sets_loop r (i + 1) (fun l a b => h l (by omega) (by push_cast; omega)) (body i out) m
    have h0 := h i le_rfl (by push_cast; omega) out m
    simp only [forLoop]
    constructor
    · rintro ⟨l, a, b, c⟩
      by_cases hx : ∃ l, i + 1 ≤ l ∧ l < i + 1 + r ∧ S l m
      · exact ih.1 hx
      · rw [ih.2 hx]
        refine h0.1 ?_
        by_cases e : l = i
        · exact e ▸ c
        · exact absurd ⟨l, by omega, by push_cast at b; omega, c⟩ hx
    · intro hn
      rw [ih.2 fun ⟨l, a, b, c⟩ => hn ⟨l, by omega, by push_cast; omega, c⟩]
      exact h0.2 fun c => hn ⟨i, le_rfl, by push_cast; omega, c⟩

variable [Add V] [Sub V] [Mul V] [Div V] [OfNat V 2]

/-- The value of the stencil at an element, by its place in memory. -/
def stencilAt (nx ny : Int) (dxsq : V) (inp : Int → V) (m : Int) : V :=
  value dxsq (inp m) (inp (m - 1)) (inp (m + 1)) (inp (m - nx)) (inp (m + nx)) (inp (m - nx * ny)) (inp (m + nx * ny))

theorem sets_body (nx ny : Int) (dxsq : V) (inp : Int → V) (i j k : Int) :
    Sets (cpuBody nx ny dxsq inp i j k) (fun m => m = idx nx ny i j k) (stencilAt nx ny dxsq inp) := by
  intro out m
  constructor
  · rintro rfl
    simp only [cpuBody, Function.update_self, stencilAt]
    have e1 : idx nx ny (i - 1) j k = idx nx ny i j k - 1 := by unfold idx; ring
    have e2 : idx nx ny (i + 1) j k = idx nx ny i j k + 1 := by unfold idx; ring
    have e3 : idx nx ny i (j - 1) k = idx nx ny i j k - nx := by unfold idx; ring
    have e4 : idx nx ny i (j + 1) k = idx nx ny i j k + nx := by unfold idx; ring
    have e5 : idx nx ny i j (k - 1) = idx nx ny i j k - nx * ny := by unfold idx; ring
    have e6 : idx nx ny i j (k + 1) = idx nx ny i j k + nx * ny := by unfold idx; ring
    rw [e1, e2, e3, e4, e5, e6]
  · intro h
    exact Function.update_of_ne h _ _

theorem seven_eq (nx ny : Int) (h : V) (f : Int → V) (i j k : Int) :
    seven nx ny h f i j k = stencilAt nx ny (h * h) f (idx nx ny i j k) := by
  unfold seven stencilAt value
  have e1 : i - 1 + nx * (j + ny * k) = idx nx ny i j k - 1 := by unfold idx; ring
  have e2 : i + 1 + nx * (j + ny * k) = idx nx ny i j k + 1 := by unfold idx; ring
  have e3 : i + nx * (j - 1 + ny * k) = idx nx ny i j k - nx := by unfold idx; ring
  have e4 : i + nx * (j + 1 + ny * k) = idx nx ny i j k + nx := by unfold idx; ring
  have e5 : i + nx * (j + ny * (k - 1)) = idx nx ny i j k - nx * ny := by unfold idx; ring
  have e6 : i + nx * (j + ny * (k + 1)) = idx nx ny i j k + nx * ny := by unfold idx; ring
  rw [e1, e2, e3, e4, e5, e6]
  rfl

theorem sets_cpu [OfNat V 1] (small height nx ny : Int) (inp : Int → V) :
    Sets (stencil7Cpu small height nx ny inp) (fun m => ∃ i j k, Inner small small height i j k ∧ m = idx nx ny i j k)
      (stencilAt nx ny (1 * 1) inp) := by
  have h1 := fun k j => sets_loop (small - 2).toNat 1 fun i _ _ => sets_body nx ny (1 * 1) inp i j k
  have h2 := fun k => sets_loop (small - 2).toNat 1 fun j _ _ => h1 k j
  have h3 := sets_loop (height - 2).toNat 1 fun k _ _ => h2 k
  intro out m
  refine ⟨fun ⟨i, j, k, hi, e⟩ => (h3 out m).1 ?_, fun hn => (h3 out m).2 ?_⟩
  · unfold Inner at hi
    exact ⟨k, by omega, by omega, j, by omega, by omega, i, by omega, by omega, e⟩
  · rintro ⟨k, a, b, j, c, d, i, e, g, hm⟩
    exact hn ⟨i, j, k, by unfold Inner; omega, hm⟩

end
end GpuKern
end SpatialOps
