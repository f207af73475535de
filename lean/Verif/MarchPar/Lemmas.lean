import Verif.MarchPar.Model
import Verif.HeatPar.Props
import Verif.March.Lemmas

/-!
# Lemmas for time steps with threads
-/

namespace SpatialOps
namespace Heat

open Nebo Stencil

variable {n : IntVec}

section
variable {K : Type} [NatCast K] [One K] [Neg K] [Zero K] [Add K] [Sub K] [Mul K] [Div K]

/-- The list of actions is the time loop. -/
theorem march_seq {h : Dir → K} {dt : K} {F : Fields} {work work' : Nat → Dir → Nat} {bc : Nat → Mem K → Mem K} {N : Nat} {cs : List (Cmd K)}
    (hc : marchCmds h dt n F work work' bc N = .ok cs) (m : Mem K) : march h dt n F work work' bc N m = seqCmds cs m := by
  induction N generalizing cs with
  | zero =>
    unfold marchCmds at hc
    injection hc with hc
    subst hc
    rfl
  | succ N ih =>
    unfold marchCmds at hc
    obtain ⟨a, h1, hc⟩ := Outcome.bind_eq_ok.1 hc
    obtain ⟨b, h2, hc⟩ := Outcome.bind_eq_ok.1 hc
    injection hc with hc
    subst hc
    unfold march
    rw [ih h1, seqCmds_append]
    cases seqCmds a m with
    | ok m1 =>
      simp only [Outcome.ok_bind]
      show _ = seqCmds (b ++ [updateCmd dt F]) (bc N m1)
      rw [step_seq h2, seqCmds_append]
      cases seqCmds b (bc N m1) with
      | ok m2 => exact (bind_nil _).symm
      | _ => rfl
    | _ => rfl

theorem update_ready (hn : IntVec.Lt 0 n) {blk : Nat → Nat} (hs : Separate blk) {F : Fields} (hF : Built n blk F) (dt : K) :
    (updateCmd dt F).Ready n G := by
  have hT := hF.temperature
  have hr := hF.rhs
  exact put_ready hn (plane_zero n) hT ⟨good_on hT, trivial, good_on hr⟩
    (fun c c1 c2 c3 => ⟨good_defined hT (le_refl' _) c c1 c2 c3,
      inSpans_of (by unfold ghostMax; iv_omega) (by unfold ghostMax; iv_omega) c3, good_defined hr (le_refl' _) c c1 c2 c3⟩)
    ⟨indep_self _, trivial, indep_other hr hT (sep hs 6 0 (by decide) (by decide) (by decide)) 0⟩

theorem march_ready (hn : IntVec.Lt 0 n) (h : Dir → K) (dt : K) {blk : Nat → Nat} (hs : Separate blk) {F : Fields} (hF : Built n blk F)
    {work work' : Nat → Dir → Nat} (hw : ∀ k, Fresh blk (work k)) (hw' : ∀ k, Fresh blk (work' k)) (bc : Nat → Mem K → Mem K) (N : Nat) :
    ∃ cs, marchCmds h dt n F work work' bc N = .ok cs ∧ AllReady n cs := by
  induction N with
  | zero => exact ⟨[], rfl, allReady_nil⟩
  | succ N ih =>
    obtain ⟨a, h1, r1⟩ := ih
    obtain ⟨b, h2, r2⟩ := step_ready hn h hs hF (hw N) (hw' N)
    refine ⟨a ++ (.host (fun m => .ok (bc N m)) :: b ++ [updateCmd dt F]), ?_, allReady_append r1 (allReady_append
      (allReady_cons (.host fun m => ⟨_, rfl⟩) r2) (allReady_cons (update_ready hn hs hF dt) allReady_nil))⟩
    unfold marchCmds
    rw [h1, Outcome.ok_bind, h2, Outcome.ok_bind]
    rfl

end
end Heat
end SpatialOps
