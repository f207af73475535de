import Verif.Bc.Spec
import Verif.Nebo.Assign

/-!
# Lemmas: one boundary cell
-/

namespace SpatialOps
namespace Bc

open Nebo

section
variable {K : Type} [Add K] [Sub K] [Mul K] [Div K]

/-- The one-cell window of a cell in memory. -/
def cellWin (f : FieldObj) (c : IntVec) : Window := ⟨f.geo.window.npts, f.geo.interior.offset + c, ⟨1, 1, 1⟩⟩

/-- The mesh a one-cell view is on: so small that with its ghosts it is the cell. -/
def oneMesh (f : FieldObj) : IntVec :=
  ⟨1, 1, 1⟩ - f.geo.bc.hasExtra - f.geo.ghosts.minus - f.geo.ghosts.plus

theorem cell_view {f : FieldObj} {b : Nat} (hu : Usable f b) {c : IntVec} (hc : InMemory f c) :
    ∃ g, Window.make f.geo.interior.npts (f.geo.interior.offset + c) ⟨1, 1, 1⟩ = .ok (cellWin f c) ∧
      FieldGeo.windowCopy false (cellWin f c) f.geo = .ok g ∧ g.window = cellWin f c ∧
      g.ghosts = f.geo.ghosts ∧ g.bc = f.geo.bc ∧ g.validGhosts = f.geo.ghosts ∧ OnMesh (oneMesh f) g := by
  have hp := hu.pos
  unfold InMemory at hc
  have hfit : (cellWin f c).Fits := by unfold cellWin; iv_omega
  obtain ⟨g, h1, h2, h3, h4, h5⟩ := windowCopy_ok hu.ghosts hfit (by unfold cellWin; iv_omega) rfl
  refine ⟨g, ?_, h1, h2, h3, h4, h5, ⟨by rw [h2]; exact hfit, ?_, by rw [h4]; exact hu.extra, by rw [h5]; exact hu.ghosts,
    by rw [h5]; exact hu.finite, by rw [h3]; exact hu.ghosts, by rw [h3]; exact hu.finite⟩⟩
  · rw [hu.block]
    exact Window.make_ok (by unfold Window.sanityCheck; iv_omega)
  · rw [h2, h4, h5]
    unfold cellWin oneMesh
    ext <;> simp <;> omega

/-- A one-cell window outside the memory is refused. -/
theorem cell_refused {f : FieldObj} {b : Nat} (hu : Usable f b) {c : IntVec} (hc : ¬ InMemory f c) :
    Window.make f.geo.interior.npts (f.geo.interior.offset + c) ⟨1, 1, 1⟩ = .abort ∨
    (Window.make f.geo.interior.npts (f.geo.interior.offset + c) ⟨1, 1, 1⟩ = .ok (cellWin f c) ∧
      FieldGeo.windowCopy false (cellWin f c) f.geo = .abort) := by
  have hp := hu.pos
  unfold InMemory at hc
  rw [hu.block]
  by_cases h0 : IntVec.Le 0 (f.geo.interior.offset + c)
  · right
    refine ⟨Window.make_ok (by unfold Window.sanityCheck; iv_omega), ?_⟩
    unfold FieldGeo.windowCopy
    rw [GhostData.copy_ok hu.ghosts, Outcome.ok_bind, singleCheck_false, Outcome.ok_bind,
      Outcome.assert_true (by unfold cellWin Window.sanityCheck; iv_omega), Outcome.ok_bind]
    unfold cellWin
    dsimp only
    generalize f.geo.interior.offset + c = d at *
    generalize f.geo.window.npts = n at *
    by_cases hx : d.x < n.x
    · rw [Outcome.assert_true (by omega), Outcome.ok_bind]
      by_cases hy : d.y < n.y
      · rw [Outcome.assert_true (by omega), Outcome.ok_bind]
        rw [Outcome.assert_false (by iv_omega), Outcome.abort_bind]
      · rw [Outcome.assert_false (by omega), Outcome.abort_bind]
    · rw [Outcome.assert_false (by omega), Outcome.abort_bind]
  · left
    unfold Window.make
    rw [Outcome.assert_false, Outcome.abort_bind]
    unfold Window.sanityCheck
    iv_omega

theorem setCell_ok {f : FieldObj} {blk : Nat} (hu : Usable f blk) {a b : IntVec} (ha : InMemory f a)
    (hb : InMemory f b) (v ca cb : K) (m : Mem K) :
    setCell f a b v ca cb m = .ok (m.write blk (addr f a) ((v - cb * m blk (addr f b)) / ca)) := by
  obtain ⟨ga, wa, ca1, ca2, ca3, ca4, ca5, ma⟩ := cell_view hu ha
  obtain ⟨gb, wb, cb1, cb2, cb3, cb4, cb5, mb⟩ := cell_view hu hb
  unfold setCell
  dsimp only
  rw [wa, Outcome.ok_bind, wb, Outcome.ok_bind, ca1, Outcome.ok_bind, cb1, Outcome.ok_bind]
  have hG := hu.ghosts
  unfold GhostData.Valid at hG
  have hX := hu.extra
  have hM := hu.fewMinus
  have hP := hu.fewPlus
  have hA := ha
  unfold InMemory at hA
  have org : ∀ {g : FieldGeo} {c : IntVec}, g.window = cellWin f c → g.validGhosts = f.geo.ghosts →
      ∀ x, origin g + x = f.geo.interior.offset + c + (f.geo.ghosts.minus + x) := by
    intro g c h1 h2 x
    unfold origin
    rw [h1, h2]
    unfold cellWin
    ext <;> simp <;> omega
  have adr : ∀ {g : FieldGeo} {c : IntVec}, g.window = cellWin f c → g.validGhosts = f.geo.ghosts →
      cellAddr g (-f.geo.ghosts.minus) = addr f c := by
    intro g c h1 h2
    unfold cellAddr addr
    rw [org h1 h2, h1]
    unfold cellWin
    congr 1
    ext <;> simp
  generalize he : (Expr.bin (s := .num) (t := .num) (fun x y : K => x / y)
      (.bin (s := .num) (t := .num) (fun x y : K => x - y) (.scalar (t := .num) v)
        (.bin (s := .num) (t := .num) (fun x y : K => x * y) (.scalar (t := .num) cb)
          (.field { FieldWorld.copyOf f with geo := gb })))
      (.scalar (t := .num) ca) : Expr K .num) = e
  have hmem : ({ FieldWorld.copyOf f with geo := ga } : FieldObj).values = some blk := hu.mem
  have ht : Target (oneMesh f) { FieldWorld.copyOf f with geo := ga } blk := by
    refine ⟨ma, hu.cpu, hu.writable, hmem, ?_⟩
    dsimp only
    unfold origin
    rw [ca2, ca3, ca4, ca5]
    unfold cellWin oneMesh
    constructor <;> iv_omega
  have hw : e.Wf (oneMesh f) := by
    subst he
    exact ⟨⟨trivial, trivial, mb, by rw [show ({ FieldWorld.copyOf f with geo := gb } : FieldObj).values = some blk from hu.mem]; simp⟩, trivial⟩
  have hdef : e.DefinedAt (oneMesh f) (-f.geo.ghosts.minus) := by
    subst he
    have hs : IntVec.Le (-⟨ghostMax, ghostMax, ghostMax⟩) (-f.geo.ghosts.minus) ∧
        IntVec.Lt (-f.geo.ghosts.minus) (oneMesh f + ⟨ghostMax, ghostMax, ghostMax⟩) := by
      unfold oneMesh; iv_omega
    refine ⟨⟨hs, hs, ?_⟩, hs⟩
    show HasCell gb _
    unfold HasCell
    rw [org cb2 cb5, cb2]
    unfold cellWin
    iv_omega
  obtain ⟨x, x1, x2, x3, x4⟩ := add_extra hu.ghosts hu.finite hu.extra
  have hl : leafGhosts gb = .ok x := by unfold leafGhosts; rw [cb4, cb5]; exact x1
  have uv : GhostData.Valid ⟨⟨ghostMax, ghostMax, ghostMax⟩, ⟨ghostMax, ghostMax, ghostMax⟩, true⟩ := by
    unfold GhostData.Valid; decide
  obtain ⟨y, y1, y2, y3, y4⟩ := min_ok uv x2
  obtain ⟨z, z1, z2, z3, z4⟩ := min_ok uv y2
  obtain ⟨q, q1, q2, q3, q4⟩ := min_ok z2 uv
  have hpg : e.possibleGhosts = .ok q := by
    subst he
    simp only [Expr.possibleGhosts]
    rw [uniform_ok, Outcome.ok_bind, Outcome.ok_bind, hl, Outcome.ok_bind, y1, Outcome.ok_bind, z1, Outcome.ok_bind, Outcome.ok_bind, q1]
  have hxq : IntVec.Le ga.bc.hasExtra q.plus := by
    rw [ca4, q4, z4, y4, x4]
    unfold IntVec.min
    iv_omega
  have hstored : ∀ c, Stored (oneMesh f) { FieldWorld.copyOf f with geo := ga } c ↔ c = -f.geo.ghosts.minus := by
    intro c
    unfold Stored
    dsimp only
    rw [ca3, ca4]
    unfold oneMesh
    constructor
    · intro h
      ext <;> iv_omega
    · intro h
      subst h
      iv_omega
  obtain ⟨m', h1, h2, h3⟩ := sequentialAssign_exact ht hw hpg hxq true
    ⟨-f.geo.ghosts.minus, by rw [if_pos rfl]; exact ⟨(hstored _).2 rfl, hdef⟩⟩ m
  simp only [if_true] at h2 h3
  have hreg : ∀ c, (Stored (oneMesh f) { FieldWorld.copyOf f with geo := ga } c ∧ e.DefinedAt (oneMesh f) c) ↔
      c = -f.geo.ghosts.minus := by
    intro c
    rw [hstored]
    constructor
    · exact fun h => h.1
    · intro h; subst h; exact ⟨rfl, hdef⟩
  unfold Nebo.assign
  rw [h1]
  congr 1
  obtain ⟨mm, hmm, hval⟩ := h2 _ ((hreg _).2 rfl)
  have hmm' : mm = m := by
    funext bk i
    refine (hmm bk i).2 ?_
    rintro ⟨-, c', hr, hlt, -⟩
    rw [(hreg c').1 hr] at hlt
    unfold FortranLt at hlt
    omega
  rw [hmm'] at hval
  rw [adr ca2 ca5] at hval
  funext bk i
  unfold Mem.write
  by_cases hbi : bk = blk ∧ i = addr f a
  · rw [if_pos hbi, hbi.1, hbi.2, hval]
    subst he
    simp only [Expr.value2]
    rw [adr cb2 cb5, show ({ FieldWorld.copyOf f with geo := gb } : FieldObj).values = some blk from hu.mem]
    rfl
  · rw [if_neg hbi]
    apply h3
    by_cases hbk : bk = blk
    · right
      intro c hc hca
      apply hbi
      refine ⟨hbk, ?_⟩
      rw [(hreg c).1 hc] at hca
      rw [adr ca2 ca5] at hca
      exact hca.symm
    · exact .inl hbk

theorem setCell_refused {f : FieldObj} {blk : Nat} (hu : Usable f blk) {a b : IntVec}
    (h : ¬ (InMemory f a ∧ InMemory f b)) (v ca cb : K) (m : Mem K) :
    setCell f a b v ca cb m = .abort := by
  unfold setCell
  dsimp only
  by_cases ha : InMemory f a
  · have hb : ¬ InMemory f b := fun hb => h ⟨ha, hb⟩
    obtain ⟨ga, wa, ca1, -⟩ := cell_view hu ha
    rw [wa, Outcome.ok_bind]
    rcases cell_refused hu hb with h1 | ⟨h1, h2⟩
    · rw [h1, Outcome.abort_bind]
    · rw [h1, Outcome.ok_bind, ca1, Outcome.ok_bind, h2, Outcome.abort_bind]
  · rcases cell_refused hu ha with h1 | ⟨h1, h2⟩
    · rw [h1, Outcome.abort_bind]
    · rw [h1, Outcome.ok_bind]
      by_cases hb : InMemory f b
      · obtain ⟨gb, wb, -⟩ := cell_view hu hb
        rw [wb, Outcome.ok_bind, h2, Outcome.abort_bind]
      · rcases cell_refused hu hb with h3 | ⟨h3, h4⟩
        · rw [h3, Outcome.abort_bind]
        · rw [h3, Outcome.ok_bind, h2, Outcome.abort_bind]

end

end Bc
end SpatialOps
