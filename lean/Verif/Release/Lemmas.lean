import Verif.Release.Spec
import Verif.Nebo.Safe

/-!
# Lemmas: the checks change nothing but refusals
-/

namespace SpatialOps
namespace Rel
open Nebo

/-! ## The relation `Same` -/

theorem same_refl {α : Type} (d : Outcome α) : Same d d := fun _ h => h

theorem same_bind {α β : Type} {d r : Outcome α} {f g : α → Outcome β} (h : Same d r)
    (hf : ∀ a, d = .ok a → Same (f a) (g a)) : Same (d >>= f) (r >>= g) := by
  intro b hb
  obtain ⟨a, ha, hb⟩ := Outcome.bind_eq_ok.1 hb
  rw [h a ha, Outcome.ok_bind]
  exact hf a ha b hb

theorem same_assert {β : Type} {p : Prop} [Decidable p] {f : Unit → Outcome β} {r : Outcome β}
    (h : p → Same (f ()) r) : Same (Outcome.assert p >>= f) r := by
  intro b hb
  by_cases hp : p
  · rw [Outcome.assert_true hp, Outcome.ok_bind] at hb; exact h hp b hb
  · rw [Outcome.assert_false hp] at hb; cases hb

theorem same_throwIf {β : Type} {p : Prop} [Decidable p] {f : Unit → Outcome β} {r : Outcome β}
    (h : ¬ p → Same (f ()) r) : Same (Outcome.throwIf p >>= f) r := by
  intro b hb
  by_cases hp : p
  · rw [Outcome.throwIf_true hp] at hb; cases hb
  · rw [Outcome.throwIf_false hp, Outcome.ok_bind] at hb; exact h hp b hb

theorem same_ub {β : Type} {p : Prop} [Decidable p] {f : Unit → Outcome β} {r : Outcome β}
    (h : p → Same (f ()) r) : Same (Outcome.ubUnless p >>= f) r := by
  intro b hb
  by_cases hp : p
  · rw [Outcome.ubUnless_true hp, Outcome.ok_bind] at hb; exact h hp b hb
  · rw [Outcome.ubUnless_false hp] at hb; cases hb

/-- The release build computes a value without any check. -/
theorem same_pure_bind {α β : Type} {d : Outcome α} {x : α} {f : α → Outcome β} {r : Outcome β}
    (h : Same d (.ok x)) (hf : Same (f x) r) : Same (d >>= f) r := by
  intro b hb
  obtain ⟨a, ha, hb⟩ := Outcome.bind_eq_ok.1 hb
  have := h a ha
  injection this with this
  subst this
  exact hf b hb

/-! ## Ghosts, windows, fields -/

theorem same_make (a b c : IntVec) : Same (Window.make a b c) (.ok (makeWindow a b c)) :=
  same_assert fun _ => same_refl _

theorem same_ghostMake (a b : IntVec) : Same (GhostData.make a b) (.ok (ghostMake a b)) :=
  same_assert fun _ => same_refl _

theorem same_copy (g : GhostData) : Same g.copy (.ok g) := same_assert fun _ => same_refl _

theorem same_sub (g q : GhostData) : Same (g.sub q) (ghostSub g q) := by
  unfold GhostData.sub GhostData.subAssign ghostSub
  refine same_pure_bind (same_copy g) ?_
  intro b hb
  obtain ⟨r, hr, hb⟩ := Outcome.bind_eq_ok.1 hb
  have h2 := same_copy r b hb
  injection h2 with h2
  subst h2
  revert hr
  exact same_bind (same_refl _) (fun _ _ => same_assert fun _ => same_refl _) r

theorem same_add (g q : GhostData) : Same (g.add q) (.ok (ghostAdd g q)) := by
  unfold GhostData.add GhostData.addAssign ghostAdd
  refine same_pure_bind (same_copy g) ?_
  intro b hb
  obtain ⟨r, hr, hb⟩ := Outcome.bind_eq_ok.1 hb
  have h2 := same_copy r b hb
  injection h2 with h2
  subst h2
  split at hr
  · rename_i h; rw [if_pos h]; exact hr
  · rename_i h
    rw [if_neg h]
    split at hr
    · rename_i h'; rw [if_pos h']; exact same_copy q r hr
    · rename_i h'
      rw [if_neg h']
      exact same_assert (fun _ => same_refl _) r hr

theorem same_min (a b : GhostData) : Same (GhostData.min a b) (.ok (ghostMin a b)) := same_ghostMake _ _

theorem same_ptg (p : IntVec) : Same (GhostData.pointToGhost p) (.ok (pointToGhost p)) := same_ghostMake _ _

theorem same_windowCopy (single : Bool) (w : Window) (f : FieldGeo) :
    Same (f.windowCopy single w) (.ok (windowCopy w f)) := by
  unfold FieldGeo.windowCopy
  refine same_pure_bind (same_copy _) ?_
  unfold FieldGeo.singleValueCheck
  intro b hb
  obtain ⟨_, _, hb⟩ := Outcome.bind_eq_ok.1 hb
  revert hb
  exact same_assert (fun _ => same_assert fun _ => same_assert fun _ => same_assert fun _ => same_refl _) b

theorem same_ctor (single : Bool) (w : Window) (bc : BcInfo) (g : GhostData) :
    Same (FieldGeo.ctor single w bc g) (.ok (ctor w bc g)) := by
  unfold FieldGeo.ctor
  refine same_pure_bind (same_copy _) ?_
  intro b hb
  obtain ⟨_, _, hb⟩ := Outcome.bind_eq_ok.1 hb
  revert hb
  exact same_pure_bind (same_make _ _ _) (same_refl _) b

theorem same_reset (f : FieldGeo) (g : GhostData) : Same (f.resetValidGhosts g) (.ok (resetValidGhosts f g)) :=
  same_pure_bind (same_make _ _ _) (same_pure_bind (same_copy _) (same_refl _))

theorem same_reshape (single : Bool) (f : FieldGeo) (a b : IntVec) :
    Same (f.reshape single a b) (.ok (reshape f a b)) :=
  same_pure_bind (same_make _ _ _) (same_windowCopy _ _ _)

theorem same_resizeShift (f : FieldGeo) (a b s : IntVec) :
    Same (Nebo.resizeGhostAndShift f a b s) (.ok (resizeGhostAndShift f a b s)) :=
  same_pure_bind (same_reshape false _ _ _) (same_reshape false _ _ _)

theorem same_store (single : Bool) (w : Window) (bc : BcInfo) (g : GhostData) :
    Same (SpatialOps.storeFromWindow single w bc g) (.ok (storeFromWindow w bc g)) :=
  same_pure_bind (same_make _ _ _) (same_assert fun _ => same_pure_bind (same_ctor _ _ _ _) (same_refl _))

theorem same_ijk (d l : IntVec) : Same (SpatialOps.ijkToFlat d l) (.ok (ijkToFlat d l)) :=
  same_assert fun _ => same_assert fun _ => same_refl _

theorem same_flatToIjk (d : IntVec) (p : Int) : Same (SpatialOps.flatToIjk d p) (flatToIjk d p) := by
  refine same_assert fun h0 => same_assert fun h1 => ?_
  unfold flatToIjk
  rw [Outcome.ubUnless_true ⟨fun h => by rw [h] at h1; simp at h1; omega, fun h => by rw [h] at h1; simp at h1; omega⟩]
  exact same_refl _

theorem same_flatIndex (w : Window) (l : IntVec) : Same (w.flatIndex l) (.ok (flatIndex w l)) :=
  same_assert fun _ => same_assert fun _ => same_assert fun _ => same_ijk _ _

theorem same_refine (w : Window) (s l : IntVec) : Same (w.refine s l) (refine w s l) := by
  refine same_assert fun hx => same_assert fun hy => same_assert fun hz => ?_
  unfold refine
  unfold Window.refineOk1 at hx hy hz
  rw [Outcome.ubUnless_true ⟨by omega, by omega, by omega⟩]
  exact same_make _ _ _

theorem same_callC (f : FieldObj) (i : IntVec) : Same (f.callC i) (callC f i) := by
  unfold FieldObj.callC callC
  refine same_bind (same_refl _) fun _ _ => same_assert fun _ => same_pure_bind (same_flatIndex _ _) ?_
  exact same_refl _

theorem same_callM (f : FieldObj) (i : IntVec) : Same (f.callM i) (callM f i) := by
  unfold FieldObj.callM callM
  refine same_bind (same_refl _) fun _ _ => same_bind (same_refl _) fun _ _ => same_assert fun _ =>
    same_pure_bind (same_flatIndex _ _) ?_
  exact same_refl _

/-! ## Masks -/

theorem same_findPosition (m : BitField) (p : IntVec) : Same (m.findPosition p) (.ok (findPosition m p)) :=
  same_assert fun _ => same_assert fun _ => same_assert fun _ => same_assert fun _ => same_assert fun _ =>
    same_assert fun _ => same_refl _

theorem same_addPoint (m : BitField) (p : IntVec) : Same (m.addPoint p) (addPoint m p) :=
  same_pure_bind (same_findPosition m p) (same_refl _)

theorem same_addPoints (ps : List IntVec) : ∀ m : BitField, Same (m.addPoints ps) (addPoints m ps) := by
  induction ps with
  | nil => exact fun m => same_refl _
  | cons p ps ih => exact fun m => same_bind (same_addPoint m p) fun m' _ => ih m'

theorem same_spatialMask (f : FieldGeo) (ps : List IntVec) :
    Same (SpatialOps.spatialMask f ps) (spatialMask f ps) :=
  same_pure_bind (same_copy _) (same_addPoints ps _)

theorem same_query (m : BitField) (p : IntVec) : Same (m.query p) (query m p) :=
  same_pure_bind (same_findPosition m p) (same_refl _)

/-! ## Expressions -/

theorem same_eval {V : Type} (m : Mem V) : {t : Ty} → (w : Walk V t) → Same (w.eval m) (eval m w)
  | _, .const v => same_refl _
  | _, .field b n i e => by
    simp only [Walk.eval, eval]
    unfold It.deref
    refine same_pure_bind (x := i.current) (same_throwIf fun _ => same_throwIf fun _ => same_refl _) (same_refl _)
  | _, .mask bits i e => by
    simp only [Walk.eval, eval]
    unfold MaskIt.deref maskDeref
    intro b hb
    obtain ⟨v, hv, hb⟩ := Outcome.bind_eq_ok.1 hb
    revert hb
    refine same_ub (fun hblk => ?_) b
    revert hv
    intro hv
    have h1 : ¬ (i.bit < 0 ∨ 32 ≤ i.bit) := by
      intro h; rw [Outcome.throwIf_true h] at hv; cases hv
    rw [Outcome.throwIf_false h1, Outcome.ok_bind] at hv
    have h2 : ¬ (i.block < 0 ∨ i.size ≤ i.block) := by
      intro h; rw [Outcome.throwIf_true h] at hv; cases hv
    rw [Outcome.throwIf_false h2, Outcome.ok_bind] at hv
    rw [Outcome.ubUnless_true (by omega), Outcome.ok_bind]
    have := same_throwIf (fun _ => same_throwIf fun _ => same_refl _) v hv
    intro c hc
    rw [← hc]
    exact this
  | _, .un op a => same_bind (same_eval m a) fun _ _ => same_refl _
  | _, .bin op a b => same_bind (same_eval m a) fun _ _ => same_bind (same_eval m b) fun _ _ => same_refl _
  | _, .and a b => by
    refine same_bind (same_eval m a) fun x _ => ?_
    cases x with
    | true => exact same_eval m b
    | false => exact same_refl _
  | _, .or a b => by
    refine same_bind (same_eval m a) fun x _ => ?_
    cases x with
    | true => exact same_refl _
    | false => exact same_eval m b
  | _, .cond c a b => by
    refine same_bind (same_eval m c) fun x _ => ?_
    cases x with
    | true => exact same_eval m a
    | false => exact same_eval m b

theorem same_shrink (g : GhostData) (p : IntVec) : Same (Nebo.shrink g p) (shrink g p) :=
  same_pure_bind (same_ptg p) (same_sub _ _)

theorem same_min_bind {d d' r r' : Outcome GhostData} (h : Same d r) (h' : Same d' r') :
    Same (d >>= fun x => d' >>= fun y => GhostData.min x y) (r >>= fun x => r' >>= fun y => .ok (ghostMin x y)) :=
  same_bind h fun _ _ => same_bind h' fun _ _ => same_min _ _

theorem same_ptsGhosts {α : Type} (pt : α → IntVec) (g : GhostData) : (pts : Pts α) →
    Same (pts.possibleGhosts pt g) (ptsGhosts pt g pts)
  | .one a => same_shrink g (pt a)
  | .more e a => same_min_bind (same_shrink g (pt a)) (same_ptsGhosts pt g e)

theorem same_leaf (f : FieldGeo) : Same (leafGhosts f) (.ok (ghostAdd f.validGhosts (pointToGhost f.bc.hasExtra))) :=
  same_pure_bind (same_ptg _) (same_add _ _)

theorem same_possibleGhosts {V : Type} : {t : Ty} → (e : Expr V t) → Same e.possibleGhosts (possibleGhosts e)
  | _, .scalar _ => same_ghostMake _ _
  | _, .field f => same_leaf _
  | _, .single _ => same_ghostMake _ _
  | _, .mask m => same_leaf _
  | _, .maskShift p a => same_bind (same_possibleGhosts a) fun _ _ => same_shrink _ _
  | _, .un _ a => same_possibleGhosts a
  | _, .bin _ a b => same_min_bind (same_possibleGhosts a) (same_possibleGhosts b)
  | _, .and a b => same_min_bind (same_possibleGhosts a) (same_possibleGhosts b)
  | _, .or a b => same_min_bind (same_possibleGhosts a) (same_possibleGhosts b)
  | _, .cond c a b => by
    refine same_bind (same_possibleGhosts c) fun _ _ => same_bind (same_possibleGhosts a) fun _ _ => ?_
    exact same_pure_bind (same_min _ _) (same_bind (same_possibleGhosts b) fun _ _ => same_min _ _)
  | _, .stencil pts a => same_bind (same_possibleGhosts a) fun _ _ => same_ptsGhosts _ _ _
  | _, .sumStencil pts a => same_bind (same_possibleGhosts a) fun _ _ => same_ptsGhosts _ _ _

theorem same_construct {V α : Type} [Add V] {f g : α → Outcome (Walk V .num)} (h : ∀ a, Same (f a) (g a)) :
    (pts : Pts α) → Same (pts.construct f) (pts.construct g)
  | .one a => h a
  | .more e a => same_bind (same_construct h e) fun _ _ => same_bind (h a) fun _ _ => same_refl _

theorem same_init {V : Type} [Add V] [Mul V] (red : Bool) (m : Mem V) (minus plus : IntVec) :
    {t : Ty} → (e : Expr V t) → (s : IntVec) → Same (e.init red m minus plus s) (init red m minus plus e s)
  | _, .scalar v, _ => same_refl _
  | _, .field f, s => same_pure_bind (same_resizeShift _ _ _ _) (same_refl _)
  | _, .single f, _ => same_refl _
  | _, .mask k, s => same_pure_bind (same_resizeShift _ _ _ _) (same_refl _)
  | _, .maskShift p a, s => same_init red m minus plus a _
  | _, .un op a, s => same_bind (same_init red m minus plus a s) fun _ _ => same_refl _
  | _, .bin op a b, s => same_bind (same_init red m minus plus a s) fun _ _ =>
      same_bind (same_init red m minus plus b s) fun _ _ => same_refl _
  | _, .and a b, s => same_bind (same_init red m minus plus a s) fun _ _ =>
      same_bind (same_init red m minus plus b s) fun _ _ => same_refl _
  | _, .or a b, s => same_bind (same_init red m minus plus a s) fun _ _ =>
      same_bind (same_init red m minus plus b s) fun _ _ => same_refl _
  | _, .cond c a b, s => same_bind (same_init red m minus plus c s) fun _ _ =>
      same_bind (same_init red m minus plus a s) fun _ _ =>
      same_bind (same_init red m minus plus b s) fun _ _ => same_refl _
  | _, .stencil pts a, s => by
    simp only [Expr.init, init]
    refine same_construct (fun pc => ?_) pts
    exact same_bind (same_init red m minus plus a (s + pc.1)) fun _ _ => same_refl _
  | _, .sumStencil pts a, s => same_construct (fun p => same_init red m minus plus a (s + p)) pts

theorem same_calc (u : Bool) (g : GhostData) (bc : BcInfo) (r : GhostData) :
    Same (Nebo.calcValidGhost u g bc r) (calcValidGhost u g bc r) := by
  unfold Nebo.calcValidGhost calcValidGhost
  refine same_bind (same_refl _) fun _ _ => same_bind (same_refl _) fun _ _ => same_bind (same_refl _) fun _ _ =>
    same_pure_bind (same_ptg _) (same_pure_bind (same_add _ _) ?_)
  cases u with
  | true => exact same_min _ _
  | false => exact same_ghostMake _ _

theorem same_calcLhs (g : GhostData) (bc : BcInfo) :
    Same (Nebo.calcValidLhsGhost g bc) (calcValidLhsGhost g bc) :=
  same_pure_bind (same_ptg _) (same_sub _ _)

/-! ## Loops -/

theorem andThen_ok {α R : Type} (a : α) (k : α → Option (Outcome R)) : andThen (.ok a) k = k a := rfl

/-- The loop of the release build follows the loop of the debug build as long as that one accepts. -/
theorem assignLoop_same {V : Type} (base : Option Nat) (size : Int) (e : It) (fuel : Nat) :
    ∀ (i : It) (w : Walk V .num) (m : Mem V) (r : Mem V × Walk V .num),
      forIt (assignBody base size) fuel i e (m, w) = .ok r →
      ∀ trips, fuel ≤ trips → assignLoop base size e trips i w m = some (.ok r.1) := by
  induction fuel with
  | zero =>
    intro i w m r h trips _
    unfold forIt at h
    unfold assignLoop
    cases he : i.eqOp e with
    | true => rw [he, if_pos rfl] at h; injection h with h; rw [if_pos rfl, ← h]
    | false => rw [he, if_neg (by simp)] at h; cases h
  | succ fuel ih =>
    intro i w m r h trips ht
    unfold forIt at h
    unfold assignLoop
    cases he : i.eqOp e with
    | true => rw [he, if_pos rfl] at h; injection h with h; rw [if_pos rfl, ← h]
    | false =>
      rw [he, if_neg (by simp)] at h
      rw [if_neg (by simp)]
      obtain ⟨k, rfl⟩ : ∃ k, trips = k + 1 := ⟨trips - 1, by omega⟩
      dsimp only at h ⊢
      obtain ⟨s, hs, h⟩ := Outcome.bind_eq_ok.1 h
      unfold assignBody at hs
      obtain ⟨v, hv, hs⟩ := Outcome.bind_eq_ok.1 hs
      obtain ⟨m1, hm, hs⟩ := Outcome.bind_eq_ok.1 hs
      injection hs with hs
      subst hs
      rw [same_eval m w v hv, andThen_ok]
      unfold store at hm
      obtain ⟨a, ha, hm⟩ := Outcome.bind_eq_ok.1 hm
      obtain ⟨blk, hb, hm⟩ := Outcome.bind_eq_ok.1 hm
      have hc : (Outcome.ok i.current : Outcome Int) = .ok a :=
        same_throwIf (fun _ => same_throwIf fun _ => same_refl _) a ha
      injection hc with hc
      subst hc
      injection hm with hm
      subst hm
      rw [hb, andThen_ok]
      exact ih _ _ _ r h k (by omega)

theorem sameLoop_andThen {α β : Type} {d r : Outcome α} {f : α → Outcome β} {g : α → Nat → Option (Outcome β)}
    (h : Same d r) (hf : ∀ a, d = .ok a → SameLoop (f a) (g a)) :
    SameLoop (d >>= f) (fun t => andThen r fun a => g a t) := by
  intro b hb
  obtain ⟨a, ha, hb⟩ := Outcome.bind_eq_ok.1 hb
  obtain ⟨k, hk⟩ := hf a ha b hb
  refine ⟨k, fun t ht => ?_⟩
  dsimp only
  rw [h a ha, andThen_ok]
  exact hk t ht

theorem sameLoop_pure {α β : Type} {d : Outcome α} {x : α} {f : α → Outcome β} {g : Nat → Option (Outcome β)}
    (h : Same d (.ok x)) (hf : SameLoop (f x) g) : SameLoop (d >>= f) g := by
  intro b hb
  obtain ⟨a, ha, hb⟩ := Outcome.bind_eq_ok.1 hb
  have := h a ha
  injection this with this
  subst this
  exact hf b hb

theorem walkAssign_same {V : Type} (l : FieldObj) (w : Walk V .num) (m : Mem V) :
    SameLoop (Nebo.walkAssign l w m) (walkAssign l w m) := by
  unfold Nebo.walkAssign
  refine sameLoop_andThen (same_refl _) fun b _ => sameLoop_andThen (same_refl _) fun e _ => ?_
  intro r hr
  obtain ⟨s, hs, hr⟩ := Outcome.bind_eq_ok.1 hr
  injection hr with hr
  subst hr
  exact ⟨_, fun t ht => assignLoop_same _ _ _ _ _ _ _ _ hs t ht⟩

theorem sequentialAssign_same {V : Type} [Add V] [Mul V] (u : Bool) (l : FieldObj) (e : Expr V .num) (m : Mem V) :
    SameLoop (Nebo.sequentialAssign u l e m) (sequentialAssign u l e m) := by
  unfold Nebo.sequentialAssign
  refine sameLoop_andThen (same_possibleGhosts e) fun pg _ => sameLoop_andThen (same_calc _ _ _ _) fun rg _ =>
    sameLoop_andThen (same_calcLhs _ _) fun lg _ => sameLoop_pure (same_ghostMake _ _)
      (sameLoop_pure (same_reset _ _) ?_)
  exact sameLoop_andThen (same_init _ _ _ _ e 0) fun w _ => walkAssign_same _ _ _

theorem foldLoop_same {V R : Type} (proc : R → V → R) (m : Mem V) (trips : Nat) :
    ∀ (w : Walk V .num) (r : R) (a : R), Nebo.foldLoop proc m trips w r = some (.ok a) →
      foldLoop proc m trips w r = some (.ok a) := by
  induction trips with
  | zero =>
    intro w r a h
    unfold Nebo.foldLoop at h
    unfold foldLoop
    split at h
    · rename_i he; rw [if_pos he]; exact h
    · cases h
  | succ k ih =>
    intro w r a h
    unfold Nebo.foldLoop at h
    unfold foldLoop
    split at h
    · rename_i he; rw [if_pos he]; exact h
    · rename_i he
      rw [if_neg he]
      dsimp only at h ⊢
      cases hv : w.eval m with
      | ok v => rw [hv] at h; rw [same_eval m w v hv, andThen_ok]; exact ih _ _ _ h
      | abort => rw [hv] at h; cases h
      | throws => rw [hv] at h; cases h
      | ub => rw [hv] at h; cases h

theorem andThen_same {α R : Type} {d r : Outcome α} {f g : α → Option (Outcome R)} (h : Same d r)
    (hf : ∀ a b, f a = some (.ok b) → g a = some (.ok b)) (b : R) (hb : andThen d f = some (.ok b)) :
    andThen r g = some (.ok b) := by
  cases d with
  | ok a => rw [h a rfl]; exact hf a b hb
  | abort => cases hb
  | throws => cases hb
  | ub => cases hb

theorem reduceLoop_same {V : Type} (proc : V → V → V) (m : Mem V) (w : Walk V .num) (trips : Nat) (a : V)
    (h : Nebo.reduceLoop proc m w trips = some (.ok a)) : reduceLoop proc m w trips = some (.ok a) :=
  andThen_same (same_eval m w) (fun _ _ h => foldLoop_same proc m trips _ _ _ h) a h

/-! ## Particles -/

section
variable {K : Type} [Field K] [LinearOrder K] [FloorRing K]
open Particle

theorem same_start (o : Particle.Op K) (n : Nat) (p : Drop K) : Same (o.start n p) (opStart o p) :=
  same_bind (same_refl _) fun _ _ => same_throwIf fun _ => same_refl _

theorem same_toCells (o : Particle.Op K) : (ps : List (Drop K × K)) → (d : Line K) → Same (o.toCells ps d) (toCells o ps d)
  | [], _ => same_refl _
  | (p, _) :: ps, d => same_bind (same_start o d.n p) fun _ _ => same_bind (same_refl _) fun d' _ =>
      same_toCells o ps d'

theorem same_cellToParticle (o : Particle.Op K) (src : Line K) : (ps : List (Drop K)) →
    Same (o.cellToParticle src ps) (cellToParticle o src ps)
  | [] => same_refl _
  | p :: ps => same_bind (same_start o src.n p) fun _ _ => same_bind (same_refl _) fun _ _ =>
      same_bind (same_cellToParticle o src ps) fun _ _ => same_refl _

end

/-! ## Reading the same, storing the same -/

theorem value_reads {V : Type} [Add V] [Mul V] {n : IntVec} {m1 m2 : Mem V} : {t : Ty} → (e : Expr V t) → e.Wf n →
    (c : IntVec) → (∀ blk a, Reads e c blk a → m1 blk a = m2 blk a) → e.value m1 c = e.value m2 c
  | _, .scalar _, _, _, _ => rfl
  | _, .mask _, _, _, _ => rfl
  | _, .field f, hw, c, h => by
    obtain ⟨b, hb⟩ := Option.ne_none_iff_exists'.1 hw.2
    simp only [Expr.value, hb, Option.getD_some]
    exact h _ _ ⟨hb, rfl⟩
  | _, .single f, hw, c, h => by
    obtain ⟨b, hb⟩ := Option.ne_none_iff_exists'.1 hw.1
    simp only [Expr.value, hb, Option.getD_some]
    exact h _ _ ⟨hb, rfl⟩
  | _, .maskShift p a, hw, c, h => value_reads a hw (c + p) h
  | _, .un op a, hw, c, h => congrArg op (value_reads a hw c h)
  | _, .bin op a b, hw, c, h => by
    simp only [Expr.value]
    rw [value_reads a hw.1 c fun _ _ r => h _ _ (.inl r), value_reads b hw.2 c fun _ _ r => h _ _ (.inr r)]
  | _, .and a b, hw, c, h => by
    simp only [Expr.value]
    rw [value_reads a hw.1 c fun _ _ r => h _ _ (.inl r), value_reads b hw.2 c fun _ _ r => h _ _ (.inr r)]
  | _, .or a b, hw, c, h => by
    simp only [Expr.value]
    rw [value_reads a hw.1 c fun _ _ r => h _ _ (.inl r), value_reads b hw.2 c fun _ _ r => h _ _ (.inr r)]
  | _, .cond t a b, hw, c, h => by
    simp only [Expr.value]
    rw [value_reads t hw.1 c fun _ _ r => h _ _ (.inl r), value_reads a hw.2.1 c fun _ _ r => h _ _ (.inr (.inl r)),
      value_reads b hw.2.2 c fun _ _ r => h _ _ (.inr (.inr r))]
  | _, .stencil pts a, hw, c, h => by
    simp only [Expr.value]
    apply pts_sum_congr
    intro q hq
    rw [value_reads a hw (c + q.1) fun _ _ r => h _ _ ⟨q, hq, r⟩]
  | _, .sumStencil pts a, hw, c, h => by
    simp only [Expr.value]
    apply pts_sum_congr
    intro q hq
    rw [value_reads a hw (c + q) fun _ _ r => h _ _ ⟨q, hq, r⟩]

/-! ## What the release build does when ghosts are missing -/

theorem ptg_rel (p : IntVec) : pointToGhost p = ⟨np p, pp p, false⟩ := by
  have := same_ptg p _ (ptg_eq p)
  injection this

theorem shrink_rel (g : GhostData) (p : IntVec) :
    shrink g p = .ok { g with minus := g.minus - np p, plus := g.plus - pp p } := by
  unfold shrink ghostSub
  rw [ptg_rel, Outcome.throwIf_false (by simp)]
  rfl

theorem add_rel {g : GhostData} (hf : g.isInf = false) {e : IntVec} (he : IntVec.Le 0 e) :
    (ghostAdd g (pointToGhost e)).minus = g.minus ∧ (ghostAdd g (pointToGhost e)).plus = g.plus + e := by
  unfold ghostAdd
  rw [ptg_rel, if_neg (by simp [hf]), if_neg (by simp)]
  obtain ⟨e1, e2⟩ := np_of_nonneg he
  dsimp only
  rw [e1, e2]
  exact ⟨by ext <;> simp, rfl⟩

/-- `o` gives the box of the cells `d`. -/
def Boxed (n : IntVec) (d : IntVec → Prop) (o : Outcome GhostData) : Prop :=
  ∃ g, o = .ok g ∧ ∀ c, d c ↔ InBox n g.minus g.plus c

theorem boxed_congr {n : IntVec} {d d' : IntVec → Prop} {o : Outcome GhostData} (h : ∀ c, d c ↔ d' c)
    (hb : Boxed n d o) : Boxed n d' o := by
  obtain ⟨g, h1, h2⟩ := hb
  exact ⟨g, h1, fun c => (h c).symm.trans (h2 c)⟩

theorem boxed_min {n : IntVec} {d d' : IntVec → Prop} {o o' : Outcome GhostData} (h : Boxed n d o)
    (h' : Boxed n d' o') :
    Boxed n (fun c => d c ∧ d' c) (o >>= fun x => o' >>= fun y => .ok (ghostMin x y)) := by
  obtain ⟨x, rfl, hx⟩ := h
  obtain ⟨y, rfl, hy⟩ := h'
  refine ⟨ghostMin x y, rfl, fun c => ?_⟩
  show _ ↔ InBox n (x.minus.min y.minus) (x.plus.min y.plus) c
  rw [inBox_min]
  exact and_congr (hx c) (hy c)

theorem boxed_shrink {n : IntVec} {d : IntVec → Prop} {g : GhostData}
    (hb : ∀ c, d c ↔ InBox n g.minus g.plus c) (p : IntVec) :
    Boxed n (fun c => d c ∧ d (c + p)) (shrink g p) := by
  refine ⟨_, shrink_rel g p, fun c => ?_⟩
  dsimp only
  rw [inBox_shrink]
  exact and_congr (hb c) (hb _)

theorem boxed_pts {α : Type} {n : IntVec} {d : IntVec → Prop} {g : GhostData} (pt : α → IntVec)
    (hb : ∀ c, d c ↔ InBox n g.minus g.plus c) : (pts : Pts α) →
    Boxed n (fun c => pts.All fun a => d c ∧ d (c + pt a)) (ptsGhosts pt g pts)
  | .one a => boxed_congr (fun _ => Pts.all_one.symm) (boxed_shrink hb (pt a))
  | .more e a => boxed_congr (fun c => by rw [Pts.all_more]; exact And.comm)
      (boxed_min (boxed_shrink hb (pt a)) (boxed_pts pt hb e))

theorem boxed_leaf {n : IntVec} {f : FieldGeo} (hf : OnMesh n f) :
    Boxed n (HasCell f) (.ok (ghostAdd f.validGhosts (pointToGhost f.bc.hasExtra))) := by
  obtain ⟨h1, h2⟩ := add_rel hf.finite hf.extra
  refine ⟨_, rfl, fun c => ?_⟩
  rw [h1, h2, hasCell_iff hf]

/-- In the release build the cells at which an expression has a value are always found. -/
theorem boxed {V : Type} {n : IntVec} : {t : Ty} → (e : Expr V t) → e.Wf n → Boxed n (e.DefinedAt n) (possibleGhosts e)
  | _, .scalar _, _ => ⟨_, rfl, fun _ => Iff.rfl⟩
  | _, .single _, _ => ⟨_, rfl, fun _ => Iff.rfl⟩
  | _, .field f, h => boxed_leaf h.1
  | _, .mask m, h => boxed_leaf h.1
  | _, .maskShift p a, h => by
    obtain ⟨g, h1, h2⟩ := boxed a h
    simp only [possibleGhosts]
    rw [h1, Outcome.ok_bind]
    exact boxed_shrink h2 p
  | _, .un _ a, h => boxed a h
  | _, .bin _ a b, h => boxed_min (boxed a h.1) (boxed b h.2)
  | _, .and a b, h => boxed_min (boxed a h.1) (boxed b h.2)
  | _, .or a b, h => boxed_min (boxed a h.1) (boxed b h.2)
  | _, .cond c a b, h => by
    have := boxed_min (boxed_min (boxed c h.1) (boxed a h.2.1)) (boxed b h.2.2)
    obtain ⟨x, h1, -⟩ := boxed c h.1
    obtain ⟨y, h2, -⟩ := boxed a h.2.1
    obtain ⟨z, h3, -⟩ := boxed b h.2.2
    simp only [possibleGhosts]
    rw [h1, h2, h3] at this
    rw [h1, h2, h3]
    exact boxed_congr (fun c => and_assoc) this
  | _, .stencil pts a, h => by
    obtain ⟨g, h1, h2⟩ := boxed a h
    simp only [possibleGhosts]
    rw [h1, Outcome.ok_bind]
    exact boxed_pts Prod.fst h2 pts
  | _, .sumStencil pts a, h => by
    obtain ⟨g, h1, h2⟩ := boxed a h
    simp only [possibleGhosts]
    rw [h1, Outcome.ok_bind]
    exact boxed_pts id h2 pts

/-- `<<=` of the release build when the destination has no boundary cells: it stores wherever it can. -/
theorem assign_where_defined {V : Type} [Add V] [Mul V] {n : IntVec} {l : FieldObj} {b : Nat} (ht : Target n l b)
    (hbc : l.geo.bc.isbc = 0) {e : Expr V .num} (he : e.Wf n) (hi : e.Independent l 0)
    (hne : ∃ c, Stored n l c ∧ e.DefinedAt n c) (m : Mem V) :
    ∃ m', (∃ k, ∀ trips, k ≤ trips → assign l e m trips = some (.ok m')) ∧
      Assigned l b e (fun c => Stored n l c ∧ e.DefinedAt n c) m m' := by
  obtain ⟨pg, hpg, hbox⟩ := boxed e he
  have hx : l.geo.bc.hasExtra = 0 := by unfold BcInfo.hasExtra; rw [hbc]; rfl
  obtain ⟨a1, a2⟩ := add_rel ht.mesh.ghostsFinite (e := l.geo.bc.hasExtra) (by rw [hx]; decide)
  obtain ⟨rg, hrg⟩ : ∃ rg, rg = ghostMin (ghostAdd l.geo.ghosts (pointToGhost l.geo.bc.hasExtra)) pg := ⟨_, rfl⟩
  have r1 : rg.minus = l.geo.ghosts.minus.min pg.minus := by rw [hrg]; show IntVec.min _ _ = _; rw [a1]
  have r2 : rg.plus = l.geo.ghosts.plus.min pg.plus := by
    rw [hrg]; show IntVec.min _ _ = _; rw [a2, hx]; congr 1; ext <;> simp
  have hreg : ∀ c, (Stored n l c ∧ e.DefinedAt n c) ↔ InBox n rg.minus rg.plus c := by
    intro c
    rw [r1, r2, inBox_min, hbox]
    have : Stored n l c ↔ InBox n l.geo.ghosts.minus l.geo.ghosts.plus c := by
      unfold Stored InBox; rw [hx]; constructor <;> intro h <;> iv_omega
    rw [this]
  have hpos : IntVec.Lt 0 (n + rg.minus + rg.plus) := by
    obtain ⟨c, hc⟩ := hne
    have := (hreg c).1 hc
    unfold InBox at this; iv_omega
  obtain ⟨w, w1, w2⟩ := init_tracks false m hpos e he 0 fun c hc => by
    have hc' : e.DefinedAt n c := ((hreg c).2 hc).2
    exact ⟨hc', by rw [show c + 0 = c by ext <;> simp]; exact hc'⟩
  have hfit : Window.Fits ⟨l.geo.window.npts, origin l.geo - rg.minus, n + rg.minus + rg.plus⟩ := by
    have hr := ht.room
    have hF := ht.mesh.fits
    rw [hx] at hr
    have h1 : IntVec.Le rg.minus l.geo.ghosts.minus := by rw [r1]; unfold IntVec.min; iv_omega
    have h2 : IntVec.Le rg.plus l.geo.ghosts.plus := by rw [r2]; unfold IntVec.min; iv_omega
    refine ⟨hF.1, ?_, ?_, ?_⟩ <;> iv_omega
  have hs := ht.mesh.size
  rw [hx] at hs
  have hlg : calcValidLhsGhost rg l.geo.bc = .ok rg := by
    unfold calcValidLhsGhost ghostSub
    have z : np (0 : IntVec) = 0 ∧ pp (0 : IntVec) = 0 := np_of_nonneg (by decide)
    rw [hx, ptg_rel, z.1, z.2, Outcome.throwIf_false (by simp), Outcome.ok_bind, Outcome.pure_eq]
    congr 1
    cases rg
    congr 1 <;> ext <;> simp
  have gw : (resetValidGhosts l.geo (ghostMake rg.minus rg.plus)).window =
      ⟨l.geo.window.npts, origin l.geo - rg.minus, n + rg.minus + rg.plus⟩ := by
    have eo : l.geo.window.offset + (l.geo.validGhosts.minus - rg.minus) = origin l.geo - rg.minus := by
      unfold origin; ext <;> simp <;> omega
    have ee : l.geo.window.extent - (l.geo.validGhosts.minus - rg.minus) - l.geo.validGhosts.plus + rg.plus =
        n + rg.minus + rg.plus := by
      rw [hs]; ext <;> simp <;> omega
    show Window.mk _ (l.geo.window.offset + (l.geo.validGhosts.minus - rg.minus))
      (l.geo.window.extent - (l.geo.validGhosts.minus - rg.minus) - l.geo.validGhosts.plus + rg.plus) = _
    rw [eo, ee]
  have haddr : ∀ loc, winAddr (resetValidGhosts l.geo (ghostMake rg.minus rg.plus)).window loc =
      cellAddr l.geo (loc - rg.minus) := by
    intro loc
    rw [gw]
    unfold winAddr cellAddr
    congr 1
    ext <;> simp <;> omega
  obtain ⟨m', m1, m2, m3⟩ := walkAssign_ok
    (l := { l with geo := resetValidGhosts l.geo (ghostMake rg.minus rg.plus) }) (b := b) ht.mem ht.cpu ht.writable
    (by dsimp only; rw [gw]; exact hfit) (by dsimp only; rw [gw]; exact hpos) (u := w)
    (v := fun m' loc => e.value2 m m' (loc - rg.minus + 0)) (val := fun loc => e.value m (loc - rg.minus)) m
    (by dsimp only; rw [gw]; exact w2) (by
      intro loc _ mm hmm
      have := value2_eq (m0 := m) (m := mm) (l := l) (c := loc - rg.minus) (n := n) (by
        intro blk a ha
        apply hmm
        rcases ha with ha | ha
        · left; intro hbb; exact ha (by rw [ht.mem, hbb])
        · right; dsimp only; rw [haddr]; exact ha) e he 0 hi
      rw [this, show loc - rg.minus + 0 = loc - rg.minus by ext <;> simp])
  dsimp only at m2 m3
  refine ⟨m', ?_, ?_, ?_⟩
  · obtain ⟨k, hk⟩ := walkAssign_same _ _ _ m' m1
    refine ⟨k, fun t ht' => ?_⟩
    unfold assign sequentialAssign
    rw [hpg, andThen_ok]
    have hc : calcValidGhost true l.geo.ghosts l.geo.bc pg = .ok rg := by
      unfold calcValidGhost
      rw [throwIf_three (by rw [hbc]; simp), if_pos rfl, ← hrg]
      rfl
    rw [hc, andThen_ok, hlg, andThen_ok, same_init false m _ _ e 0 w w1, andThen_ok]
    exact hk t ht'
  · intro c hc
    have hc' := (hreg c).1 hc
    have := m2 (c + rg.minus) (by rw [gw]; unfold InBox at hc'; dsimp only; iv_omega)
    rw [haddr, show c + rg.minus - rg.minus = c by ext <;> simp] at this
    exact this
  · intro blk a ha
    apply m3
    rcases ha with ha | ha
    · exact .inl ha
    · refine .inr fun loc hloc => ?_
      rw [haddr]
      apply ha
      rw [hreg]
      rw [gw] at hloc
      unfold InBox
      dsimp only at hloc
      iv_omega

end Rel
end SpatialOps
