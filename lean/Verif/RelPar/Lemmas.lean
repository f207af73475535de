import Verif.RelPar.Model
import Verif.Release.Lemmas
import Verif.NeboGpu.Props

/-!
# RelPar: the accesses of the two builds
-/

namespace SpatialOps
namespace Rel
open Nebo

/-- The accesses of the release build are those of the debug build, as long as that one does not fail. -/
inductive ASame {V : Type} : Act V → Act V → Prop where
  | fail (r : Act V) : ASame .fail r
  | done : ASame .done .done
  | read {b : Nat} {a : Int} {k k' : V → Act V} : (∀ v, ASame (k v) (k' v)) → ASame (.read b a k) (.read b a k')
  | write {b : Nat} {a : Int} {v : V} {k k' : Act V} : ASame k k' → ASame (.write b a v k) (.write b a v k')

theorem mask_same {bits : BitField} {i : MaskIt} {v : Bool} (hv : i.deref bits.words = .ok v) (hs : i.block < bits.size) :
    maskDeref bits i = .ok v := by
  unfold MaskIt.deref at hv
  unfold maskDeref
  have h1 : ¬ (i.bit < 0 ∨ 32 ≤ i.bit) := by
    intro h; rw [Outcome.throwIf_true h] at hv; cases hv
  rw [Outcome.throwIf_false h1, Outcome.ok_bind] at hv
  have h2 : ¬ (i.block < 0 ∨ i.size ≤ i.block) := by
    intro h; rw [Outcome.throwIf_true h] at hv; cases hv
  rw [Outcome.throwIf_false h2, Outcome.ok_bind] at hv
  rw [Outcome.ubUnless_true (by omega), Outcome.ok_bind]
  exact same_throwIf (fun _ => same_throwIf fun _ => same_refl _) v hv

theorem deref_same {i : It} {a : Int} (h : i.deref = .ok a) : i.current = a := by
  have : (Outcome.ok i.current : Outcome Int) = .ok a := by
    unfold It.deref at h
    exact same_throwIf (fun _ => same_throwIf fun _ => same_refl _) a h
  injection this

theorem acts_same {V : Type} : {t : Ty} → (w : Walk V t) → {k k' : t.den V → Act V} → (∀ x, ASame (k x) (k' x)) →
    ASame (w.acts k) (acts w k')
  | _, .const v, _, _, h => h v
  | _, .field b n i _, k, k', h => by
    simp only [Walk.acts, acts]
    cases hd : i.deref with
    | ok a =>
      have := deref_same hd
      subst this
      dsimp only
      cases elemAt b n i.current with
      | ok blk => exact .read h
      | abort => exact .fail _
      | throws => exact .fail _
      | ub => exact .fail _
    | abort => exact .fail _
    | throws => exact .fail _
    | ub => exact .fail _
  | _, .mask bits i _, k, k', h => by
    simp only [Walk.acts, acts]
    cases hd : i.deref bits.words with
    | ok v =>
      dsimp only
      by_cases hs : i.block < bits.size
      · rw [if_pos hs, mask_same hd hs]; exact h v
      · rw [if_neg hs]; exact .fail _
    | abort => exact .fail _
    | throws => exact .fail _
    | ub => exact .fail _
  | _, .un op a, _, _, h => acts_same a fun x => h (op x)
  | _, .bin op a b, _, _, h => acts_same a fun x => acts_same b fun y => h (op x y)
  | _, .and a b, _, _, h => acts_same a fun x => by
      cases x with
      | true => exact acts_same b h
      | false => exact h false
  | _, .or a b, _, _, h => acts_same a fun x => by
      cases x with
      | true => exact h true
      | false => exact acts_same b h
  | _, .cond c a b, _, _, h => acts_same c fun x => by
      cases x with
      | true => exact acts_same a h
      | false => exact acts_same b h

theorem loop_same {V : Type} (base : Option Nat) (size : Int) (e : It) : ∀ (fuel trips : Nat), fuel ≤ trips →
    ∀ (i : It) (w : Walk V .num), ASame (Nebo.loopActs base size fuel i e w) (loopActs base size e trips i w)
  | 0, trips, _, i, w => by
    unfold Nebo.loopActs loopActs
    cases he : i.eqOp e with
    | true => rw [if_pos rfl, if_pos rfl]; exact .done
    | false => rw [if_neg (by simp)]; exact .fail _
  | fuel + 1, trips, hle, i, w => by
    obtain ⟨t, rfl⟩ : ∃ t, trips = t + 1 := ⟨trips - 1, by omega⟩
    unfold Nebo.loopActs loopActs
    cases he : i.eqOp e with
    | true => rw [if_pos rfl, if_pos rfl]; exact .done
    | false =>
      rw [if_neg (by simp), if_neg (by simp)]
      dsimp only
      refine acts_same w fun v => ?_
      cases hd : i.deref with
      | ok a =>
        have := deref_same hd
        subst this
        dsimp only
        cases elemAt base size i.current with
        | ok blk => exact .write (loop_same base size e fuel t (by omega) _ _)
        | abort => exact .fail _
        | throws => exact .fail _
        | ub => exact .fail _
      | abort => exact .fail _
      | throws => exact .fail _
      | ub => exact .fail _

theorem walk_same {V : Type} (l : FieldObj) (w : Walk V .num) (trips : Nat) (h : l.geo.window.localNpts.toNat ≤ trips) :
    ASame (Nebo.walkActs l w) (walkActs l w trips) := by
  unfold Nebo.walkActs walkActs
  cases l.beginM with
  | ok b =>
    cases l.endM with
    | ok e => exact loop_same _ _ _ _ _ h _ _
    | abort => exact .fail _
    | throws => exact .fail _
    | ub => exact .fail _
  | abort => exact .fail _
  | throws => exact .fail _
  | ub => exact .fail _

theorem same_ok {α β : Type} {d : Outcome α} {x : α} (h : Same d (.ok x)) (f : α → β) :
    Same (d >>= fun a => .ok (f a)) (.ok (f x)) := by
  intro b hb
  obtain ⟨a, ha, hb⟩ := Outcome.bind_eq_ok.1 hb
  have := h a ha
  injection this with this
  subst this
  exact hb

theorem same_resizeGhost (f : FieldGeo) (a b : IntVec) : Same (Nebo.resizeGhost f a b) (.ok (resizeGhost f a b)) :=
  same_reshape _ _ _ _

theorem same_resize {V : Type} (m : Mem V) (minus plus : IntVec) : {t : Ty} → (e : Expr V t) →
    Same (e.resize m minus plus) (resize m minus plus e)
  | _, .scalar _ => same_refl _
  | _, .field f => same_ok (same_resizeGhost _ _ _) fun g => Expr.field { f with geo := g }
  | _, .single _ => same_refl _
  | _, .mask k => same_ok (same_resizeGhost _ _ _) fun g => Expr.mask { k with geo := g }
  | _, .maskShift _ a => same_bind (same_resize m minus plus a) fun _ _ => same_refl _
  | _, .un _ a => same_bind (same_resize m minus plus a) fun _ _ => same_refl _
  | _, .bin _ a b => same_bind (same_resize m minus plus a) fun _ _ => same_bind (same_resize m minus plus b) fun _ _ => same_refl _
  | _, .and a b => same_bind (same_resize m minus plus a) fun _ _ => same_bind (same_resize m minus plus b) fun _ _ => same_refl _
  | _, .or a b => same_bind (same_resize m minus plus a) fun _ _ => same_bind (same_resize m minus plus b) fun _ _ => same_refl _
  | _, .cond c a b => same_bind (same_resize m minus plus c) fun _ _ => same_bind (same_resize m minus plus a) fun _ _ =>
      same_bind (same_resize m minus plus b) fun _ _ => same_refl _
  | _, .stencil _ a => same_bind (same_resize m minus plus a) fun _ _ => same_refl _
  | _, .sumStencil _ a => same_bind (same_resize m minus plus a) fun _ _ => same_refl _

theorem same_partGeo (f : FieldGeo) (s l : IntVec) : Same (Nebo.partGeo f s l) (partGeo f s l) :=
  same_bind (same_refine _ _ _) fun _ _ => same_windowCopy _ _ _

theorem same_partInit {V : Type} [Add V] [Mul V] (s l : IntVec) : {t : Ty} → (e : Expr V t) → (shift : IntVec) →
    Same (e.partInit s l shift) (partInit s l e shift)
  | _, .scalar v, _ => same_refl _
  | _, .field f, shift => same_bind (same_partGeo _ _ _) fun g _ => same_pure_bind (same_reshape _ _ _ _) (same_refl _)
  | _, .single f, _ => same_refl _
  | _, .mask k, shift => same_bind (same_partGeo _ _ _) fun g _ => same_pure_bind (same_reshape _ _ _ _) (same_refl _)
  | _, .maskShift p a, shift => same_partInit s l a _
  | _, .un op a, shift => same_bind (same_partInit s l a _) fun _ _ => same_refl _
  | _, .bin op a b, shift => same_bind (same_partInit s l a _) fun _ _ => same_bind (same_partInit s l b _) fun _ _ => same_refl _
  | _, .and a b, shift => same_bind (same_partInit s l a _) fun _ _ => same_bind (same_partInit s l b _) fun _ _ => same_refl _
  | _, .or a b, shift => same_bind (same_partInit s l a _) fun _ _ => same_bind (same_partInit s l b _) fun _ _ => same_refl _
  | _, .cond c a b, shift => same_bind (same_partInit s l c _) fun _ _ => same_bind (same_partInit s l a _) fun _ _ =>
      same_bind (same_partInit s l b _) fun _ _ => same_refl _
  | _, .stencil pts a, shift => by
    simp only [Expr.partInit, partInit]
    exact same_construct (fun pc => same_bind (same_partInit s l a _) fun _ _ => same_refl _) pts
  | _, .sumStencil pts a, shift => by
    simp only [Expr.partInit, partInit]
    exact same_construct (fun pc => same_partInit s l a _) pts

theorem task_same {V : Type} [Add V] [Mul V] (l : FieldObj) (rhs : Expr V .num) (s loc : IntVec) :
    ∃ k, ∀ trips, k ≤ trips → ASame (Nebo.taskActs l rhs s loc) (taskActs l rhs s loc trips) := by
  unfold Nebo.taskActs
  cases hg : Nebo.partGeo l.geo s loc with
  | ok g =>
    cases hw : rhs.partInit s loc 0 with
    | ok w =>
      refine ⟨g.window.localNpts.toNat, fun trips ht => ?_⟩
      unfold taskActs
      rw [same_partGeo _ _ _ _ hg, same_partInit _ _ _ _ _ hw]
      exact walk_same _ _ _ ht
    | abort => exact ⟨0, fun _ _ => .fail _⟩
    | throws => exact ⟨0, fun _ _ => .fail _⟩
    | ub => exact ⟨0, fun _ _ => .fail _⟩
  | abort => exact ⟨0, fun _ _ => .fail _⟩
  | throws => exact ⟨0, fun _ _ => .fail _⟩
  | ub => exact ⟨0, fun _ _ => .fail _⟩

/-- The threads of the two builds. -/
inductive TSame {V : Type} : Option (Act V) → Option (Act V) → Prop where
  | none : TSame none none
  | some {A B : Act V} : ASame A B → TSame (some A) (some B)

/-- The states of the two builds. -/
structure SSame {V : Type} (d r : ParState V) : Prop where
  tasks : List.Forall₂ TSame d.tasks r.tasks
  sem : d.sem = r.sem
  waits : d.waits = r.waits
  mem : d.mem = r.mem

theorem tasks_same {V : Type} [Add V] [Mul V] (l : FieldObj) (rhs : Expr V .num) (s : IntVec) : ∀ locs : List IntVec,
    ∃ k, ∀ trips, k ≤ trips → List.Forall₂ TSame (locs.map fun loc => some (Nebo.taskActs l rhs s loc))
      (locs.map fun loc => some (taskActs l rhs s loc trips))
  | [] => ⟨0, fun _ _ => .nil⟩
  | loc :: locs => by
    obtain ⟨k, hk⟩ := tasks_same l rhs s locs
    obtain ⟨k', hk'⟩ := task_same l rhs s loc
    exact ⟨max k k', fun t ht => .cons (.some (hk' t (by omega))) (hk t (by omega))⟩

/-- The release build starts the same tasks. -/
theorem parallel_same {V : Type} [Add V] [Mul V] {u : Bool} {l : FieldObj} {count : Int} {e : Expr V .num} {m : Mem V}
    {d : ParState V} (h : Nebo.parallelAssign u l count e m = .ok d) :
    ∃ k, ∀ trips, k ≤ trips → ∃ r, parallelAssign u l count e m trips = .ok r ∧ SSame d r := by
  unfold Nebo.parallelAssign at h
  obtain ⟨pg, h1, h⟩ := Outcome.bind_eq_ok.1 h
  obtain ⟨rg, h2, h⟩ := Outcome.bind_eq_ok.1 h
  obtain ⟨lg, h3, h⟩ := Outcome.bind_eq_ok.1 h
  obtain ⟨rr, h4, h⟩ := Outcome.bind_eq_ok.1 h
  dsimp only at h
  obtain ⟨g, h5, h⟩ := Outcome.bind_eq_ok.1 h
  obtain ⟨geo, h6, h⟩ := Outcome.bind_eq_ok.1 h
  obtain ⟨rhs, h7, h⟩ := Outcome.bind_eq_ok.1 h
  injection h with h
  subst h
  have h4' := same_resizeGhost _ _ _ _ h4
  have h5' := same_ghostMake _ _ _ h5
  have h6' := same_reset _ _ _ h6
  injection h4' with h4'
  injection h5' with h5'
  injection h6' with h6'
  subst h4' h5' h6'
  obtain ⟨k, hk⟩ := tasks_same { l with geo := resetValidGhosts l.geo (ghostMake lg.minus lg.plus) } rhs
    (findPartition (resizeGhost l.geo lg.minus lg.plus).window.extent count)
    (locations (findPartition (resizeGhost l.geo lg.minus lg.plus).window.extent count)
      (partitionCount (findPartition (resizeGhost l.geo lg.minus lg.plus).window.extent count)).toNat 0)
  refine ⟨k, fun t ht => ⟨_, ?_, SSame.mk (r := ⟨_, 0, _, m⟩) (hk t ht) rfl rfl rfl⟩⟩
  unfold parallelAssign
  rw [same_possibleGhosts e _ h1, Outcome.ok_bind, same_calc _ _ _ _ _ h2, Outcome.ok_bind, same_calcLhs _ _ _ h3, Outcome.ok_bind]
  dsimp only
  rw [same_resize _ _ _ _ _ h7, Outcome.ok_bind]
  rfl

/-! ## Running them -/

variable {V : Type}

theorem fail_stays {s s' : ParState V} {i : Nat} (h : s.tasks[i]? = some (some .fail)) (hs : ParStep s s') :
    s'.tasks[i]? = some (some .fail) := by
  cases hs with
  | @read j _ _ _ hj =>
    by_cases e : j = i
    · subst e; rw [h] at hj; cases hj
    · dsimp only; rw [List.getElem?_set_ne e]; exact h
  | @write j _ _ _ _ hj =>
    by_cases e : j = i
    · subst e; rw [h] at hj; cases hj
    · dsimp only; rw [List.getElem?_set_ne e]; exact h
  | @post j hj =>
    by_cases e : j = i
    · subst e; rw [h] at hj; cases hj
    · dsimp only; rw [List.getElem?_set_ne e]; exact h
  | wait _ _ => exact h

theorem never_fails {d : ParState V} {P : Mem V → Prop} (h : RunsTo d P) {k : Nat} {s : ParState V} (hr : ParRun d k s) (i : Nat) :
    s.tasks[i]? ≠ some (some .fail) := by
  obtain ⟨⟨B, hB⟩, hp⟩ := h
  obtain ⟨f, hf⟩ : ∃ f, B - k ≤ f := ⟨_, le_rfl⟩
  induction f generalizing k s with
  | zero =>
    intro hi
    by_cases hw : s.waits = 0
    · have := ((hp k s hr).2.2 hw).2 _ (List.mem_of_getElem? hi)
      cases this
    · obtain ⟨s', hs⟩ := (hp k s hr).2.1 hw
      have h1 := hB _ _ (.step hr hs)
      have h2 := hB _ _ hr
      omega
  | succ f ih =>
    intro hi
    by_cases hw : s.waits = 0
    · have := ((hp k s hr).2.2 hw).2 _ (List.mem_of_getElem? hi)
      cases this
    · obtain ⟨s', hs⟩ := (hp k s hr).2.1 hw
      have h1 := hB _ _ (.step hr hs)
      exact ih (.step hr hs) (by omega) (fail_stays hi hs)

theorem forall₂_get {α β : Type} {R : α → β → Prop} {l : List α} {l' : List β} (h : List.Forall₂ R l l') {i : Nat} {y : β}
    (hy : l'[i]? = some y) : ∃ x, l[i]? = some x ∧ R x y := by
  induction h generalizing i with
  | nil => simp at hy
  | cons hx _ ih =>
    cases i with
    | zero => simp at hy; subst hy; exact ⟨_, rfl, hx⟩
    | succ i => simp at hy; obtain ⟨x, h1, h2⟩ := ih hy; exact ⟨x, by simpa using h1, h2⟩

theorem forall₂_get' {α β : Type} {R : α → β → Prop} {l : List α} {l' : List β} (h : List.Forall₂ R l l') {i : Nat} {x : α}
    (hx : l[i]? = some x) : ∃ y, l'[i]? = some y ∧ R x y := by
  induction h generalizing i with
  | nil => simp at hx
  | cons hx' _ ih =>
    cases i with
    | zero => simp at hx; subst hx; exact ⟨_, rfl, hx'⟩
    | succ i => simp at hx; obtain ⟨y, h1, h2⟩ := ih hx; exact ⟨y, by simpa using h1, h2⟩

theorem forall₂_set {α β : Type} {R : α → β → Prop} {l : List α} {l' : List β} (h : List.Forall₂ R l l') (i : Nat) {x : α} {y : β}
    (hxy : R x y) : List.Forall₂ R (l.set i x) (l'.set i y) := by
  induction h generalizing i with
  | nil => exact .nil
  | cons hx' ht ih =>
    cases i with
    | zero => exact .cons hxy ht
    | succ i => exact .cons hx' (ih i)

/-- A step of the release build is one of the debug build. -/
theorem step_sim {d r r' : ParState V} (h : SSame d r) (hf : ∀ i : Nat, d.tasks[i]? ≠ some (some Act.fail)) (hs : ParStep r r') :
    ∃ d', ParStep d d' ∧ SSame d' r' := by
  obtain ⟨h1, h2, h3, h4⟩ := h
  cases hs with
  | @read i b a k hi =>
    obtain ⟨x, hx, hR⟩ := forall₂_get h1 hi
    cases hR with
    | some hA =>
      cases hA with
      | fail => exact absurd hx (hf i)
      | read hk => exact ⟨_, .read hx, ⟨forall₂_set h1 i (.some (h4 ▸ hk _)), h2, h3, h4⟩⟩
  | @write i b a v k hi =>
    obtain ⟨x, hx, hR⟩ := forall₂_get h1 hi
    cases hR with
    | some hA =>
      cases hA with
      | fail => exact absurd hx (hf i)
      | write hk => exact ⟨_, .write hx, ⟨forall₂_set h1 i (.some hk), h2, h3, by dsimp only; rw [h4]⟩⟩
  | @post i hi =>
    obtain ⟨x, hx, hR⟩ := forall₂_get h1 hi
    cases hR with
    | some hA =>
      cases hA with
      | fail => exact absurd hx (hf i)
      | done => exact ⟨_, .post hx, ⟨forall₂_set h1 i .none, by dsimp only; rw [h2], h3, h4⟩⟩
  | wait ha hb => exact ⟨_, .wait (h2 ▸ ha) (h3 ▸ hb), ⟨h1, by dsimp only; rw [h2], by dsimp only; rw [h3], h4⟩⟩

/-- And the release build can do what the debug build does. -/
theorem step_sim' {d r d' : ParState V} (h : SSame d r) (hs : ParStep d d') : ∃ r', ParStep r r' := by
  obtain ⟨h1, h2, h3, h4⟩ := h
  cases hs with
  | @read i b a k hi =>
    obtain ⟨x, hx, hR⟩ := forall₂_get' h1 hi
    cases hR with
    | some hA => cases hA with | read hk => exact ⟨_, .read hx⟩
  | @write i b a v k hi =>
    obtain ⟨x, hx, hR⟩ := forall₂_get' h1 hi
    cases hR with
    | some hA => cases hA with | write hk => exact ⟨_, .write hx⟩
  | @post i hi =>
    obtain ⟨x, hx, hR⟩ := forall₂_get' h1 hi
    cases hR with
    | some hA => cases hA with | done => exact ⟨_, .post hx⟩
  | wait ha hb => exact ⟨_, .wait (h2 ▸ ha) (h3 ▸ hb)⟩

theorem run_sim {d r : ParState V} {P : Mem V → Prop} (hd : RunsTo d P) (h : SSame d r) {k : Nat} {s : ParState V} (hr : ParRun r k s) :
    ∃ t, ParRun d k t ∧ SSame t s := by
  induction hr with
  | start => exact ⟨d, .start, h⟩
  | step hr hs ih =>
    obtain ⟨t, ht, hts⟩ := ih
    obtain ⟨t', h1, h2⟩ := step_sim hts (never_fails hd ht) hs
    exact ⟨t', .step ht h1, h2⟩

theorem race_sim {d r : ParState V} (h : SSame d r) (hf : ∀ i : Nat, d.tasks[i]? ≠ some (some Act.fail)) (hr : Race r) : Race d := by
  obtain ⟨i, j, b, a, v, k, A, hij, hi, hj, hA⟩ := hr
  obtain ⟨x, hx, hR⟩ := forall₂_get h.tasks hi
  obtain ⟨y, hy, hS⟩ := forall₂_get h.tasks hj
  cases hR with
  | some hX =>
    cases hX with
    | fail => exact absurd hx (hf i)
    | write hk =>
      cases hS with
      | some hY =>
        refine ⟨i, j, b, a, v, _, _, hij, hx, hy, ?_⟩
        rcases hA with ⟨q, rfl⟩ | ⟨w, q, rfl⟩
        · cases hY with
          | fail => exact absurd hy (hf j)
          | read _ => exact .inl ⟨_, rfl⟩
        · cases hY with
          | fail => exact absurd hy (hf j)
          | write _ => exact .inr ⟨_, _, rfl⟩

/-- What holds of every run of the debug build holds of every run of the release build. -/
theorem runsTo_same {d r : ParState V} {P : Mem V → Prop} (hd : RunsTo d P) (h : SSame d r) : RunsTo r P := by
  refine ⟨?_, fun k s hr => ?_⟩
  · obtain ⟨B, hB⟩ := hd.1
    refine ⟨B, fun k s hr => ?_⟩
    obtain ⟨t, ht, -⟩ := run_sim hd h hr
    exact hB k t ht
  · obtain ⟨t, ht, hts⟩ := run_sim hd h hr
    have hf := never_fails hd ht
    obtain ⟨h1, h2, h3⟩ := hd.2 k t ht
    refine ⟨fun hrace => h1 (race_sim hts hf hrace), fun hw => ?_, fun hw => ?_⟩
    · obtain ⟨t', ht'⟩ := h2 (by rw [hts.waits]; exact hw)
      exact step_sim' hts ht'
    · obtain ⟨h4, h5⟩ := h3 (by rw [hts.waits]; exact hw)
      refine ⟨hts.mem ▸ h4, fun t ht => ?_⟩
      obtain ⟨i, hi⟩ := List.getElem?_of_mem ht
      obtain ⟨x, hx, hR⟩ := forall₂_get hts.tasks hi
      have := h5 x (List.mem_of_getElem? hx)
      subst this
      cases hR
      rfl

/-! ## Devices -/

theorem same_gconstruct {α : Type} [Add V] {f g : α → Outcome (GWalk V .num)} (h : ∀ a, Same (f a) (g a)) :
    (pts : Pts α) → Same (pts.gconstruct f) (pts.gconstruct g)
  | .one a => h a
  | .more e a => same_bind (same_gconstruct h e) fun _ _ => same_bind (h a) fun _ _ => same_refl _

theorem same_gpuInit [Add V] [Mul V] (dev : Nat) (minus plus : IntVec) : {t : Ty} → (e : Expr V t) → (shift : IntVec) →
    Same (e.gpuInit dev minus plus shift) (gpuInit dev minus plus e shift)
  | _, .scalar v, _ => same_refl _
  | _, .field f, shift => same_pure_bind (same_resizeShift _ _ _ _) (same_refl _)
  | _, .single f, _ => same_refl _
  | _, .mask k, shift => same_pure_bind (same_resizeShift _ _ _ _) (same_refl _)
  | _, .maskShift p a, shift => same_gpuInit dev minus plus a _
  | _, .un op a, shift => same_bind (same_gpuInit dev minus plus a _) fun _ _ => same_refl _
  | _, .bin op a b, shift =>
    same_bind (same_gpuInit dev minus plus a _) fun _ _ => same_bind (same_gpuInit dev minus plus b _) fun _ _ => same_refl _
  | _, .and a b, shift =>
    same_bind (same_gpuInit dev minus plus a _) fun _ _ => same_bind (same_gpuInit dev minus plus b _) fun _ _ => same_refl _
  | _, .or a b, shift =>
    same_bind (same_gpuInit dev minus plus a _) fun _ _ => same_bind (same_gpuInit dev minus plus b _) fun _ _ => same_refl _
  | _, .cond c a b, shift => same_bind (same_gpuInit dev minus plus c _) fun _ _ =>
      same_bind (same_gpuInit dev minus plus a _) fun _ _ => same_bind (same_gpuInit dev minus plus b _) fun _ _ => same_refl _
  | _, .stencil pts a, shift => by
    simp only [Expr.gpuInit, gpuInit]
    exact same_gconstruct (fun pc => same_bind (same_gpuInit dev minus plus a _) fun _ _ => same_refl _) pts
  | _, .sumStencil pts a, shift => by
    simp only [Expr.gpuInit, gpuInit]
    exact same_gconstruct (fun pc => same_gpuInit dev minus plus a _) pts

theorem same_gpuAssign [Add V] [Mul V] (u : Bool) (l : FieldObj) (e : Expr V .num) (m : Mem V) :
    Same (Nebo.gpuAssign u l e m) (gpuAssign u l e m) := by
  unfold Nebo.gpuAssign
  refine same_bind (same_possibleGhosts e) fun pg _ => same_bind (same_calc _ _ _ _) fun rg _ => same_bind (same_calcLhs _ _) fun lg _ => ?_
  dsimp only
  refine same_pure_bind (same_ghostMake _ _) (same_pure_bind (same_reset _ _) ?_)
  exact same_bind (same_refl _) fun b _ => same_bind (same_gpuInit _ _ _ _ _) fun w _ => same_throwIf fun _ => same_refl _

end Rel
end SpatialOps
