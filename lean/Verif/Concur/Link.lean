import Verif.Concur.Inv
import Verif.NeboPar.Props

/-!
# What the tasks of one assignment read, and the plan of all callers
-/

namespace SpatialOps.Concur
open Nebo
variable {V : Type}

/-! ## Blocks that a task can read -/

/-- All that the task may read lies in blocks with `R`. -/
def ActOnly (R : Nat → Prop) : Nebo.Act V → Prop
  | .done => True
  | .fail => True
  | .read b _ k => R b ∧ ∀ v, ActOnly R (k v)
  | .write _ _ _ k => ActOnly R k

def WalkOnly (R : Nat → Prop) : {t : Ty} → Walk V t → Prop
  | _, .const _ => True
  | _, .field b _ _ _ => ∀ blk, b = some blk → R blk
  | _, .mask _ _ _ => True
  | _, .un _ a => WalkOnly R a
  | _, .bin _ a b => WalkOnly R a ∧ WalkOnly R b
  | _, .and a b => WalkOnly R a ∧ WalkOnly R b
  | _, .or a b => WalkOnly R a ∧ WalkOnly R b
  | _, .cond c a b => WalkOnly R c ∧ WalkOnly R a ∧ WalkOnly R b

theorem elemAt_base {base : Option Nat} {n a : Int} {blk : Nat} (h : elemAt base n a = .ok blk) : base = some blk := by
  unfold elemAt at h
  split at h
  · cases h
  · obtain ⟨_, _, h⟩ := Outcome.bind_eq_ok.1 h
    cases h
    rfl

theorem acts_only {R : Nat → Prop} : {t : Ty} → (w : Walk V t) → WalkOnly R w → (k : t.den V → Nebo.Act V) →
    (∀ v, ActOnly R (k v)) → ActOnly R (w.acts k)
  | _, .const v, _, k, hk => by unfold Walk.acts; exact hk v
  | _, .field b n i _, hw, k, hk => by
    unfold Walk.acts
    split
    · split
      · rename_i blk h
        exact ⟨hw blk (elemAt_base h), hk⟩
      · trivial
    · trivial
  | _, .mask bits i _, _, k, hk => by
    unfold Walk.acts
    split
    · split
      · exact hk _
      · trivial
    · trivial
  | _, .un op a, hw, k, hk => by unfold Walk.acts; exact acts_only a hw _ fun v => hk _
  | _, .bin op a b, hw, k, hk => by
    unfold Walk.acts
    exact acts_only a hw.1 _ fun v => acts_only b hw.2 _ fun v' => hk _
  | _, .and a b, hw, k, hk => by
    unfold Walk.acts
    refine acts_only a hw.1 _ fun v => ?_
    split
    · exact acts_only b hw.2 _ hk
    · exact hk _
  | _, .or a b, hw, k, hk => by
    unfold Walk.acts
    refine acts_only a hw.1 _ fun v => ?_
    split
    · exact hk _
    · exact acts_only b hw.2 _ hk
  | _, .cond c a b, hw, k, hk => by
    unfold Walk.acts
    refine acts_only c hw.1 _ fun v => ?_
    split
    · exact acts_only a hw.2.1 _ hk
    · exact acts_only b hw.2.2 _ hk

theorem next_only {R : Nat → Prop} : {t : Ty} → (w : Walk V t) → WalkOnly R w → WalkOnly R w.next
  | _, .const _, _ => trivial
  | _, .field _ _ _ _, hw => hw
  | _, .mask _ _ _, _ => trivial
  | _, .un _ a, hw => next_only a hw
  | _, .bin _ a b, hw => ⟨next_only a hw.1, next_only b hw.2⟩
  | _, .and a b, hw => ⟨next_only a hw.1, next_only b hw.2⟩
  | _, .or a b, hw => ⟨next_only a hw.1, next_only b hw.2⟩
  | _, .cond c a b, hw => ⟨next_only c hw.1, next_only a hw.2.1, next_only b hw.2.2⟩

theorem loop_only {R : Nat → Prop} (base : Option Nat) (size : Int) (fuel : Nat) (i e : It) (w : Walk V .num)
    (hw : WalkOnly R w) : ActOnly R (loopActs base size fuel i e w) := by
  induction fuel generalizing i w with
  | zero =>
    unfold loopActs
    split <;> trivial
  | succ fuel ih =>
    unfold loopActs
    split
    · trivial
    · dsimp only
      refine acts_only w hw _ fun v => ?_
      split
      · split
        · exact ih _ _ (next_only w hw)
        · trivial
      · trivial

theorem walk_only {R : Nat → Prop} (l : FieldObj) (w : Walk V .num) (hw : WalkOnly R w) : ActOnly R (walkActs l w) := by
  unfold walkActs
  split
  · exact loop_only _ _ _ _ _ _ hw
  · trivial

theorem construct_only {R : Nat → Prop} {α : Type} [Add V] {f : α → Outcome (Walk V .num)}
    (hf : ∀ a w, f a = .ok w → WalkOnly R w) (pts : Pts α) (w : Walk V .num) (h : pts.construct f = .ok w) :
    WalkOnly R w := by
  induction pts generalizing w with
  | one a => exact hf a w h
  | more e a ih =>
    unfold Pts.construct at h
    obtain ⟨x, h1, h⟩ := Outcome.bind_eq_ok.1 h
    obtain ⟨y, h2, h⟩ := Outcome.bind_eq_ok.1 h
    cases h
    exact ⟨ih x h1, hf a y h2⟩

theorem partInit_only [Add V] [Mul V] {R : Nat → Prop} (split loc : IntVec) : {t : Ty} → (e : Expr V t) →
    (∀ blk, Mentions blk e → R blk) → (shift : IntVec) → (w : Walk V t) → e.partInit split loc shift = .ok w →
    WalkOnly R w
  | _, .scalar v, _, _, w, h => by cases h; trivial
  | _, .field f, hR, shift, w, h => by
    unfold Expr.partInit at h
    obtain ⟨g, _, h⟩ := Outcome.bind_eq_ok.1 h
    obtain ⟨g', _, h⟩ := Outcome.bind_eq_ok.1 h
    unfold fieldWalk at h
    obtain ⟨i, hi, h⟩ := Outcome.bind_eq_ok.1 h
    obtain ⟨e, _, h⟩ := Outcome.bind_eq_ok.1 h
    cases h
    unfold FieldObj.beginC at hi
    obtain ⟨_, _, hi⟩ := Outcome.bind_eq_ok.1 hi
    cases hi
    intro blk hb
    exact hR blk hb
  | _, .single f, _, _, w, h => by cases h
  | _, .mask k, _, shift, w, h => by
    unfold Expr.partInit at h
    obtain ⟨g, _, h⟩ := Outcome.bind_eq_ok.1 h
    obtain ⟨g', _, h⟩ := Outcome.bind_eq_ok.1 h
    unfold maskWalk at h
    obtain ⟨e, _, h⟩ := Outcome.bind_eq_ok.1 h
    cases h
    trivial
  | _, .maskShift p a, hR, shift, w, h => by
    unfold Expr.partInit at h
    exact partInit_only split loc a hR _ w h
  | _, .un op a, hR, shift, w, h => by
    unfold Expr.partInit at h
    obtain ⟨x, h1, h⟩ := Outcome.bind_eq_ok.1 h
    cases h
    exact partInit_only split loc a hR _ x h1
  | _, .bin op a b, hR, shift, w, h => by
    unfold Expr.partInit at h
    obtain ⟨x, h1, h⟩ := Outcome.bind_eq_ok.1 h
    obtain ⟨y, h2, h⟩ := Outcome.bind_eq_ok.1 h
    cases h
    exact ⟨partInit_only split loc a (fun blk hb => hR blk (Or.inl hb)) _ x h1,
      partInit_only split loc b (fun blk hb => hR blk (Or.inr hb)) _ y h2⟩
  | _, .and a b, hR, shift, w, h => by
    unfold Expr.partInit at h
    obtain ⟨x, h1, h⟩ := Outcome.bind_eq_ok.1 h
    obtain ⟨y, h2, h⟩ := Outcome.bind_eq_ok.1 h
    cases h
    exact ⟨partInit_only split loc a (fun blk hb => hR blk (Or.inl hb)) _ x h1,
      partInit_only split loc b (fun blk hb => hR blk (Or.inr hb)) _ y h2⟩
  | _, .or a b, hR, shift, w, h => by
    unfold Expr.partInit at h
    obtain ⟨x, h1, h⟩ := Outcome.bind_eq_ok.1 h
    obtain ⟨y, h2, h⟩ := Outcome.bind_eq_ok.1 h
    cases h
    exact ⟨partInit_only split loc a (fun blk hb => hR blk (Or.inl hb)) _ x h1,
      partInit_only split loc b (fun blk hb => hR blk (Or.inr hb)) _ y h2⟩
  | _, .cond c a b, hR, shift, w, h => by
    unfold Expr.partInit at h
    obtain ⟨x, h1, h⟩ := Outcome.bind_eq_ok.1 h
    obtain ⟨y, h2, h⟩ := Outcome.bind_eq_ok.1 h
    obtain ⟨z, h3, h⟩ := Outcome.bind_eq_ok.1 h
    cases h
    exact ⟨partInit_only split loc c (fun blk hb => hR blk (Or.inl hb)) _ x h1,
      partInit_only split loc a (fun blk hb => hR blk (Or.inr (Or.inl hb))) _ y h2,
      partInit_only split loc b (fun blk hb => hR blk (Or.inr (Or.inr hb))) _ z h3⟩
  | _, .stencil pts a, hR, shift, w, h => by
    unfold Expr.partInit at h
    refine construct_only ?_ pts w h
    intro pc w' h'
    obtain ⟨x, h1, h'⟩ := Outcome.bind_eq_ok.1 h'
    cases h'
    exact ⟨partInit_only split loc a hR _ x h1, trivial⟩
  | _, .sumStencil pts a, hR, shift, w, h => by
    unfold Expr.partInit at h
    refine construct_only ?_ pts w h
    intro pc w' h'
    exact partInit_only split loc a hR _ w' h'

theorem resize_mentions {m : Mem V} {minus plus : IntVec} {blk : Nat} : {t : Ty} → (e e' : Expr V t) →
    e.resize m minus plus = .ok e' → Mentions blk e' → Mentions blk e
  | _, .scalar v, e', h, hm => by cases h; exact hm
  | _, .field f, e', h, hm => by
    unfold Expr.resize at h
    obtain ⟨g, _, h⟩ := Outcome.bind_eq_ok.1 h
    cases h
    exact hm
  | _, .single f, e', h, hm => by
    unfold Expr.resize at h
    obtain ⟨g, _, h⟩ := Outcome.bind_eq_ok.1 h
    cases h
    exact absurd hm id
  | _, .mask f, e', h, hm => by
    unfold Expr.resize at h
    obtain ⟨g, _, h⟩ := Outcome.bind_eq_ok.1 h
    cases h
    exact hm
  | _, .maskShift p a, e', h, hm => by
    unfold Expr.resize at h
    obtain ⟨x, h1, h⟩ := Outcome.bind_eq_ok.1 h
    cases h
    exact resize_mentions a x h1 hm
  | _, .un p a, e', h, hm => by
    unfold Expr.resize at h
    obtain ⟨x, h1, h⟩ := Outcome.bind_eq_ok.1 h
    cases h
    exact resize_mentions a x h1 hm
  | _, .bin p a b, e', h, hm => by
    unfold Expr.resize at h
    obtain ⟨x, h1, h⟩ := Outcome.bind_eq_ok.1 h
    obtain ⟨y, h2, h⟩ := Outcome.bind_eq_ok.1 h
    cases h
    exact hm.imp (resize_mentions a x h1) (resize_mentions b y h2)
  | _, .and a b, e', h, hm => by
    unfold Expr.resize at h
    obtain ⟨x, h1, h⟩ := Outcome.bind_eq_ok.1 h
    obtain ⟨y, h2, h⟩ := Outcome.bind_eq_ok.1 h
    cases h
    exact hm.imp (resize_mentions a x h1) (resize_mentions b y h2)
  | _, .or a b, e', h, hm => by
    unfold Expr.resize at h
    obtain ⟨x, h1, h⟩ := Outcome.bind_eq_ok.1 h
    obtain ⟨y, h2, h⟩ := Outcome.bind_eq_ok.1 h
    cases h
    exact hm.imp (resize_mentions a x h1) (resize_mentions b y h2)
  | _, .cond c a b, e', h, hm => by
    unfold Expr.resize at h
    obtain ⟨x, h1, h⟩ := Outcome.bind_eq_ok.1 h
    obtain ⟨y, h2, h⟩ := Outcome.bind_eq_ok.1 h
    obtain ⟨z, h3, h⟩ := Outcome.bind_eq_ok.1 h
    cases h
    exact hm.imp (resize_mentions c x h1) (fun hm => hm.imp (resize_mentions a y h2) (resize_mentions b z h3))
  | _, .stencil p a, e', h, hm => by
    unfold Expr.resize at h
    obtain ⟨x, h1, h⟩ := Outcome.bind_eq_ok.1 h
    cases h
    exact resize_mentions a x h1 hm
  | _, .sumStencil p a, e', h, hm => by
    unfold Expr.resize at h
    obtain ⟨x, h1, h⟩ := Outcome.bind_eq_ok.1 h
    cases h
    exact resize_mentions a x h1 hm

theorem resize_congr {m m' : Mem V} (minus plus : IntVec) : {t : Ty} → (e : Expr V t) →
    (∀ blk a, Mentions blk e → m blk a = m' blk a) → e.resize m minus plus = e.resize m' minus plus
  | _, .scalar v, _ => rfl
  | _, .field f, _ => rfl
  | _, .mask f, _ => rfl
  | _, .single f, h => by
    unfold Expr.resize singleValue
    cases hf : f.fieldValuesC false .localRam 0 with
    | ok p =>
      rw [Outcome.ok_bind, Outcome.ok_bind]
      cases hb : elemAt p f.geo.window.globNpts 0 with
      | ok blk =>
        rw [Outcome.ok_bind, Outcome.ok_bind]
        have hp := elemAt_base hb
        have : f.values = some blk := by
          unfold FieldObj.fieldValuesC at hf
          split at hf
          · split at hf
            · cases hf
            · injection hf with hf; rw [hf]; exact hp
          · rename_i hmt; cases hmt
          · cases hf
        rw [h blk 0 this]
      | _ => rfl
    | _ => rfl
  | _, .maskShift p a, h => by unfold Expr.resize; rw [resize_congr minus plus a h]
  | _, .un p a, h => by unfold Expr.resize; rw [resize_congr minus plus a h]
  | _, .bin p a b, h => by
    unfold Expr.resize
    rw [resize_congr minus plus a fun blk x hb => h blk x (Or.inl hb),
      resize_congr minus plus b fun blk x hb => h blk x (Or.inr hb)]
  | _, .and a b, h => by
    unfold Expr.resize
    rw [resize_congr minus plus a fun blk x hb => h blk x (Or.inl hb),
      resize_congr minus plus b fun blk x hb => h blk x (Or.inr hb)]
  | _, .or a b, h => by
    unfold Expr.resize
    rw [resize_congr minus plus a fun blk x hb => h blk x (Or.inl hb),
      resize_congr minus plus b fun blk x hb => h blk x (Or.inr hb)]
  | _, .cond c a b, h => by
    unfold Expr.resize
    rw [resize_congr minus plus c fun blk x hb => h blk x (Or.inl hb),
      resize_congr minus plus a fun blk x hb => h blk x (Or.inr (Or.inl hb)),
      resize_congr minus plus b fun blk x hb => h blk x (Or.inr (Or.inr hb))]
  | _, .stencil p a, h => by unfold Expr.resize; rw [resize_congr minus plus a h]
  | _, .sumStencil p a, h => by unfold Expr.resize; rw [resize_congr minus plus a h]

theorem psum_congr {α : Type} [Add V] {f g : α → V} (h : ∀ a, f a = g a) (pts : Pts α) : pts.sum f = pts.sum g := by
  have : f = g := funext h
  rw [this]

theorem value_congr [Add V] [Mul V] {n : IntVec} {m m' : Mem V} : {t : Ty} → (e : Expr V t) → e.Wf n →
    (∀ blk a, Mentions blk e → m blk a = m' blk a) → (c : IntVec) → e.value m c = e.value m' c
  | _, .scalar v, _, _, _ => rfl
  | _, .mask k, _, _, _ => rfl
  | _, .field f, hw, h, c => by
    unfold Expr.value
    obtain ⟨blk, hb⟩ := Option.ne_none_iff_exists'.1 hw.2
    rw [hb]
    exact h blk _ hb
  | _, .single f, hw, h, c => by
    unfold Expr.value
    obtain ⟨blk, hb⟩ := Option.ne_none_iff_exists'.1 hw.1
    rw [hb]
    exact h blk _ hb
  | _, .maskShift p a, hw, h, c => by unfold Expr.value; exact value_congr a hw h _
  | _, .un op a, hw, h, c => by unfold Expr.value; rw [value_congr a hw h]
  | _, .bin op a b, hw, h, c => by
    unfold Expr.value
    rw [value_congr a hw.1 fun blk x hb => h blk x (Or.inl hb), value_congr b hw.2 fun blk x hb => h blk x (Or.inr hb)]
  | _, .and a b, hw, h, c => by
    unfold Expr.value
    rw [value_congr a hw.1 fun blk x hb => h blk x (Or.inl hb), value_congr b hw.2 fun blk x hb => h blk x (Or.inr hb)]
  | _, .or a b, hw, h, c => by
    unfold Expr.value
    rw [value_congr a hw.1 fun blk x hb => h blk x (Or.inl hb), value_congr b hw.2 fun blk x hb => h blk x (Or.inr hb)]
  | _, .cond t a b, hw, h, c => by
    unfold Expr.value
    rw [value_congr t hw.1 fun blk x hb => h blk x (Or.inl hb),
      value_congr a hw.2.1 fun blk x hb => h blk x (Or.inr (Or.inl hb)),
      value_congr b hw.2.2 fun blk x hb => h blk x (Or.inr (Or.inr hb))]
  | _, .stencil p a, hw, h, c => by
    unfold Expr.value
    exact psum_congr (fun q => by rw [value_congr a hw h]) p
  | _, .sumStencil p a, hw, h, c => by
    unfold Expr.value
    exact psum_congr (fun q => by rw [value_congr a hw h]) p

/-- Less may be forbidden, and what the task cannot read may be forbidden. -/
theorem runs_off {W All Off : Nat → Int → Prop} {R : Nat → Prop} {v v' : Mem V} {A : Nebo.Act V} {k : Nat}
    (h : Act.Runs W All v A k v') (hA : ActOnly R A) (hoff : ∀ blk a, R blk → Off blk a → All blk a) :
    Act.Runs W Off v A k v' := by
  induction h with
  | done => exact .done
  | read hw _ ih => exact .read (hw.imp id fun hn ho => hn (hoff _ _ hA.1 ho)) (ih (hA.2 _))
  | write hw _ ih => exact .write hw (ih hA)

/-! ## One assignment -/

theorem ok_core {σ : Stmt V} (h : σ.Ok) : ∃ n b pg, Target n σ.lhs b ∧ σ.rhs.Wf n ∧ σ.rhs.Independent σ.lhs 0 ∧
    σ.rhs.possibleGhosts = .ok pg ∧ IntVec.Le σ.lhs.geo.bc.hasExtra pg.plus ∧
    (∃ c, if σ.useGhost then Stored n σ.lhs c ∧ σ.rhs.DefinedAt n c else Interior n σ.lhs c) ∧ 1 ≤ σ.count := by
  obtain ⟨n, b, hn, ht, he, hd, hi, hcount⟩ := h
  have hx := ht.mesh.extra
  have hg := ht.mesh.ghosts
  obtain ⟨pg, hpg⟩ := possibleGhosts_ok hn σ.rhs he fun c h0 h1 => hd c ⟨h0, by iv_omega⟩
  obtain ⟨pv, pex⟩ := possibleGhosts_exact σ.rhs he pg hpg
  have hint : IntVec.Le σ.lhs.geo.bc.hasExtra pg.plus := by
    have := (pex (n + σ.lhs.geo.bc.hasExtra - ⟨1, 1, 1⟩)).1 (hd _ (by unfold Interior; iv_omega))
    unfold InBox at this; iv_omega
  refine ⟨n, b, pg, ht, he, hi, hpg, hint, ⟨0, ?_⟩, hcount⟩
  cases σ.useGhost with
  | true =>
    rw [if_pos rfl]
    unfold GhostData.Valid at hg
    exact ⟨by unfold Stored; iv_omega, hd 0 (by unfold Interior; iv_omega)⟩
  | false =>
    rw [if_neg (by simp)]
    unfold Interior; iv_omega

/-- The assignment by a single thread depends only on what it uses. -/
theorem seq_congr [Add V] [Mul V] {σ : Stmt V} (h : σ.Ok) {m mm r : Mem V}
    (hr : sequentialAssign σ.useGhost σ.lhs σ.rhs m = .ok r)
    (hm : ∀ blk a, Mentions blk σ.rhs → mm blk a = m blk a) :
    ∃ rr, sequentialAssign σ.useGhost σ.lhs σ.rhs mm = .ok rr ∧
      ∀ blk a, (mm blk a = m blk a → rr blk a = r blk a) ∧ (¬ σ.Writes blk → rr blk a = mm blk a) := by
  obtain ⟨n, b, pg, ht, he, hi, hpg, hx, hne, _⟩ := ok_core h
  obtain ⟨r1, e1, a1⟩ := sequentialAssign_core ht he hi hpg hx σ.useGhost hne m
  obtain ⟨r2, e2, a2⟩ := sequentialAssign_core ht he hi hpg hx σ.useGhost hne mm
  rw [hr] at e1
  injection e1 with e1
  subst e1
  refine ⟨r2, e2, fun blk a => ⟨fun hb => ?_, fun hb => ?_⟩⟩
  · by_cases hc : blk = b ∧ ∃ c, (if σ.useGhost then Stored n σ.lhs c ∧ σ.rhs.DefinedAt n c else Interior n σ.lhs c) ∧
        cellAddr σ.lhs.geo c = a
    · obtain ⟨rfl, c, hc, rfl⟩ := hc
      rw [a1.1 c hc, a2.1 c hc]
      exact value_congr σ.rhs he hm c
    · have hc' : blk ≠ b ∨ ∀ c, (if σ.useGhost then Stored n σ.lhs c ∧ σ.rhs.DefinedAt n c else Interior n σ.lhs c) →
          cellAddr σ.lhs.geo c ≠ a := by
        by_cases hb' : blk = b
        · exact Or.inr fun c hr' ha => hc ⟨hb', c, hr', ha⟩
        · exact Or.inl hb'
      rw [a1.2 blk a hc', a2.2 blk a hc', hb]
  · refine a2.2 blk a (Or.inl ?_)
    rintro rfl
    exact hb ht.mem

/-- The tasks do not depend on memory the assignment does not use. -/
theorem spawn_congr [Add V] [Mul V] {σ : Stmt V} {m mm : Mem V}
    (hm : ∀ blk a, Mentions blk σ.rhs → mm blk a = m blk a) : σ.spawn mm = σ.spawn m := by
  unfold Stmt.spawn parallelAssign
  cases σ.rhs.possibleGhosts with
  | ok pg =>
    rw [Outcome.ok_bind, Outcome.ok_bind]
    cases calcValidGhost σ.useGhost σ.lhs.geo.ghosts σ.lhs.geo.bc pg with
    | ok rg =>
      rw [Outcome.ok_bind, Outcome.ok_bind]
      cases calcValidLhsGhost rg σ.lhs.geo.bc with
      | ok lg =>
        rw [Outcome.ok_bind, Outcome.ok_bind]
        cases resizeGhost σ.lhs.geo lg.minus lg.plus with
        | ok r =>
          rw [Outcome.ok_bind, Outcome.ok_bind]
          dsimp only
          cases GhostData.make lg.minus lg.plus with
          | ok g =>
            rw [Outcome.ok_bind, Outcome.ok_bind]
            cases σ.lhs.geo.resetValidGhosts g with
            | ok geo =>
              rw [Outcome.ok_bind, Outcome.ok_bind, resize_congr rg.minus rg.plus σ.rhs hm]
              cases σ.rhs.resize m rg.minus rg.plus <;> rfl
            | _ => rfl
          | _ => rfl
        | _ => rfl
      | _ => rfl
    | _ => rfl
  | _ => rfl

/-- What the tasks of one assignment do when nobody else is at work. -/
theorem stmt_part [Add V] [Mul V] {σ : Stmt V} (h : σ.Ok) (m : Mem V) :
    ∃ (N : Nat) (act : Nat → Nebo.Act V) (W : Nat → Nat → Int → Prop) (fin : Nat → Mem V) (len : Nat → Nat) (m' : Mem V),
      sequentialAssign σ.useGhost σ.lhs σ.rhs m = .ok m' ∧
      (∀ mm : Mem V, (∀ blk a, Mentions blk σ.rhs → mm blk a = m blk a) → σ.spawn mm = .ok ((List.range N).map act)) ∧
      (∀ (Off : Nat → Int → Prop) k, k < N →
        (∀ blk a, Mentions blk σ.rhs → Off blk a → ∃ k', k' < N ∧ W k' blk a) →
        Act.Runs (W k) Off m (act k) (len k) (fin k)) ∧
      (∀ k k' blk a, k < N → k' < N → W k blk a → W k' blk a → k = k') ∧
      (∀ k blk a, k < N → W k blk a → σ.Writes blk ∧ m' blk a = fin k blk a) ∧
      (∀ blk a, (¬ ∃ k, k < N ∧ W k blk a) → m' blk a = m blk a) := by
  obtain ⟨n, b, pg, ht, he, hi, hpg, hx, hne, hcount⟩ := ok_core h
  obtain ⟨s0, W, All, fin, N, T, p1, p2, p3, p4, p5, p6, p7⟩ :=
    parallelAssign_core ht he hi hpg hx σ.useGhost hne hcount m
  obtain ⟨m', q1, q2, q3⟩ := sequentialAssign_core ht he hi hpg hx σ.useGhost hne m
  -- the tasks
  have hs : ∃ L : List (Nebo.Act V), s0.tasks = L.map some ∧ s0.mem = m ∧
      ∀ A ∈ L, ActOnly (fun blk => Mentions blk σ.rhs) A := by
    have p1 := p1
    unfold parallelAssign at p1
    obtain ⟨pg, -, p1⟩ := Outcome.bind_eq_ok.1 p1
    obtain ⟨rg, -, p1⟩ := Outcome.bind_eq_ok.1 p1
    obtain ⟨lg, -, p1⟩ := Outcome.bind_eq_ok.1 p1
    obtain ⟨r, -, p1⟩ := Outcome.bind_eq_ok.1 p1
    dsimp only at p1
    obtain ⟨g, -, p1⟩ := Outcome.bind_eq_ok.1 p1
    obtain ⟨geo, -, p1⟩ := Outcome.bind_eq_ok.1 p1
    obtain ⟨rhs, hrhs, p1⟩ := Outcome.bind_eq_ok.1 p1
    cases p1
    refine ⟨_, (List.map_map (g := some)).symm, rfl, ?_⟩
    intro A hA
    obtain ⟨loc, -, rfl⟩ := List.mem_map.1 hA
    unfold taskActs
    split
    · rename_i w _ hw
      exact walk_only _ _ (partInit_only _ _ rhs (fun blk hb => resize_mentions σ.rhs rhs hrhs hb) _ _ hw)
    · trivial
  obtain ⟨L, hL, hmem, honly⟩ := hs
  have hlen : L.length = N := by
    have := p2.len
    rw [hL, List.length_map] at this
    exact this
  obtain ⟨f, _, hf⟩ := p2.task
  have hk : ∀ k, k < N → ∃ A, L[k]? = some A ∧ Act.Runs (W k) All m A (f k - 1) (fin k) := by
    intro k hk
    obtain ⟨A, hA⟩ : ∃ A, L[k]? = some A := ⟨L[k]'(by omega), List.getElem?_eq_getElem _⟩
    refine ⟨A, hA, ?_⟩
    obtain ⟨v, l, h1, h2, h3, h4⟩ := hf k (some A) (by rw [hL, List.getElem?_map, hA]; rfl)
    rw [hmem] at h3
    have : v = m := by
      funext blk a
      by_cases hw : W k blk a
      · exact (h3 blk a hw).symm
      · exact h4 blk a hw
    rw [h1, Nat.add_sub_cancel, ← this]
    exact h2
  refine ⟨N, fun k => L[k]?.getD .fail, W, fin, fun k => f k - 1, m', q1, ?_, ?_, p4, ?_, ?_⟩
  · intro mm hmm
    rw [spawn_congr hmm]
    unfold Stmt.spawn
    rw [p1, Outcome.ok_bind, hL]
    show Outcome.ok _ = Outcome.ok _
    congr 1
    rw [List.filterMap_map]
    apply List.ext_getElem?
    intro k
    have e0 : List.filterMap (id ∘ some) L = L := List.filterMap_some
    rw [List.getElem?_map, e0]
    by_cases hk : k < N
    · rw [List.getElem?_range hk, Option.map_some, List.getElem?_eq_getElem (by omega)]
      rfl
    · rw [List.getElem?_eq_none (by omega), List.getElem?_eq_none (by rw [List.length_range]; omega)]
      rfl
  · intro Off k hkN hoff
    obtain ⟨A, hA, hr⟩ := hk k hkN
    dsimp only
    rw [hA]
    refine runs_off hr (honly A (List.mem_of_getElem? hA)) ?_
    intro blk a hR ho
    obtain ⟨k', hk', hw⟩ := hoff blk a hR ho
    exact p5 k' blk a hk' hw
  · intro k blk a hkN hw
    obtain ⟨rfl, c, hc, rfl⟩ := p6 blk a (p5 k blk a hkN hw)
    refine ⟨ht.mem, ?_⟩
    obtain ⟨i, hi', hwi, hval⟩ := p7 c hc
    have := p4 i k _ _ hi' hkN hwi hw
    subst this
    rw [hval, q2 c hc]
  · intro blk a hno
    refine q3 blk a ?_
    by_cases hb : blk = b
    · right
      rintro c hc rfl
      subst hb
      obtain ⟨i, hi', hwi, _⟩ := p7 c hc
      exact hno ⟨i, hi', hwi⟩
    · exact Or.inl hb

end SpatialOps.Concur
