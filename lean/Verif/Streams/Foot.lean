import Verif.Streams.Serial
import Verif.NeboGpu.Props

/-!
# Lemmas: the memory blocks that the threads of an assignment use, and what they leave when they run alone
-/

namespace SpatialOps
namespace Str
open Nebo

variable {V : Type}

/-! ## Blocks -/

/-- Block `b` is read through the walker. -/
def Blocks : {t : Ty} → GWalk V t → Nat → Prop
  | _, .const _, _ | _, .mask _ _ _ _ _ _, _ => False
  | _, .single p _, b => p = some b
  | _, .field p _ _ _ _, b => p = some b
  | _, .un _ a, b => Blocks a b
  | _, .bin _ x y, b | _, .and x y, b | _, .or x y, b => Blocks x b ∨ Blocks y b
  | _, .cond t x y, b => Blocks t b ∨ Blocks x b ∨ Blocks y b

theorem elemAt_block {p : Option Nat} {n a : Int} {b : Nat} (h : elemAt p n a = .ok b) : p = some b := by
  unfold elemAt at h
  cases p with
  | none => cases h
  | some c =>
    dsimp only at h
    rw [Outcome.bind_eq_ok] at h
    obtain ⟨_, -, h⟩ := h
    injection h with h
    rw [h]

theorem next_blocks : {t : Ty} → (w : GWalk V t) → ∀ b, Blocks w.next b → Blocks w b
  | _, .const _, _, h | _, .mask _ _ _ _ _ _, _, h => h
  | _, .single _ _, _, h | _, .field _ _ _ _ _, _, h => h
  | _, .un _ a, b, h => next_blocks a b h
  | _, .bin _ x y, b, h | _, .and x y, b, h | _, .or x y, b, h => h.imp (next_blocks x b) (next_blocks y b)
  | _, .cond t x y, b, h => h.imp (next_blocks t b) (Or.imp (next_blocks x b) (next_blocks y b))

theorem acts_within {U W : Nat → Prop} : {t : Ty} → (w : GWalk V t) → (∀ b, Blocks w b → U b) →
    (k : t.den V → Act V) → (∀ v, Within U W (k v)) → Within U W (w.acts k)
  | _, .const v, _, _, hk => hk v
  | _, .single _ _, _, _, _ => trivial
  | _, .field p n cur _ _, hu, k, hk => by
    unfold GWalk.acts
    cases h : elemAt p n cur with
    | ok blk => exact ⟨hu _ (elemAt_block h), hk⟩
    | abort => trivial
    | throws => trivial
    | ub => trivial
  | _, .mask _ _ _ _ _ _, _, _, hk => by
    unfold GWalk.acts
    split
    · exact hk _
    · trivial
  | _, .un op a, hu, k, hk => acts_within a hu _ fun v => hk (op v)
  | _, .bin op x y, hu, k, hk => acts_within x (fun b h => hu b (.inl h)) _ fun v =>
      acts_within y (fun b h => hu b (.inr h)) _ fun w => hk (op v w)
  | _, .and x y, hu, k, hk => acts_within x (fun b h => hu b (.inl h)) _ fun v => by
      split
      · exact acts_within y (fun b h => hu b (.inr h)) _ hk
      · exact hk _
  | _, .or x y, hu, k, hk => acts_within x (fun b h => hu b (.inl h)) _ fun v => by
      split
      · exact hk _
      · exact acts_within y (fun b h => hu b (.inr h)) _ hk
  | _, .cond t x y, hu, k, hk => acts_within t (fun b h => hu b (.inl h)) _ fun v => by
      split
      · exact acts_within x (fun b h => hu b (.inr (.inl h))) _ hk
      · exact acts_within y (fun b h => hu b (.inr (.inr h))) _ hk

theorem start_within {U W : Nat → Prop} (x y : Int) : {t : Ty} → (w : GWalk V t) → (∀ b, Blocks w b → U b) →
    (k : GWalk V t → Act V) → (∀ w', (∀ b, Blocks w' b → U b) → Within U W (k w')) → Within U W (w.startActs x y k)
  | _, .const v, _, _, hk => hk _ fun b h => h.elim
  | _, .single p n, hu, k, hk => by
    unfold GWalk.startActs
    cases h : elemAt p n 0 with
    | ok blk => exact ⟨hu _ (elemAt_block h), fun v => hk _ fun b h => h.elim⟩
    | abort => trivial
    | throws => trivial
    | ub => trivial
  | _, .field p n cur _ _, hu, k, hk => hk _ fun b h => hu b h
  | _, .mask _ _ _ _ _ _, _, _, hk => hk _ fun b h => h.elim
  | _, .un op a, hu, k, hk => start_within x y a hu _ fun a' ha => hk _ ha
  | _, .bin op p q, hu, k, hk => start_within x y p (fun b h => hu b (.inl h)) _ fun a' ha =>
      start_within x y q (fun b h => hu b (.inr h)) _ fun b' hb => hk _ fun b h => h.elim (ha b) (hb b)
  | _, .and p q, hu, k, hk => start_within x y p (fun b h => hu b (.inl h)) _ fun a' ha =>
      start_within x y q (fun b h => hu b (.inr h)) _ fun b' hb => hk _ fun b h => h.elim (ha b) (hb b)
  | _, .or p q, hu, k, hk => start_within x y p (fun b h => hu b (.inl h)) _ fun a' ha =>
      start_within x y q (fun b h => hu b (.inr h)) _ fun b' hb => hk _ fun b h => h.elim (ha b) (hb b)
  | _, .cond t p q, hu, k, hk => start_within x y t (fun b h => hu b (.inl h)) _ fun c' hc =>
      start_within x y p (fun b h => hu b (.inr (.inl h))) _ fun a' ha =>
        start_within x y q (fun b h => hu b (.inr (.inr h))) _ fun b' hb => hk _ fun b h =>
          h.elim (hc b) fun h => h.elim (ha b) (hb b)

theorem loop_within {U W : Nat → Prop} {base : Option Nat} (hb : ∀ b, base = some b → U b ∧ W b) (size : Int) (valid : Bool)
    (ze step : Int) : ∀ (fuel : Nat) (z cur : Int) (w : GWalk V .num), (∀ b, Blocks w b → U b) →
    Within U W (threadLoop base size valid ze step fuel z cur w) := by
  intro fuel
  induction fuel with
  | zero =>
    intro z cur w _
    unfold threadLoop
    split <;> trivial
  | succ f ih =>
    intro z cur w hw
    unfold threadLoop
    by_cases hz : ze ≤ z
    · rw [if_pos hz]; trivial
    · rw [if_neg hz]
      dsimp only
      by_cases hv : valid = true
      · rw [if_pos hv]
        refine acts_within w hw _ fun v => ?_
        cases h : elemAt base size cur with
        | ok blk =>
          have := hb blk (elemAt_block h)
          exact ⟨this.1, this.2, ih _ _ _ fun b h => hw b (next_blocks w b h)⟩
        | abort => trivial
        | throws => trivial
        | ub => trivial
      · rw [if_neg hv]
        exact ih _ _ _ fun b h => hw b (next_blocks w b h)

theorem gconstruct_blocks {α : Type} [Add V] {f : α → Outcome (GWalk V .num)} {P : Nat → Prop}
    (hf : ∀ a w, f a = .ok w → ∀ b, Blocks w b → P b) : (pts : Pts α) → (w : GWalk V .num) → pts.gconstruct f = .ok w →
    ∀ b, Blocks w b → P b
  | .one a, w, h, b, hb => hf a w h b hb
  | .more e a, w, h, b, hb => by
    unfold Pts.gconstruct at h
    simp only [Outcome.bind_eq_ok] at h
    obtain ⟨x, h1, y, h2, h3⟩ := h
    injection h3 with h3
    subst h3
    rcases hb with hb | hb
    · exact gconstruct_blocks hf e x h1 b hb
    · exact hf a y h2 b hb

theorem ptr_dev {f : FieldObj} {dev : Nat} {p : Option Nat} (h : f.fieldValuesC true .gpu dev = .ok p) : p = devPtr f dev := by
  unfold FieldObj.fieldValuesC at h
  unfold devPtr
  dsimp only at h
  rw [if_pos rfl] at h
  split at h
  · rename_i h1; rw [if_pos h1]; injection h with h; exact h.symm
  · rename_i h1
    rw [if_neg h1]
    cases hl : f.consumers.lookup dev with
    | none => rw [hl] at h; cases h
    | some b => rw [hl] at h; injection h with h; exact h.symm

theorem init_blocks [Add V] [Mul V] (dev : Nat) {minus plus : IntVec} : {t : Ty} → (e : Expr V t) → (s : IntVec) →
    (w : GWalk V t) → e.gpuInit dev minus plus s = .ok w → ∀ b, Blocks w b → Uses (e.onDevice dev) b
  | _, .scalar v, _, w, h, b, hb => by
    simp only [Expr.gpuInit, Outcome.ok.injEq] at h; subst h; exact hb
  | _, .field f, s, w, h, b, hb => by
    simp only [Expr.gpuInit, Outcome.bind_eq_ok] at h
    obtain ⟨g, -, p, h2, h3⟩ := h
    injection h3 with h3; subst h3
    simp only [Expr.onDevice, Uses]
    rw [← ptr_dev h2]
    exact hb
  | _, .single f, s, w, h, b, hb => by
    simp only [Expr.gpuInit, Outcome.bind_eq_ok] at h
    obtain ⟨p, h2, h3⟩ := h
    injection h3 with h3; subst h3
    simp only [Expr.onDevice, Uses]
    rw [← ptr_dev h2]
    exact hb
  | _, .mask k, s, w, h, b, hb => by
    simp only [Expr.gpuInit, Outcome.bind_eq_ok] at h
    obtain ⟨g, -, h3⟩ := h
    injection h3 with h3; subst h3
    exact hb
  | _, .maskShift p a, s, w, h, b, hb => by
    simp only [Expr.gpuInit] at h
    exact init_blocks dev a _ w h b hb
  | _, .un op a, s, w, h, b, hb => by
    simp only [Expr.gpuInit, Outcome.bind_eq_ok] at h
    obtain ⟨x, h1, h2⟩ := h
    injection h2 with h2; subst h2
    exact init_blocks dev a _ x h1 b hb
  | _, .bin op p q, s, w, h, b, hb => by
    simp only [Expr.gpuInit, Outcome.bind_eq_ok] at h
    obtain ⟨x, h1, y, h2, h3⟩ := h
    injection h3 with h3; subst h3
    exact hb.imp (init_blocks dev p _ x h1 b) (init_blocks dev q _ y h2 b)
  | _, .and p q, s, w, h, b, hb => by
    simp only [Expr.gpuInit, Outcome.bind_eq_ok] at h
    obtain ⟨x, h1, y, h2, h3⟩ := h
    injection h3 with h3; subst h3
    exact hb.imp (init_blocks dev p _ x h1 b) (init_blocks dev q _ y h2 b)
  | _, .or p q, s, w, h, b, hb => by
    simp only [Expr.gpuInit, Outcome.bind_eq_ok] at h
    obtain ⟨x, h1, y, h2, h3⟩ := h
    injection h3 with h3; subst h3
    exact hb.imp (init_blocks dev p _ x h1 b) (init_blocks dev q _ y h2 b)
  | _, .cond c p q, s, w, h, b, hb => by
    simp only [Expr.gpuInit, Outcome.bind_eq_ok] at h
    obtain ⟨z, h0, x, h1, y, h2, h3⟩ := h
    injection h3 with h3; subst h3
    exact hb.imp (init_blocks dev c _ z h0 b) (Or.imp (init_blocks dev p _ x h1 b) (init_blocks dev q _ y h2 b))
  | _, .stencil pts a, s, w, h, b, hb => by
    simp only [Expr.gpuInit] at h
    simp only [Expr.onDevice, Uses]
    refine gconstruct_blocks (P := Uses (a.onDevice dev)) ?_ pts w h b hb
    intro pc w' hw b hb
    rw [Outcome.bind_eq_ok] at hw
    obtain ⟨x, h1, h2⟩ := hw
    injection h2 with h2; subst h2
    rcases hb with hb | hb
    · exact init_blocks dev a _ x h1 b hb
    · exact hb.elim
  | _, .sumStencil pts a, s, w, h, b, hb => by
    simp only [Expr.gpuInit] at h
    simp only [Expr.onDevice, Uses]
    exact gconstruct_blocks (P := Uses (a.onDevice dev)) (fun p w' hw b hb => init_blocks dev a _ w' hw b hb) pts w h b hb

/-- The threads of an assignment write the destination's memory on the device and read it and the memory of the
expression's fields there. -/
theorem assign_within [Add V] [Mul V] {useGhost : Bool} {l : FieldObj} {e : Expr V .num} {m : Mem V} {k : ParState V}
    (hgpu : l.memType = .gpu) (h : gpuAssign useGhost l e m = .ok k) (s : Nat) :
    TWithin (Op.assign useGhost l s e).Touches (Op.assign useGhost l s e).Writes k.tasks := by
  unfold gpuAssign at h
  simp only [Outcome.bind_eq_ok] at h
  obtain ⟨pg, -, rg, -, lg, -, g, -, geo, -, base, hbase, w, hw, _, -, h⟩ := h
  injection h with h
  subst h
  intro A hA
  obtain ⟨p, -, hp⟩ := List.mem_map.1 hA
  injection hp with hp
  subst hp
  unfold FieldObj.fieldValuesM at hbase
  rw [Outcome.bind_eq_ok] at hbase
  obtain ⟨_, -, hbase⟩ := hbase
  have hb := ptr_dev hbase
  unfold devPtr at hb
  rw [if_pos ⟨hgpu, rfl⟩] at hb
  subst hb
  unfold threadActs
  exact start_within _ _ w (fun b hb => .inr (init_blocks l.dev e 0 w hw b hb)) _ fun w' hw' =>
    loop_within (fun b hb => ⟨.inl hb, hb⟩) _ _ _ _ _ _ _ w' hw'

/-! ## Jobs alone -/

/-- Number of steps of a thread that runs alone. -/
def steps : Act V → Mem V → Nat
  | .done, _ | .fail, _ => 1
  | .read b a k, m => steps (k (m b a)) m + 1
  | .write b a v k, m => steps k (m.write b a v) + 1

theorem alone_none {k : Nat} {m m1 : Mem V} {T T' : Tasks V} (he : Ended T) (ha : Alone T m k T' m1) :
    k = 0 ∧ T' = T ∧ m1 = m := by
  cases ha with
  | nil => exact ⟨rfl, rfl, rfl⟩
  | cons hs _ =>
    cases hs with
    | read hi => cases he _ (List.mem_of_getElem? hi)
    | write hi => cases he _ (List.mem_of_getElem? hi)
    | stop hi => cases he _ (List.mem_of_getElem? hi)

theorem get_single {A B : Act V} {i : Nat} (h : ([some A] : Tasks V)[i]? = some (some B)) : i = 0 ∧ B = A := by
  cases i with
  | zero =>
    simp only [List.getElem?_cons_zero, Option.some.injEq] at h
    exact ⟨rfl, h.symm⟩
  | succ i => simp at h

theorem alone_single {m' : Mem V} {k : Nat} {T0 T : Tasks V} {m m1 : Mem V} (ha : Alone T0 m k T m1) : ∀ {A : Act V}, T0 = [some A] →
    effect A m = some m' →
    (∃ B, T = [some B] ∧ effect B m1 = some m' ∧ k + steps B m1 = steps A m) ∨ (T = [none] ∧ m1 = m' ∧ k = steps A m) := by
  induction ha with
  | nil => intro A e h; exact .inl ⟨A, e, h, by omega⟩
  | cons hs hr ih =>
    intro A e h
    subst e
    cases hs with
    | read hi =>
      obtain ⟨rfl, hB⟩ := get_single hi
      subst hB
      rcases ih rfl h with ⟨B, h1, h2, h3⟩ | ⟨h1, h2, h3⟩
      · exact .inl ⟨B, h1, h2, by simp only [steps]; omega⟩
      · exact .inr ⟨h1, h2, by simp only [steps]; omega⟩
    | write hi =>
      obtain ⟨rfl, hB⟩ := get_single hi
      subst hB
      rcases ih rfl h with ⟨B, h1, h2, h3⟩ | ⟨h1, h2, h3⟩
      · exact .inl ⟨B, h1, h2, by simp only [steps]; omega⟩
      · exact .inr ⟨h1, h2, by simp only [steps]; omega⟩
    | stop hi =>
      obtain ⟨rfl, hB⟩ := get_single hi
      subst hB
      obtain ⟨h1, h2, h3⟩ := alone_none (by intro t ht; simpa using ht) hr
      simp only [effect, Option.some.injEq] at h
      exact .inr ⟨h2, by rw [h3, h], by simp only [steps]; omega⟩

theorem settles_single {A : Act V} {m m' : Mem V} (h : effect A m = some m') : Settles [some A] m m' := by
  refine ⟨⟨steps A m, fun k T m1 ha => ?_⟩, fun k T m1 ha => ?_⟩
  · rcases alone_single ha rfl h with ⟨B, -, -, h3⟩ | ⟨-, -, h3⟩ <;> omega
  · rcases alone_single ha rfl h with ⟨B, h1, h2, h3⟩ | ⟨h1, h2, h3⟩
    · subst h1
      refine ⟨fun _ => ?_, fun he => by cases he _ (List.mem_cons_self ..)⟩
      cases B with
      | done => exact ⟨_, _, .stop (i := 0) rfl⟩
      | fail => cases h2
      | read b a k => exact ⟨_, _, .read (i := 0) rfl⟩
      | write b a v k => exact ⟨_, _, .write (i := 0) rfl⟩
    · subst h1
      exact ⟨fun hn => absurd (by intro t ht; simpa using ht) hn, fun _ => h2⟩

theorem settles_nil (m : Mem V) : Settles [] m m := by
  have he : Ended ([] : Tasks V) := fun t ht => by simp at ht
  refine ⟨⟨0, fun k T m1 ha => (alone_none he ha).1.le⟩, fun k T m1 ha => ?_⟩
  obtain ⟨h1, h2, h3⟩ := alone_none he ha
  subst h2
  exact ⟨fun h => absurd he h, fun _ => h3⟩

/-! ## The threads of an assignment alone -/

theorem par_of_alone {s0 : ParState V} {k0 k w : Nat} {T T' : Tasks V} {m m1 : Mem V} (ha : Alone T m k T' m1) :
    ParRun s0 k0 ⟨T, posted T, w, m⟩ → ParRun s0 (k0 + k) ⟨T', posted T', w, m1⟩ := by
  induction ha generalizing k0 with
  | nil => exact id
  | @cons ts m ts1 m1 k ts2 m2 hs _ ih =>
    intro hr
    rw [show k0 + (k + 1) = (k0 + 1) + k by omega]
    apply ih
    cases hs with
    | read hi => rw [posted_set_some hi]; exact .step hr (.read hi)
    | write hi => rw [posted_set_some hi]; exact .step hr (.write hi)
    | stop hi => rw [posted_set_none hi]; exact .step hr (.post hi)

theorem par_waits {s0 : ParState V} {T : Tasks V} {m : Mem V} : ∀ (c : Nat) {k p w : Nat}, c ≤ p → c ≤ w →
    ParRun s0 k ⟨T, p, w, m⟩ → ParRun s0 (k + c) ⟨T, p - c, w - c, m⟩
  | 0, _, _, _, _, _, h => h
  | c + 1, k, p, w, h1, h2, h => by
    have := par_waits c (k := k + 1) (p := p - 1) (w := w - 1) (by omega) (by omega)
      (.step h (.wait (s := ⟨T, p, w, m⟩) (by dsimp only; omega) (by dsimp only; omega)))
    rw [show k + (c + 1) = k + 1 + c by omega, show p - (c + 1) = p - 1 - c by omega, show w - (c + 1) = w - 1 - c by omega]
    exact this

theorem ended_iff {T : Tasks V} : Ended T ↔ posted T = T.length := by
  unfold posted Ended
  rw [List.countP_eq_length]
  constructor
  · intro h a ha; rw [h a ha]; rfl
  · intro h t ht; have := h t ht; simpa using this

theorem alone_length {T T' : Tasks V} {m m1 : Mem V} {k : Nat} (ha : Alone T m k T' m1) : T'.length = T.length := by
  induction ha with
  | nil => rfl
  | cons hs _ ih => rw [ih]; cases hs <;> rw [List.length_set]

theorem settles_of_runsTo {s0 : ParState V} {m' : Mem V} (h : RunsTo s0 (fun r => r = m')) (hs : s0.sem = posted s0.tasks)
    (hw : s0.waits = s0.tasks.length) : Settles s0.tasks s0.mem m' := by
  obtain ⟨⟨B, hB⟩, hr⟩ := h
  have hstart : ParRun s0 0 ⟨s0.tasks, posted s0.tasks, s0.waits, s0.mem⟩ := by
    have : s0 = ⟨s0.tasks, posted s0.tasks, s0.waits, s0.mem⟩ := by rw [← hs]
    exact this ▸ .start
  refine ⟨⟨B, fun k T m1 ha => ?_⟩, fun k T m1 ha => ⟨fun hn => ?_, fun he => ?_⟩⟩
  · have := hB _ _ (par_of_alone ha hstart); omega
  · have h1 := par_of_alone ha hstart
    have hl := alone_length ha
    have hlt : posted T < T.length := by
      have : posted T ≤ T.length := List.countP_le_length
      have h2 : posted T ≠ T.length := fun h => hn (ended_iff.2 h)
      omega
    have h2 := par_waits (posted T) le_rfl (by omega) h1
    obtain ⟨s', hs'⟩ := (hr _ _ h2).2.1 (by dsimp only; omega)
    cases hs' with
    | read hi => exact ⟨_, _, .read hi⟩
    | write hi => exact ⟨_, _, .write hi⟩
    | post hi => exact ⟨_, _, .stop hi⟩
    | wait h3 _ => dsimp only at h3; omega
  · have h1 := par_of_alone ha hstart
    have hl := alone_length ha
    have hp := ended_iff.1 he
    have h2 := par_waits (posted T) le_rfl (by omega) h1
    exact ((hr _ _ h2).2.2 (by dsimp only; omega)).1

theorem gpuAssign_shape [Add V] [Mul V] {useGhost : Bool} {l : FieldObj} {e : Expr V .num} {m : Mem V} {k : ParState V}
    (h : gpuAssign useGhost l e m = .ok k) : k.sem = posted k.tasks ∧ k.waits = k.tasks.length ∧ k.mem = m ∧
      ∀ m1, gpuAssign useGhost l e m1 = .ok { k with mem := m1 } := by
  unfold gpuAssign at h
  simp only [Outcome.bind_eq_ok] at h
  obtain ⟨pg, h1, rg, h2, lg, h3, g, h4, geo, h5, base, h6, w, h7, u, h8, h⟩ := h
  injection h with h
  subst h
  refine ⟨?_, ?_, rfl, ?_⟩
  · unfold posted
    symm
    rw [List.countP_eq_zero]
    intro t ht
    obtain ⟨p, -, rfl⟩ := List.mem_map.1 ht
    simp
  · simp
  · intro m1
    unfold gpuAssign
    simp only [Outcome.bind_eq_ok]
    exact ⟨pg, h1, rg, h2, lg, h3, g, h4, geo, h5, base, h6, w, h7, u, h8, rfl⟩

/-! ## Copies, host accesses -/

theorem copy_effect {dst src : Nat} (hne : dst ≠ src) : ∀ (n : Nat) (i : Int) (m : Mem V),
    effect (copyActs dst src n i) m =
      some fun (b : Nat) (a : Int) => if b = dst ∧ i ≤ a ∧ a < i + (n : Int) then m src a else m b a
  | 0, i, m => by
    unfold copyActs effect
    congr 1
    funext b a
    rw [if_neg (by omega)]
  | n + 1, i, m => by
    unfold copyActs effect
    dsimp only [effect]
    rw [copy_effect hne n]
    congr 1
    funext b a
    simp only [Mem.write]
    have h0 : ¬ (src = dst ∧ a = i) := fun h => hne h.1.symm
    by_cases h1 : b = dst ∧ i + 1 ≤ a ∧ a < i + 1 + (n : Int)
    · have h2 : b = dst ∧ i ≤ a ∧ a < i + ((n + 1 : Nat) : Int) := ⟨h1.1, by omega, by push_cast; omega⟩
      simp only [h1, h2, h0, and_self, if_true, if_false]
    · simp only [h1, if_false]
      by_cases h2 : b = dst ∧ a = i
      · have h3 : b = dst ∧ i ≤ a ∧ a < i + ((n + 1 : Nat) : Int) := ⟨h2.1, by omega, by push_cast; omega⟩
        rw [if_pos h2, if_pos h3, h2.2]
      · have h3 : ¬ (b = dst ∧ i ≤ a ∧ a < i + ((n + 1 : Nat) : Int)) := by
          rintro ⟨h4, h5, h6⟩
          push_cast at h6
          by_cases h7 : a = i
          · exact h2 ⟨h4, h7⟩
          · exact h1 ⟨h4, by omega, by omega⟩
        rw [if_neg h2, if_neg h3]

theorem copy_within {dst src : Nat} (waits : Bool) (N : Nat) : ∀ (n : Nat) (i : Int),
    Within (Op.copy (V := V) dst src N waits).Touches (Op.copy (V := V) dst src N waits).Writes (copyActs (V := V) dst src n i)
  | 0, _ => trivial
  | n + 1, i => ⟨.inr rfl, fun _ => ⟨.inl rfl, rfl, copy_within waits N n (i + 1)⟩⟩

theorem host_within (A : Act V) : Within (Op.host A).Touches (Op.host A).Writes A := by
  suffices h : ∀ (B : Act V) (U W : Nat → Prop), (∀ b, ¬ Within (fun c => c ≠ b) (fun _ => True) B → U b) →
      (∀ b, ¬ Within (fun _ => True) (fun c => c ≠ b) B → W b) → Within U W B from h A _ _ (fun _ h => h) (fun _ h => h)
  intro B
  induction B with
  | done => intros; trivial
  | fail => intros; trivial
  | read b a k ih =>
    intro U W hu hw
    refine ⟨hu b fun h => h.1 rfl, fun v => ih v U W (fun c hc => hu c fun h => hc (h.2 v)) fun c hc => hw c fun h => hc (h.2 v)⟩
  | write b a v k ih =>
    intro U W hu hw
    exact ⟨hu b fun h => h.1 rfl, hw b fun h => h.2.1 rfl,
      ih U W (fun c hc => hu c fun h => hc h.2.2) fun c hc => hw c fun h => hc h.2.2⟩

end Str
end SpatialOps
