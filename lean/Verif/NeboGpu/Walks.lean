import Verif.NeboGpu.Spec
import Verif.NeboPar.Task

/-!
# Lemmas: what one CUDA thread reads and writes
-/

namespace SpatialOps
namespace Nebo

theorem gpuBits_spec {bit block : Int} (h : 0 ≤ block * 32 + bit) :
    (gpuBits bit block).2 = (block * 32 + bit).tdiv 32 ∧ (gpuBits bit block).1 = (block * 32 + bit).tmod 32 := by
  unfold gpuBits
  split
  · exact ⟨rfl, rfl⟩
  · rename_i h1
    rw [Int.tdiv_eq_ediv_of_nonneg h, Int.tmod_eq_emod_of_nonneg h]
    dsimp only
    omega

/-- The walker after `k` calls of `next()`. -/
def GWalk.nextN {V : Type} {t : Ty} (w : GWalk V t) : Nat → GWalk V t
  | 0 => w
  | k + 1 => (w.nextN k).next

theorem gnextN_const {V : Type} {t : Ty} (v : t.den V) (k : Nat) :
    (GWalk.const (V := V) v).nextN k = .const v := by
  induction k with
  | zero => rfl
  | succ k ih => simp only [GWalk.nextN, ih, GWalk.next]

theorem gnextN_field {V : Type} (b : Option Nat) (n cur xl st : Int) (k : Nat) :
    (GWalk.field (V := V) b n cur xl st).nextN k = .field b n (cur + k * st) xl st := by
  induction k with
  | zero => simp [GWalk.nextN]
  | succ k ih =>
    simp only [GWalk.nextN, ih, GWalk.next]
    congr 1
    push_cast; ring

theorem gnextN_mask {V : Type} (bits : BitField) (off xl st flat : Int) (hf : 0 ≤ flat) (hs : 0 ≤ st) (k : Nat) :
    (GWalk.mask (V := V) bits off (flat.tmod 32) (flat.tdiv 32) xl st).nextN k =
      .mask bits off ((flat + k * st).tmod 32) ((flat + k * st).tdiv 32) xl st := by
  induction k with
  | zero => simp [GWalk.nextN]
  | succ k ih =>
    simp only [GWalk.nextN, ih, GWalk.next]
    have h0 : 0 ≤ flat + k * st := by positivity
    have e : (flat + k * st).tdiv 32 * 32 + ((flat + k * st).tmod 32 + st) = flat + ((k + 1 : Nat) : Int) * st := by
      have := Int.tdiv_mul_add_tmod (flat + k * st) 32
      push_cast
      linarith
    have h1 : 0 ≤ flat + ((k + 1 : Nat) : Int) * st := by positivity
    obtain ⟨g1, g2⟩ := gpuBits_spec (bit := (flat + k * st).tmod 32 + st) (block := (flat + k * st).tdiv 32)
      (by rw [e]; exact h1)
    rw [g1, g2, e]

theorem gnextN_un {V : Type} {s t : Ty} (op : s.den V → t.den V) (a : GWalk V s) (k : Nat) :
    (GWalk.un op a).nextN k = .un op (a.nextN k) := by
  induction k with
  | zero => rfl
  | succ k ih => simp only [GWalk.nextN, ih, GWalk.next]

theorem gnextN_bin {V : Type} {s t : Ty} (op : s.den V → s.den V → t.den V) (a b : GWalk V s) (k : Nat) :
    (GWalk.bin op a b).nextN k = .bin op (a.nextN k) (b.nextN k) := by
  induction k with
  | zero => rfl
  | succ k ih => simp only [GWalk.nextN, ih, GWalk.next]

theorem gnextN_and {V : Type} (a b : GWalk V .bool) (k : Nat) :
    (GWalk.and a b).nextN k = .and (a.nextN k) (b.nextN k) := by
  induction k with
  | zero => rfl
  | succ k ih => simp only [GWalk.nextN, ih, GWalk.next]

theorem gnextN_or {V : Type} (a b : GWalk V .bool) (k : Nat) :
    (GWalk.or a b).nextN k = .or (a.nextN k) (b.nextN k) := by
  induction k with
  | zero => rfl
  | succ k ih => simp only [GWalk.nextN, ih, GWalk.next]

theorem gnextN_cond {V : Type} (c : GWalk V .bool) (a b : GWalk V .num) (k : Nat) :
    (GWalk.cond c a b).nextN k = .cond (c.nextN k) (a.nextN k) (b.nextN k) := by
  induction k with
  | zero => rfl
  | succ k ih => simp only [GWalk.nextN, ih, GWalk.next]

/-- Evaluating `w` with memory `m` reads only elements in `P` and gives `x`. -/
def GReads {V : Type} {t : Ty} (w : GWalk V t) (P : Nat → Int → Prop) (m : Mem V) (x : t.den V) : Prop :=
  ∀ (W All : Nat → Int → Prop), (∀ b a, P b a → W b a ∨ ¬ All b a) → ∀ (K : t.den V → Act V) n v',
    Act.Runs W All m (K x) n v' → ∃ n', Act.Runs W All m (w.acts K) n' v'

/-- `start(x, y)` with memory `m` reads only elements in `P` and leaves the walker `w'`. -/
def StartsAs {V : Type} {t : Ty} (x y : Int) (w : GWalk V t) (P : Nat → Int → Prop) (m : Mem V) (w' : GWalk V t) :
    Prop :=
  ∀ (W All : Nat → Int → Prop), (∀ b a, P b a → W b a ∨ ¬ All b a) → ∀ (K : GWalk V t → Act V) n v',
    Act.Runs W All m (K w') n v' → ∃ n', Act.Runs W All m (w.startActs x y K) n' v'

/-- A started walker evaluates to `v` at every height, reading only elements in `P`. -/
def GTracks {V : Type} {t : Ty} (h : Int) (w : GWalk V t) (P : Int → Nat → Int → Prop)
    (v : Mem V → Int → t.den V) : Prop :=
  ∀ k : Nat, (k : Int) < h → ∀ m, GReads (w.nextN k) (P k) m (v m k)

/-- What a thread at column `(x, y)` of a region with dimensions `e` makes of a walker:
if the column is in the region it evaluates to `v`. -/
def ThreadOk {V : Type} {t : Ty} (e : IntVec) (w : GWalk V t) (S : Nat → Int → Prop)
    (P : IntVec → Nat → Int → Prop) (v : Mem V → Mem V → IntVec → t.den V) : Prop :=
  ∀ x y m0, ∃ w', StartsAs x y w S m0 w' ∧
    (0 ≤ x → x < e.x → 0 ≤ y → y < e.y → GTracks e.z w' (fun z => P ⟨x, y, z⟩) fun m z => v m0 m ⟨x, y, z⟩)

theorem threadOk_const {V : Type} {t : Ty} (e : IntVec) (S : Nat → Int → Prop) (P : IntVec → Nat → Int → Prop)
    (v : t.den V) : ThreadOk e (GWalk.const (V := V) v) S P fun _ _ _ => v := by
  intro x y m0
  refine ⟨.const v, ?_, ?_⟩
  · intro W All _ K n v' h; exact ⟨n, h⟩
  · intro _ _ _ _ k _ m W All _ K n v' h
    rw [gnextN_const]
    exact ⟨n, h⟩

theorem threadOk_single {V : Type} (e : IntVec) {S : Nat → Int → Prop} (P : IntVec → Nat → Int → Prop)
    (b : Nat) {size : Int} (hs : 0 < size) (hS : S b 0) :
    ThreadOk e (GWalk.single (V := V) (some b) size) S P fun m0 _ _ => m0 b 0 := by
  intro x y m0
  refine ⟨.const (t := .num) (m0 b 0), ?_, ?_⟩
  · intro W All hWA K n v' h
    unfold GWalk.startActs elemAt
    dsimp only
    rw [Outcome.ubUnless_true ⟨le_refl _, hs⟩]
    exact ⟨n + 1, .read (hWA _ _ hS) h⟩
  · intro _ _ _ _ k _ m W All _ K n v' h
    rw [gnextN_const]
    exact ⟨n, h⟩

theorem threadOk_field {V : Type} {w : Window} (hw : w.Fits) (b : Nat) (S : Nat → Int → Prop)
    {P : IntVec → Nat → Int → Prop}
    (hP : ∀ loc, InBlock w.extent loc → P loc b (fortranPos w.npts (w.offset + loc))) :
    ThreadOk w.extent (GWalk.field (V := V) (some b) w.globNpts (winStart w) w.npts.x (w.npts.x * w.npts.y)) S P
      fun _ m loc => m b (fortranPos w.npts (w.offset + loc)) := by
  intro x y m0
  refine ⟨.field (some b) w.globNpts (winStart w + (x + y * w.npts.x)) w.npts.x (w.npts.x * w.npts.y), ?_, ?_⟩
  · intro W All _ K n v' h; exact ⟨n, h⟩
  · intro x0 x1 y0 y1 k hk m W All hWA K n v' h
    rw [gnextN_field]
    have hloc : InBlock w.extent ⟨x, y, k⟩ := by unfold InBlock IntVec.Le IntVec.Lt; simp; omega
    have hin : InBlock w.npts (w.offset + ⟨x, y, k⟩) := by
      obtain ⟨f1, f2, f3, f4⟩ := hw; iv_omega
    have ea : winStart w + (x + y * w.npts.x) + (k : Int) * (w.npts.x * w.npts.y) =
        fortranPos w.npts (w.offset + ⟨x, y, k⟩) := by
      unfold winStart fortranPos
      simp only [IntVec.add_x, IntVec.add_y, IntVec.add_z]
      ring
    rw [ea]
    unfold GWalk.acts elemAt
    dsimp only
    rw [Outcome.ubUnless_true (p := _ ∧ _ < w.globNpts) (fortranPos_bound hin)]
    exact ⟨n + 1, .read (hWA _ _ (hP _ hloc)) h⟩

theorem threadOk_mask {V : Type} {w : Window} (hw : w.Fits) (bits : BitField)
    (hs : bits.size = roundToInt w.globNpts) (S : Nat → Int → Prop) (P : IntVec → Nat → Int → Prop) :
    ThreadOk w.extent (GWalk.mask (V := V) bits (winStart w) 0 0 w.npts.x (w.npts.x * w.npts.y)) S P
      fun _ _ loc => bitAt bits.words (fortranPos w.npts (w.offset + loc)) := by
  intro x y m0
  refine ⟨.mask bits (winStart w) (gpuBits (winStart w + x + y * w.npts.x) 0).1
    (gpuBits (winStart w + x + y * w.npts.x) 0).2 w.npts.x (w.npts.x * w.npts.y), ?_, ?_⟩
  · intro W All _ K n v' h; exact ⟨n, h⟩
  · intro x0 x1 y0 y1 k hk m W All hWA K n v' h
    have inb : ∀ z : Int, 0 ≤ z → z < w.extent.z → InBlock w.npts (w.offset + ⟨x, y, z⟩) := by
      intro z z0 z1
      obtain ⟨f1, f2, f3, f4⟩ := hw; iv_omega
    have ea : ∀ z : Int, winStart w + x + y * w.npts.x + z * (w.npts.x * w.npts.y) =
        fortranPos w.npts (w.offset + ⟨x, y, z⟩) := by
      intro z
      unfold winStart fortranPos
      simp only [IntVec.add_x, IntVec.add_y, IntVec.add_z]
      ring
    have hb := fortranPos_bound (inb k (by omega) hk)
    have h0 : 0 ≤ winStart w + x + y * w.npts.x := by
      have := (fortranPos_bound (inb 0 (le_refl _) (by omega))).1
      rw [← ea] at this; simpa using this
    have hst : 0 ≤ w.npts.x * w.npts.y := by
      have := inb 0 (le_refl _) (by omega)
      obtain ⟨p, q⟩ := this
      exact mul_nonneg (by iv_omega) (by iv_omega)
    obtain ⟨g1, g2⟩ := gpuBits_spec (bit := winStart w + x + y * w.npts.x) (block := 0) (by simpa using h0)
    rw [g1, g2, Int.zero_mul, Int.zero_add, gnextN_mask _ _ _ _ _ h0 hst, ea]
    unfold GWalk.acts
    have hr := roundToInt_bound hb.1 hb.2
    rw [if_pos ⟨hr.1, by rw [hs]; exact hr.2.1, hr.2.2.1, hr.2.2.2⟩, bit_test _ _ (by omega)]
    exact ⟨n, h⟩

theorem threadOk_un {V : Type} {s t : Ty} {e : IntVec} {a : GWalk V s} {S : Nat → Int → Prop}
    {P : IntVec → Nat → Int → Prop} {v : Mem V → Mem V → IntVec → s.den V} (op : s.den V → t.den V)
    (h : ThreadOk e a S P v) : ThreadOk e (.un op a) S P fun m0 m l => op (v m0 m l) := by
  intro x y m0
  obtain ⟨a', h1, h2⟩ := h x y m0
  refine ⟨.un op a', ?_, ?_⟩
  · intro W All hWA K n v' hr
    exact h1 W All hWA (fun a' => K (.un op a')) n v' hr
  · intro x0 x1 y0 y1 k hk m W All hWA K n v' hr
    rw [gnextN_un]
    exact h2 x0 x1 y0 y1 k hk m W All hWA (fun x => K (op x)) n v' hr

theorem threadOk_bin {V : Type} {s t : Ty} {e : IntVec} {a b : GWalk V s} {S : Nat → Int → Prop}
    {P : IntVec → Nat → Int → Prop} {v u : Mem V → Mem V → IntVec → s.den V} (op : s.den V → s.den V → t.den V)
    (h : ThreadOk e a S P v) (h' : ThreadOk e b S P u) :
    ThreadOk e (.bin op a b) S P fun m0 m l => op (v m0 m l) (u m0 m l) := by
  intro x y m0
  obtain ⟨a', h1, h2⟩ := h x y m0
  obtain ⟨b', g1, g2⟩ := h' x y m0
  refine ⟨.bin op a' b', ?_, ?_⟩
  · intro W All hWA K n v' hr
    obtain ⟨n', r⟩ := g1 W All hWA (fun b' => K (.bin op a' b')) n v' hr
    exact h1 W All hWA (fun a' => b.startActs x y fun b' => K (.bin op a' b')) n' v' r
  · intro x0 x1 y0 y1 k hk m W All hWA K n v' hr
    rw [gnextN_bin]
    obtain ⟨n', r⟩ := g2 x0 x1 y0 y1 k hk m W All hWA (fun y => K (op (v m0 m ⟨_, _, k⟩) y)) n v' hr
    exact h2 x0 x1 y0 y1 k hk m W All hWA (fun x => (b'.nextN k).acts fun y => K (op x y)) n' v' r

theorem threadOk_and {V : Type} {e : IntVec} {a b : GWalk V .bool} {S : Nat → Int → Prop}
    {P : IntVec → Nat → Int → Prop} {v u : Mem V → Mem V → IntVec → Bool}
    (h : ThreadOk (t := .bool) e a S P v) (h' : ThreadOk (t := .bool) e b S P u) :
    ThreadOk (t := .bool) e (.and a b) S P fun m0 m l => v m0 m l && u m0 m l := by
  intro x y m0
  obtain ⟨a', h1, h2⟩ := h x y m0
  obtain ⟨b', g1, g2⟩ := h' x y m0
  refine ⟨.and a' b', ?_, ?_⟩
  · intro W All hWA K n v' hr
    obtain ⟨n', r⟩ := g1 W All hWA (fun b' => K (.and a' b')) n v' hr
    exact h1 W All hWA (fun a' => b.startActs x y fun b' => K (.and a' b')) n' v' r
  · intro x0 x1 y0 y1 k hk m W All hWA K n v' hr
    rw [gnextN_and]
    have : ∃ n', Act.Runs W All m ((fun x => if x = true then (b'.nextN k).acts K else K false)
        (v m0 m ⟨x, y, k⟩)) n' v' := by
      dsimp only at hr ⊢
      cases hv : v m0 m ⟨x, y, k⟩ with
      | true =>
        rw [if_pos rfl]
        rw [hv, Bool.true_and] at hr
        exact g2 x0 x1 y0 y1 k hk m W All hWA K n v' hr
      | false =>
        rw [if_neg (by simp)]
        rw [hv, Bool.false_and] at hr
        exact ⟨n, hr⟩
    obtain ⟨n', r⟩ := this
    exact h2 x0 x1 y0 y1 k hk m W All hWA _ n' v' r

theorem threadOk_or {V : Type} {e : IntVec} {a b : GWalk V .bool} {S : Nat → Int → Prop}
    {P : IntVec → Nat → Int → Prop} {v u : Mem V → Mem V → IntVec → Bool}
    (h : ThreadOk (t := .bool) e a S P v) (h' : ThreadOk (t := .bool) e b S P u) :
    ThreadOk (t := .bool) e (.or a b) S P fun m0 m l => v m0 m l || u m0 m l := by
  intro x y m0
  obtain ⟨a', h1, h2⟩ := h x y m0
  obtain ⟨b', g1, g2⟩ := h' x y m0
  refine ⟨.or a' b', ?_, ?_⟩
  · intro W All hWA K n v' hr
    obtain ⟨n', r⟩ := g1 W All hWA (fun b' => K (.or a' b')) n v' hr
    exact h1 W All hWA (fun a' => b.startActs x y fun b' => K (.or a' b')) n' v' r
  · intro x0 x1 y0 y1 k hk m W All hWA K n v' hr
    rw [gnextN_or]
    have : ∃ n', Act.Runs W All m ((fun x => if x = true then K true else (b'.nextN k).acts K)
        (v m0 m ⟨x, y, k⟩)) n' v' := by
      dsimp only at hr ⊢
      cases hv : v m0 m ⟨x, y, k⟩ with
      | true =>
        rw [if_pos rfl]
        rw [hv, Bool.true_or] at hr
        exact ⟨n, hr⟩
      | false =>
        rw [if_neg (by simp)]
        rw [hv, Bool.false_or] at hr
        exact g2 x0 x1 y0 y1 k hk m W All hWA K n v' hr
    obtain ⟨n', r⟩ := this
    exact h2 x0 x1 y0 y1 k hk m W All hWA _ n' v' r

theorem threadOk_cond {V : Type} {e : IntVec} {c : GWalk V .bool} {a b : GWalk V .num} {S : Nat → Int → Prop}
    {P : IntVec → Nat → Int → Prop} {q : Mem V → Mem V → IntVec → Bool} {v u : Mem V → Mem V → IntVec → V}
    (hc : ThreadOk (t := .bool) e c S P q) (h : ThreadOk (t := .num) e a S P v)
    (h' : ThreadOk (t := .num) e b S P u) :
    ThreadOk (t := .num) e (.cond c a b) S P fun m0 m l => if q m0 m l then v m0 m l else u m0 m l := by
  intro x y m0
  obtain ⟨c', f1, f2⟩ := hc x y m0
  obtain ⟨a', h1, h2⟩ := h x y m0
  obtain ⟨b', g1, g2⟩ := h' x y m0
  refine ⟨.cond c' a' b', ?_, ?_⟩
  · intro W All hWA K n v' hr
    obtain ⟨n', r⟩ := g1 W All hWA (fun b' => K (.cond c' a' b')) n v' hr
    obtain ⟨n'', r'⟩ := h1 W All hWA (fun a' => b.startActs x y fun b' => K (.cond c' a' b')) n' v' r
    exact f1 W All hWA (fun c' => a.startActs x y fun a' => b.startActs x y fun b' => K (.cond c' a' b')) n'' v' r'
  · intro x0 x1 y0 y1 k hk m W All hWA K n v' hr
    rw [gnextN_cond]
    have : ∃ n', Act.Runs W All m ((fun x => if x = true then (a'.nextN k).acts K else (b'.nextN k).acts K)
        (q m0 m ⟨x, y, k⟩)) n' v' := by
      dsimp only at hr ⊢
      cases hv : q m0 m ⟨x, y, k⟩ with
      | true =>
        rw [if_pos rfl]
        rw [hv, if_pos rfl] at hr
        exact h2 x0 x1 y0 y1 k hk m W All hWA K n v' hr
      | false =>
        rw [if_neg (by simp)]
        rw [hv, if_neg (by simp)] at hr
        exact g2 x0 x1 y0 y1 k hk m W All hWA K n v' hr
    obtain ⟨n', r⟩ := this
    exact f2 x0 x1 y0 y1 k hk m W All hWA _ n' v' r

theorem pts_gconstruct {V α : Type} [Add V] {e : IntVec} {S : Nat → Int → Prop} {P : IntVec → Nat → Int → Prop}
    (f : α → Outcome (GWalk V .num)) (v : Mem V → Mem V → IntVec → α → V) (pts : Pts α)
    (h : pts.All fun a => ∃ w, f a = .ok w ∧ ThreadOk (t := .num) e w S P fun m0 m l => v m0 m l a) :
    ∃ w, pts.gconstruct f = .ok w ∧ ThreadOk (t := .num) e w S P fun m0 m l => pts.sum (v m0 m l) := by
  induction pts with
  | one a =>
    exact (Pts.all_one
      (P := fun a => ∃ w, f a = .ok w ∧ ThreadOk (t := .num) e w S P fun m0 m l => v m0 m l a)).1 h
  | more e' a ih =>
    obtain ⟨h1, h2⟩ := Pts.all_more.1 h
    obtain ⟨w, hw, tw⟩ := ih h1
    obtain ⟨u, hu, tu⟩ := h2
    refine ⟨.bin (s := .num) (t := .num) (· + ·) w u, ?_, ?_⟩
    · simp only [Pts.gconstruct]
      rw [hw, Outcome.ok_bind, hu]
      rfl
    · exact threadOk_bin (s := .num) (t := .num) (· + ·) tw tu

theorem fieldValues_dev {f : FieldObj} {dev : Nat} (h : devPtr f dev ≠ none) :
    f.fieldValuesC true .gpu dev = .ok (devPtr f dev) := by
  unfold FieldObj.fieldValuesC
  unfold devPtr at h ⊢
  dsimp only
  rw [if_pos rfl]
  split
  · rfl
  · rename_i h1
    rw [if_neg h1] at h
    cases hl : f.consumers.lookup dev with
    | none => exact absurd hl h
    | some b => rfl

/-- The elements read when a thread starts: memory of other fields. -/
def OtherMem (l : FieldObj) (blk : Nat) (_ : Int) : Prop := some blk ≠ l.values

/-- `gpu_init` succeeds on a region where the expression has values on the device, and
every thread in the region's columns evaluates it there, displaced by `s`. -/
theorem gpuInit_ok {V : Type} [Add V] [Mul V] (dev : Nat) {n minus plus : IntVec}
    (hbox : IntVec.Lt 0 (n + minus + plus)) (l : FieldObj) : {t : Ty} → (e : Expr V t) → (e.onDevice dev).Wf n →
    (s : IntVec) → (∀ c, InBox n minus plus c → (e.onDevice dev).DefinedAt n c ∧ (e.onDevice dev).DefinedAt n (c + s)) →
    (e.onDevice dev).Independent l s → (e.onDevice dev).SinglesApart l →
    ∃ w, e.gpuInit dev minus plus s = .ok w ∧
      ThreadOk (n + minus + plus) w (OtherMem l) (fun x => MayRead l (x - minus))
        fun m0 m x => (e.onDevice dev).value2 m0 m (x - minus + s)
  | _, .scalar v, _, _, _, _, _ => ⟨_, rfl, threadOk_const _ _ _ v⟩
  | _, .single f, h, _, _, _, ha => by
    simp only [Expr.onDevice, Expr.Wf, Expr.SinglesApart] at h ha
    obtain ⟨b, hb⟩ := Option.ne_none_iff_exists'.1 h.1
    rw [hb] at ha
    refine ⟨.single (some b) f.geo.window.globNpts, ?_, ?_⟩
    · simp only [Expr.gpuInit]
      rw [fieldValues_dev h.1, Outcome.ok_bind, hb]
      rfl
    · simp only [Expr.onDevice, Expr.value2, hb, Option.getD_some]
      exact threadOk_single _ _ b h.2 ha
  | _, .field f, h, s, hd, hi, _ => by
    simp only [Expr.onDevice, Expr.Wf, Expr.DefinedAt, Expr.Independent] at h hd hi
    obtain ⟨g, g1, g2, g3, g4⟩ := leaf_reshape h.1 hbox hd
    obtain ⟨b, hb⟩ := Option.ne_none_iff_exists'.1 h.2
    refine ⟨.field (some b) g.window.globNpts (winStart g.window) g.window.npts.x
      (g.window.npts.x * g.window.npts.y), ?_, ?_⟩
    · simp only [Expr.gpuInit]
      rw [g1, Outcome.ok_bind, fieldValues_dev h.2, Outcome.ok_bind, hb]
      rfl
    · have haddr : ∀ x : IntVec, fortranPos g.window.npts (g.window.offset + x) =
          cellAddr f.geo (x - minus + s) := by
        intro x
        rw [g2]
        unfold cellAddr
        congr 1
        ext <;> simp <;> omega
      have := threadOk_field (V := V) g3 b (OtherMem l) (P := fun x => MayRead l (x - minus)) (by
          intro x _
          rw [haddr]
          rcases hi with hi | ⟨h1, h2, h3⟩
          · left; rw [← hb]; exact hi
          · right
            unfold cellAddr
            rw [h1, h2, h3]
            congr 1
            ext <;> simp)
      rw [show g.window.extent = n + minus + plus by rw [g2]] at this
      simp only [haddr] at this
      simp only [Expr.onDevice, Expr.value2, hb, Option.getD_some]
      exact this
  | _, .mask k, h, s, hd, _, _ => by
    simp only [Expr.onDevice, Expr.Wf, Expr.DefinedAt] at h hd
    obtain ⟨g, g1, g2, g3, g4⟩ := leaf_reshape h.1 hbox hd
    have hsz : k.bits.size = roundToInt g.window.globNpts := by rw [h.2, g2]; rfl
    refine ⟨.mask k.bits (winStart g.window) 0 0 g.window.npts.x (g.window.npts.x * g.window.npts.y), ?_, ?_⟩
    · simp only [Expr.gpuInit]
      rw [g1, Outcome.ok_bind]
      rfl
    · have haddr : ∀ x : IntVec, fortranPos g.window.npts (g.window.offset + x) =
          cellAddr k.geo (x - minus + s) := by
        intro x
        rw [g2]
        unfold cellAddr
        congr 1
        ext <;> simp <;> omega
      have := threadOk_mask (V := V) g3 k.bits hsz (OtherMem l) (fun x => MayRead l (x - minus))
      rw [show g.window.extent = n + minus + plus by rw [g2]] at this
      simp only [haddr] at this
      simp only [Expr.onDevice, Expr.value2]
      exact this
  | _, .maskShift p a, h, s, hd, hi, ha => by
    obtain ⟨w, hw, tw⟩ := gpuInit_ok dev hbox l a h (s + p)
      (fun c hc => ⟨(hd c hc).1.1, by rw [← add_assoc_iv]; exact (hd c hc).2.2⟩) hi ha
    refine ⟨w, hw, ?_⟩
    simp only [← add_assoc_iv] at tw
    exact tw
  | _, .un op a, h, s, hd, hi, ha => by
    obtain ⟨w, hw, tw⟩ := gpuInit_ok dev hbox l a h s hd hi ha
    exact ⟨.un op w, by simp only [Expr.gpuInit]; rw [hw]; rfl, threadOk_un op tw⟩
  | _, .bin op a b, h, s, hd, hi, ha => by
    obtain ⟨w, hw, tw⟩ := gpuInit_ok dev hbox l a h.1 s (fun c hc => ⟨(hd c hc).1.1, (hd c hc).2.1⟩) hi.1 ha.1
    obtain ⟨u, hu, tu⟩ := gpuInit_ok dev hbox l b h.2 s (fun c hc => ⟨(hd c hc).1.2, (hd c hc).2.2⟩) hi.2 ha.2
    exact ⟨.bin op w u, by simp only [Expr.gpuInit]; rw [hw, Outcome.ok_bind, hu]; rfl, threadOk_bin op tw tu⟩
  | _, .and a b, h, s, hd, hi, ha => by
    obtain ⟨w, hw, tw⟩ := gpuInit_ok dev hbox l a h.1 s (fun c hc => ⟨(hd c hc).1.1, (hd c hc).2.1⟩) hi.1 ha.1
    obtain ⟨u, hu, tu⟩ := gpuInit_ok dev hbox l b h.2 s (fun c hc => ⟨(hd c hc).1.2, (hd c hc).2.2⟩) hi.2 ha.2
    exact ⟨.and w u, by simp only [Expr.gpuInit]; rw [hw, Outcome.ok_bind, hu]; rfl, threadOk_and tw tu⟩
  | _, .or a b, h, s, hd, hi, ha => by
    obtain ⟨w, hw, tw⟩ := gpuInit_ok dev hbox l a h.1 s (fun c hc => ⟨(hd c hc).1.1, (hd c hc).2.1⟩) hi.1 ha.1
    obtain ⟨u, hu, tu⟩ := gpuInit_ok dev hbox l b h.2 s (fun c hc => ⟨(hd c hc).1.2, (hd c hc).2.2⟩) hi.2 ha.2
    exact ⟨.or w u, by simp only [Expr.gpuInit]; rw [hw, Outcome.ok_bind, hu]; rfl, threadOk_or tw tu⟩
  | _, .cond t a b, h, s, hd, hi, ha => by
    obtain ⟨q, hq, tq⟩ := gpuInit_ok dev hbox l t h.1 s (fun c hc => ⟨(hd c hc).1.1, (hd c hc).2.1⟩) hi.1 ha.1
    obtain ⟨w, hw, tw⟩ := gpuInit_ok dev hbox l a h.2.1 s
      (fun c hc => ⟨(hd c hc).1.2.1, (hd c hc).2.2.1⟩) hi.2.1 ha.2.1
    obtain ⟨u, hu, tu⟩ := gpuInit_ok dev hbox l b h.2.2 s
      (fun c hc => ⟨(hd c hc).1.2.2, (hd c hc).2.2.2⟩) hi.2.2 ha.2.2
    exact ⟨.cond q w u, by
      simp only [Expr.gpuInit]; rw [hq, Outcome.ok_bind, hw, Outcome.ok_bind, hu]; rfl, threadOk_cond tq tw tu⟩
  | _, .stencil pts a, h, s, hd, hi, ha => by
    obtain ⟨w, hw, tw⟩ := pts_gconstruct (e := n + minus + plus) (S := OtherMem l)
      (P := fun x => MayRead l (x - minus))
      (fun pc : IntVec × V => a.gpuInit dev minus plus (s + pc.1) >>= fun x =>
        .ok (.bin (s := .num) (t := .num) (· * ·) x (.const (t := .num) pc.2)))
      (fun m0 m x q => ((a.onDevice dev).value2 m0 m (x - minus + (s + q.1)) * q.2 : V)) pts (by
        intro q hq
        obtain ⟨w, hw, tw⟩ := gpuInit_ok dev hbox l a h (s + q.1)
          (fun c hc => ⟨((hd c hc).1 q hq).1, by rw [← add_assoc_iv]; exact ((hd c hc).2 q hq).2⟩) (hi q hq) ha
        refine ⟨_, by rw [hw]; rfl, ?_⟩
        exact threadOk_bin (s := .num) (t := .num) (· * ·) tw (threadOk_const (t := .num) _ _ _ q.2))
    refine ⟨w, hw, ?_⟩
    simp only [← add_assoc_iv] at tw
    exact tw
  | _, .sumStencil pts a, h, s, hd, hi, ha => by
    obtain ⟨w, hw, tw⟩ := pts_gconstruct (e := n + minus + plus) (S := OtherMem l)
      (P := fun x => MayRead l (x - minus))
      (fun p : IntVec => a.gpuInit dev minus plus (s + p))
      (fun m0 m x q => ((a.onDevice dev).value2 m0 m (x - minus + (s + q)) : V)) pts (by
        intro q hq
        exact gpuInit_ok dev hbox l a h (s + q)
          (fun c hc => ⟨((hd c hc).1 q hq).1, by rw [← add_assoc_iv]; exact ((hd c hc).2 q hq).2⟩) (hi q hq) ha)
    refine ⟨w, hw, ?_⟩
    simp only [← add_assoc_iv] at tw
    exact tw

/-! ## The loop of a thread -/

/-- The memory a thread has produced, alone, after `k` cells. -/
def viewC {V : Type} (addr : Int → Int) (b : Nat) (val : Int → V) (m0 : Mem V) : Nat → Mem V
  | 0 => m0
  | k + 1 => (viewC addr b val m0 k).write b (addr k) (val k)

theorem viewC_other {V : Type} {addr : Int → Int} {b : Nat} {val : Int → V} {m0 : Mem V} (k : Nat) (blk : Nat)
    (a : Int) (h : blk ≠ b ∨ ∀ j < k, addr (j : Nat) ≠ a) : viewC addr b val m0 k blk a = m0 blk a := by
  induction k with
  | zero => rfl
  | succ k ih =>
    unfold viewC Mem.write
    rw [if_neg, ih]
    · rcases h with h | h
      · exact .inl h
      · exact .inr fun j hj => h j (by omega)
    · rintro ⟨rfl, rfl⟩
      rcases h with h | h
      · exact h rfl
      · exact h k (by omega) rfl

theorem viewC_val {V : Type} {addr : Int → Int} {b : Nat} {val : Int → V} {m0 : Mem V} {h : Int}
    (hinj : ∀ i j : Nat, (i : Int) < h → (j : Int) < h → addr i = addr j → i = j) (k : Nat) (hk : (k : Int) ≤ h)
    (j : Nat) (hj : j < k) : viewC addr b val m0 k b (addr j) = val j := by
  induction k with
  | zero => omega
  | succ k ih =>
    unfold viewC Mem.write
    by_cases e : j = k
    · subst e; rw [if_pos ⟨rfl, rfl⟩]
    · rw [if_neg]
      · exact ih (by omega) (by omega)
      · rintro ⟨-, h2⟩
        exact e (hinj j k (by omega) (by omega) h2)

/-- The loop of a thread in a column of the region, alone. -/
theorem threadLoop_runs {V : Type} {size h step cur : Int} {b : Nat} {u : GWalk V .num}
    {P : Int → Nat → Int → Prop} {v : Mem V → Int → V} {val : Int → V} (m0 : Mem V)
    (ht : GTracks (t := .num) h u P v)
    (hinj : ∀ i j : Nat, (i : Int) < h → (j : Int) < h → cur + i * step = cur + j * step → i = j)
    (hb : ∀ k : Nat, (k : Int) < h → 0 ≤ cur + k * step ∧ cur + k * step < size)
    (hval : ∀ k : Nat, (k : Int) < h → ∀ m : Mem V,
      (∀ blk a, (blk ≠ b ∨ a = cur + k * step) → m blk a = m0 blk a) → v m k = val k)
    (W All : Nat → Int → Prop) (hP : ∀ k : Nat, (k : Int) < h → ∀ blk a, P k blk a → W blk a ∨ ¬ All blk a)
    (hW : ∀ k : Nat, (k : Int) < h → W b (cur + k * step)) (fuel k : Nat)
    (hk : (k : Int) + fuel = h) :
    ∃ c, Act.Runs W All (viewC (fun z => cur + z * step) b val m0 k)
      (threadLoop (some b) size true h step fuel k (cur + k * step) (u.nextN k)) c
      (viewC (fun z => cur + z * step) b val m0 h.toNat) := by
  induction fuel generalizing k with
  | zero =>
    have : k = h.toNat := by omega
    subst this
    unfold threadLoop
    rw [if_pos (by omega)]
    exact ⟨0, .done⟩
  | succ fuel ih =>
    obtain ⟨c, hc⟩ := ih (k + 1) (by push_cast; omega)
    have hkN : (k : Int) < h := by omega
    unfold threadLoop
    rw [if_neg (by omega)]
    dsimp only
    rw [if_pos rfl]
    have hv : v (viewC (fun z => cur + z * step) b val m0 k) k = val k := by
      apply hval _ hkN
      intro blk a ha
      apply viewC_other
      rcases ha with ha | ha
      · exact .inl ha
      · refine .inr fun j hj h2 => ?_
        rw [ha] at h2
        have := hinj j k (by omega) hkN h2
        omega
    apply ht k hkN (viewC (fun z => cur + z * step) b val m0 k) W All (hP _ hkN) _ (c + 1)
    rw [hv]
    unfold elemAt
    dsimp only
    rw [Outcome.ubUnless_true (hb k hkN)]
    have e1 : (k : Int) + 1 = ((k + 1 : Nat) : Int) := by push_cast; rfl
    have e2 : cur + (k : Int) * step + step = cur + ((k + 1 : Nat) : Int) * step := by push_cast; ring
    rw [e1, e2]
    exact .write (hW _ hkN) hc

/-- A thread outside the region does nothing. -/
theorem threadLoop_invalid {V : Type} (W All : Nat → Int → Prop) (m : Mem V) (base : Option Nat) (size h step : Int)
    (fuel : Nat) (z cur : Int) (w : GWalk V .num) (hk : h ≤ z + fuel) :
    Act.Runs W All m (threadLoop base size false h step fuel z cur w) 0 m := by
  induction fuel generalizing z cur w with
  | zero =>
    unfold threadLoop
    rw [if_pos (by omega)]
    exact .done
  | succ fuel ih =>
    unfold threadLoop
    split
    · exact .done
    · dsimp only
      rw [if_neg (by simp)]
      exact ih _ _ _ (by push_cast at hk; omega)

end Nebo
end SpatialOps
