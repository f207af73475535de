import Verif.FieldMem.Steps

/-!
# Properties of the contents of fields (C59, C60, C61)
-/

namespace SpatialOps
namespace FieldMem
open FieldWorld

variable {V : Type}

/-- Contents wherever a field is available. -/
theorem shows {C : Nat → Prop} {cuda : Bool} {w : FieldMem V} (hi : MInv C cuda w) {h : Nat} {f : FieldObj}
    (hf : w.fw.fields[h]? = some (some f)) {mt dev p} (hp : f.fieldValuesC cuda mt dev = .ok p) :
    ∃ b d, p = some b ∧ f.home = some d ∧ Agree w.mem f.alloc b d := by
  obtain ⟨d, hd, _⟩ := (hi.ref h f hf).home
  have hcons : ∀ b, IsCons f b → ∃ b' d', some b = some b' ∧ f.home = some d' ∧ Agree w.mem f.alloc b' d' :=
    fun b hb => ⟨b, d, rfl, hd, hi.coh h f hf b d hb hd⟩
  unfold FieldObj.fieldValuesC at hp
  cases mt with
  | other => cases hp
  | localRam =>
    dsimp only at hp
    cases hv : f.values with
    | none => rw [hv] at hp; cases hp
    | some b =>
      rw [hv] at hp
      injection hp with hp; subst hp
      cases hm : f.memType with
      | localRam => exact ⟨b, b, rfl, by simp [FieldObj.home, hm, hv], fun _ _ _ => rfl⟩
      | gpu => exact hcons b (Or.inr ⟨hm, hv⟩)
      | other => simp [FieldObj.home, hm] at hd
  | gpu =>
    dsimp only at hp
    split at hp
    · split at hp
      · rename_i hc
        injection hp with hp; subst hp
        have : f.ext = some d := by simpa [FieldObj.home, hc.1] using hd
        exact ⟨d, d, this, hd, fun _ _ _ => rfl⟩
      · cases hlk : f.consumers.lookup dev with
        | none => rw [hlk] at hp; cases hp
        | some b =>
          rw [hlk] at hp
          injection hp with hp; subst hp
          exact hcons b (Or.inl ⟨_, mem_of_lookup hlk, rfl⟩)
    · cases hp

/-- C59, the part that holds. In every history that respects the discipline of `Disciplined`, no
operation has undefined behaviour, and wherever an existing field is available
(`field_values(mt,dev)` does not throw) it shows the same values as in the memory it lives in.
Missing: the discipline is not enforced by the code, see the three witnesses below. -/
theorem _root_.SpatialOps.C59_same_values_everywhere_partial (C : Nat → Prop) (cuda : Bool) (zero : V) (m : Mem V) (os : List (Op V))
    (hc : (init m).Careful C cuda zero os) :
    (init m).run cuda zero os = .abort ∨ ∃ w, (init m).run cuda zero os = .ok w ∧
      ∀ (h : Nat) (f : FieldObj), w.fw.fields[h]? = some (some f) → ∀ mt dev p, f.fieldValuesC cuda mt dev = .ok p →
        ∃ b d, p = some b ∧ f.home = some d ∧ Agree w.mem f.alloc b d := by
  rcases run_good zero os (mInv_init C cuda m) hc with e | ⟨w, e, hi⟩
  · exact Or.inl e
  · exact Or.inr ⟨w, e, fun h f hf mt dev p hp => shows hi hf hp⟩

theorem inv_of_run {C : Nat → Prop} {cuda : Bool} {zero : V} {m : Mem V} {os : List (Op V)} {w : FieldMem V}
    (hc : (init m).Careful C cuda zero os) (hr : (init m).run cuda zero os = .ok w) : MInv C cuda w := by
  rcases run_good zero os (mInv_init C cuda m) hc with e | ⟨w', e, hi⟩
  · rw [e] at hr; cases hr
  · rw [e] at hr; injection hr with hr; subst hr; exact hi

/-- C59. After a successful `add_consumer(mt,dev)` the field is available there and shows exactly the
values it had before the call in the memory it lives in. -/
theorem _root_.SpatialOps.C59_available_after_add_consumer (C : Nat → Prop) (cuda : Bool) (zero : V) (m : Mem V) (os : List (Op V)) (w w' : FieldMem V)
    (hc : (init m).Careful C cuda zero os) (hr : (init m).run cuda zero os = .ok w)
    (h : Nat) (f : FieldObj) (hf : w.fw.fields[h]? = some (some f)) (mt : MemType) (dev fresh : Nat) (src : Option (Int → V))
    (hl : w.Legal C (.life (.addConsumer h mt dev fresh) src))
    (hs : w.step cuda zero (.life (.addConsumer h mt dev fresh) src) = .ok (w', false)) :
    ∃ f' b d, w'.fw.fields[h]? = some (some f') ∧ f'.fieldValuesC cuda mt dev = .ok (some b) ∧ f.home = some d ∧
      f'.alloc = f.alloc ∧ ∀ i, 0 ≤ i → i < f.alloc → w'.mem b i = w.mem d i := by
  have hi := inv_of_run hc hr
  obtain ⟨d, hd, _⟩ := (hi.ref h f hf).home
  have hmain : MInv C cuda w' ∧ Frame w w' (.life (.addConsumer h mt dev fresh) src) := by
    rcases add_good zero hi hl with e | ⟨w2, b2, e, h1, h2⟩
    · rw [e] at hs; cases hs
    · rw [e] at hs; injection hs with hs; injection hs with hs _; subst hs; exact ⟨h1, h2⟩
  obtain ⟨hi', hfr⟩ := hmain
  have hav : ∃ f' p, w'.fw.fields[h]? = some (some f') ∧ f'.fieldValuesC cuda mt dev = .ok p := by
    rw [step_life, FieldWorld.step] at hs
    rw [field_eq hf, Outcome.ok_bind] at hs
    simp only [Outcome.bind_eq_ok] at hs
    obtain ⟨⟨fw', b⟩, e, m', _, hs⟩ := hs
    injection hs with hs; injection hs with h1 h2
    subst h1 h2
    dsimp only at *
    rcases add_inv hi.fi hi.dj hf (hi.ref h f hf) hl.2 e with ⟨h1, h2, rfl, _⟩ | ⟨hloc, f1, ha⟩
    · refine ⟨f, some d, hf, ?_⟩
      unfold FieldObj.fieldValuesC
      subst h1 h2
      cases hm : f.memType with
      | other => simp [FieldObj.home, hm] at hd
      | localRam =>
        have hv : f.values = some d := by simpa [FieldObj.home, hm] using hd
        simp [hv]
      | gpu =>
        have hv : f.ext = some d := by simpa [FieldObj.home, hm] using hd
        simp [hv, hi.cu h f hf hm]
    · have hf1 : fw'.fields[h]? = some (some f1) := by rw [ha.fields, get_set (lt_of_get hf), if_pos rfl]
      refine ⟨f1, ?_⟩
      obtain ⟨d1, hd1, _⟩ := ha.ref.home
      rcases ha.filled with ⟨hb | ⟨h1, h2⟩, _⟩ | ⟨_, t, _, _, ⟨h1, h2, h3⟩ | ⟨h1, h2, h3⟩⟩
      · cases hb
      · have hv : f1.values = some d1 := by simpa [FieldObj.home, h2] using hd1
        exact ⟨some d1, hf1, by simp [FieldObj.fieldValuesC, h1, hv]⟩
      · exact ⟨some t, hf1, by simp [FieldObj.fieldValuesC, h1, h3]⟩
      · have hcu : cuda = true := by
          cases hcu : cuda with
          | true => rfl
          | false =>
            unfold addConsumer at e
            rw [if_neg hloc] at e
            simp [h1, hcu] at e
        by_cases hx : f1.memType = .gpu ∧ dev = f1.dev
        · exact ⟨f1.ext, hf1, by simp [FieldObj.fieldValuesC, h1, hcu, hx]⟩
        · exact ⟨some t, hf1, by simp only [FieldObj.fieldValuesC, h1, hcu, if_true, if_neg hx, h3]⟩
  obtain ⟨f', p, hf', hp⟩ := hav
  obtain ⟨hsame, hold⟩ := hfr h f f' hf hf'
  obtain ⟨b, d', rfl, hd', hag⟩ := shows hi' hf' hp
  rw [hsame.home, hd] at hd'; injection hd' with hd'; subst hd'
  refine ⟨f', b, d, hf', hp, hd, hsame.alloc, fun i h0 h1 => ?_⟩
  rw [hag i h0 (by rw [hsame.alloc]; exact h1)]
  exact hold d hd (fun h => h) i h0 h1

/-- C59. An operation leaves every field existing before and after it in the memory it lived in, and
leaves its values as they are, unless the operation is a change (write through a pointer or
`operator()`, assignment) of a field that lives in the same memory. -/
theorem _root_.SpatialOps.C59_other_fields_unchanged_partial (C : Nat → Prop) (cuda : Bool) (zero : V) (m : Mem V) (os : List (Op V)) (w w' : FieldMem V)
    (hc : (init m).Careful C cuda zero os) (hr : (init m).run cuda zero os = .ok w) (o : Op V) (b : Bool)
    (hl : w.Legal C o) (hd : w.Disciplined o) (hs : w.step cuda zero o = .ok (w', b))
    (k : Nat) (f f' : FieldObj) (hf : w.fw.fields[k]? = some (some f)) (hf' : w'.fw.fields[k]? = some (some f')) :
    f'.home = f.home ∧ f'.alloc = f.alloc ∧ (∀ d, f.home = some d → ¬ w.Mutates d o →
      ∀ i, 0 ≤ i → i < f.alloc → w'.mem d i = w.mem d i) := by
  rcases step_good zero (inv_of_run hc hr) o hl hd with e | ⟨w2, b2, e, _, h2⟩
  · rw [e] at hs; cases hs
  · rw [e] at hs; injection hs with hs; injection hs with hs _; subst hs
    obtain ⟨h3, h4⟩ := h2 k f f' hf hf'
    exact ⟨h3.home, h3.alloc, fun d hd hn => h4 d hd hn⟩

/-- C59. Writing element `i` through the pointer `field_values(mt,dev)` returns is refused with an
exception, with no effect, or changes element `i` of the memory the field lives in and nothing
else. -/
theorem _root_.SpatialOps.C59_write_partial (C : Nat → Prop) (cuda : Bool) (zero : V) (m : Mem V) (os : List (Op V)) (w : FieldMem V)
    (hc : (init m).Careful C cuda zero os) (hr : (init m).run cuda zero os = .ok w) (h : Nat) (f : FieldObj)
    (hf : w.fw.fields[h]? = some (some f)) (mt : MemType) (dev : Nat) (i : Int) (v : V) (hd : Exclusive w.fw h) :
    w.step cuda zero (.write h mt dev i v) = .ok (w, true) ∨
    ∃ d w', w.step cuda zero (.write h mt dev i v) = .ok (w', false) ∧ f.home = some d ∧ f.readOnly = false ∧ w'.fw = w.fw ∧
      w'.mem d i = v ∧ ∀ b j, (b ≠ d ∨ j ≠ i) → w'.mem b j = w.mem b j := by
  have hi := inv_of_run hc hr
  unfold FieldMem.step
  dsimp only
  rw [field_eq hf, Outcome.ok_bind]
  rcases fieldValuesM_home hi hf hd (mt := mt) (dev := dev) with e | ⟨d, e, hd, hro⟩
  · left; rw [e]; rfl
  · right
    refine ⟨d, ⟨w.fw, w.mem.write d i v⟩, by rw [e]; rfl, hd, hro, rfl, by simp [Mem.write], ?_⟩
    intro b j hb
    rcases hb with hb | hb <;> simp [Mem.write, hb]

/-! ## Assignment -/

/-- C60. `f = g` never has undefined behaviour. It is refused with an exception, with no effect, exactly
if `f` is read-only or the windows of the fields differ. Otherwise the memory `f` lives in has
afterwards the values of `g`, on whichever devices the two fields live, and no other memory
changes. -/
theorem _root_.SpatialOps.C60_assign (C : Nat → Prop) (cuda : Bool) (zero : V) (m : Mem V) (os : List (Op V)) (w : FieldMem V)
    (hc : (init m).Careful C cuda zero os) (hr : (init m).run cuda zero os = .ok w) (h k : Nat) (f g : FieldObj)
    (hf : w.fw.fields[h]? = some (some f)) (hg : w.fw.fields[k]? = some (some g)) :
    if f.readOnly = true ∨ f.geo.window ≠ g.geo.window then w.step cuda zero (.assign h k) = .ok (w, true)
    else ∃ w' d s, w.step cuda zero (.assign h k) = .ok (w', false) ∧ f.home = some d ∧ g.home = some s ∧ f.alloc = g.alloc ∧ w'.fw = w.fw ∧
      (∀ i, 0 ≤ i → i < f.alloc → w'.mem d i = w.mem s i) ∧
      ∀ b i, (b ≠ d ∨ i < 0 ∨ f.alloc ≤ i) → w'.mem b i = w.mem b i := by
  have hi := inv_of_run hc hr
  obtain ⟨d, hd, _⟩ := (hi.ref h f hf).home
  obtain ⟨s, hs, _⟩ := (hi.ref k g hg).home
  unfold FieldMem.step
  dsimp only
  rw [field_eq hf, Outcome.ok_bind, field_eq hg, Outcome.ok_bind]
  have hne : f.geo.window.neOp g.geo.window = true ↔ f.geo.window ≠ g.geo.window := by
    unfold Window.neOp
    cases hw : f.geo.window; cases hw' : g.geo.window
    simp only [Bool.or_eq_true, decide_eq_true_eq, ne_eq, Window.mk.injEq]
    tauto
  split
  · rename_i hcase
    unfold assignAny
    rcases hcase with hro | hw
    · rw [Outcome.throwIf_true hro]; rfl
    · by_cases hro : f.readOnly = true
      · rw [Outcome.throwIf_true hro]; rfl
      · rw [Outcome.throwIf_false hro, Outcome.ok_bind, Outcome.throwIf_true (hne.2 hw)]; rfl
  · rename_i hcase
    have hro : ¬ f.readOnly = true := fun h => hcase (Or.inl h)
    have hw : f.geo.window = g.geo.window := by
      by_contra h; exact hcase (Or.inr h)
    have hal : f.alloc = g.alloc := by
      rw [← (hi.ref h f hf).win, ← (hi.ref k g hg).win, hw]
    rcases assignAny_cases cuda f g w.mem hd hs with e | ⟨_, _, ⟨e, hds⟩ | ⟨e, _⟩ | ⟨e, _⟩⟩
    · exfalso
      unfold assignAny at e
      have hn : ¬ f.geo.window.neOp g.geo.window = true := fun h => hne.1 h hw
      rw [Outcome.throwIf_false hro, Outcome.ok_bind, Outcome.throwIf_false hn, Outcome.ok_bind] at e
      have cuf := hi.cu h f hf
      have cug := hi.cu k g hg
      cases hfm : f.memType with
      | other => simp [FieldObj.home, hfm] at hd
      | localRam =>
        simp only [FieldObj.home, hfm] at hd
        cases hgm : g.memType with
        | other => simp [FieldObj.home, hgm] at hs
        | localRam =>
          simp only [FieldObj.home, hgm] at hs
          simp only [hfm, hgm, assignField] at e
          rw [Outcome.throwIf_false hro, Outcome.ok_bind, Outcome.throwIf_false hn, Outcome.ok_bind,
            Outcome.throwIf_false (by simp), Outcome.ok_bind, Outcome.throwIf_false (by simp [hs]), Outcome.ok_bind, hd, hs] at e
          split at e <;> cases e
        | gpu =>
          simp only [FieldObj.home, hgm] at hs
          simp [hfm, hgm, cug hgm, Mem.memcpy, hd, hs] at e
      | gpu =>
        simp only [FieldObj.home, hfm] at hd
        cases hgm : g.memType with
        | other => simp [FieldObj.home, hgm] at hs
        | localRam =>
          simp only [FieldObj.home, hgm] at hs
          simp [hfm, hgm, cuf hfm, Mem.memcpy, hd, hs] at e
        | gpu =>
          simp only [FieldObj.home, hgm] at hs
          simp only [hfm, hgm, cuf hfm, if_true, Mem.memcpy, hd, hs] at e
          split at e <;> cases e
    · rw [e]
      refine ⟨_, d, s, rfl, hd, hs, hal, rfl, ?_, fun _ _ _ => rfl⟩
      intro i _ _; rw [hds]
    · rw [e]
      refine ⟨_, d, s, rfl, hd, hs, hal, rfl, ?_, ?_⟩
      · intro i h0 h1
        have : g.geo.window.globNpts = f.alloc := by rw [hal]; exact (hi.ref k g hg).win
        simp [h0, h1, this]
      · intro b i hb
        have : g.geo.window.globNpts = f.alloc := by rw [hal]; exact (hi.ref k g hg).win
        simp only [this]
        rw [if_neg]
        rintro ⟨h1, h2, h3⟩
        rcases hb with hb | hb | hb
        · exact hb h1
        · omega
        · omega
    · rw [e]
      refine ⟨_, d, s, rfl, hd, hs, hal, rfl, ?_, ?_⟩
      · intro i h0 h1
        simp [h0, h1]
      · intro b i hb
        dsimp only
        rw [if_neg]
        rintro ⟨h1, h2, h3⟩
        rcases hb with hb | hb | hb
        · exact hb h1
        · omega
        · omega

/-! ## Initial contents -/

theorem reset_full {cuda : Bool} (zero : V) {f : FieldObj} (src : Option (Int → V)) (m m' : Mem V) {a : Nat} (hr : f.readOnly = false)
    (hh : f.home = some a) (hw : f.geo.window.Fits) (he : f.geo.window.Nonempty) (hc : f.memType = .gpu → cuda = true)
    (hal : f.alloc = f.geo.window.globNpts) (hres : resetAny cuda zero f src m = .ok m') :
    (∀ b i, b ≠ a → m' b i = m b i) ∧
    (f.memType = .localRam → ∀ loc i, InBlock f.geo.window.extent loc → f.geo.window.flatIndex loc = .ok i →
      m' a i = given zero src (fortranPos f.geo.window.extent loc)) ∧
    (f.memType = .gpu → ∀ i, 0 ≤ i → i < f.alloc → m' a i = given zero src i) ∧
    (f.geo.window.offset = 0 → f.geo.window.extent = f.geo.window.npts → ∀ i, 0 ≤ i → i < f.alloc →
      m' a i = given zero src i) := by
  unfold resetAny at hres
  cases hm : f.memType with
  | other => rw [hm] at hres; cases hres
  | localRam =>
    simp only [FieldObj.home, hm] at hh
    rw [hm] at hres
    dsimp only at hres
    obtain ⟨m2, e, h1, h2⟩ := C53_reset_values zero f a src m hr hm hh hw he
    rw [e] at hres; injection hres with hres; subst hres
    refine ⟨fun b i hb => h2 b i (Or.inl hb), fun _ loc i hl hfl => (h1 loc i hl hfl).trans (by cases src <;> rfl), fun h => (by cases h), ?_⟩
    intro ho hx i h0 hi
    have hp := hw.1
    obtain ⟨x, y, z, x0, x1, y0, y1, z0, z1, hk⟩ := fortran_surj (e0 := f.geo.window.npts.x) (e1 := f.geo.window.npts.y)
      (e2 := f.geo.window.npts.z) (k := i) (by iv_omega) (by iv_omega) h0 (by rw [hal] at hi; exact hi)
    have hin : InBlock f.geo.window.extent ⟨x, y, z⟩ := by rw [hx]; exact ⟨⟨x0, y0, z0⟩, ⟨x1, y1, z1⟩⟩
    have hfi := (Window.flatIndex_eq_ok hw hin).1
    have hpos : fortranPos f.geo.window.npts (f.geo.window.offset + ⟨x, y, z⟩) = i := by
      rw [ho, hk]
      simp [fortranPos]
    rw [hpos] at hfi
    have := h1 _ i hin hfi
    have h3 : fortranPos f.geo.window.extent ⟨x, y, z⟩ = i := by rw [hx, hk]; rfl
    rw [h3] at this
    exact this.trans (by cases src <;> rfl)
  | gpu =>
    simp only [FieldObj.home, hm] at hh
    rw [hm] at hres
    simp only [hc hm, if_true, hh] at hres
    have key : (∀ b i, b ≠ a → m' b i = m b i) ∧ (∀ i, 0 ≤ i → i < f.alloc → m' a i = given zero src i) := by
      cases src with
      | none =>
        injection hres with hres; subst hres
        exact ⟨fun b i hb => by simp [Mem.store, hb], fun i h0 h1 => by simp [Mem.store, h0, h1, given]⟩
      | some v =>
        injection hres with hres; subst hres
        exact ⟨fun b i hb => by simp [Mem.store, hb], fun i h0 h1 => by simp [Mem.store, h0, h1, given]⟩
    exact ⟨key.1, fun h => (by cases h), fun _ => key.2, fun _ _ => key.2⟩

/-- C61, the part that holds. The constructor with internal storage gives the new field memory no
existing field lives in or has on another device. If the window is the whole block, element
`i` of the new field is element `i` of the array passed in (zero if none), on the CPU and on a device
alike. In general the cells of the window get the array in the order of iteration on the CPU, and on
a device the block gets it in memory order. -/
theorem _root_.SpatialOps.C61_initial_values_partial (C : Nat → Prop) (cuda : Bool) (zero : V) (m : Mem V) (os : List (Op V)) (w w' : FieldMem V)
    (hc : (init m).Careful C cuda zero os) (hr : (init m).run cuda zero os = .ok w)
    (single : Bool) (win : Window) (bc : BcInfo) (g : GhostData) (mt : MemType) (dev fresh : Nat) (src : Option (Int → V))
    (hl : w.Legal C (.life (.create single win bc g none mt dev fresh) src))
    (hs : w.step cuda zero (.life (.create single win bc g none mt dev fresh) src) = .ok (w', false)) :
    ∃ f d, w'.fw.fields = w.fw.fields ++ [some f] ∧ f.memType = mt ∧ f.home = some d ∧ f.alloc = win.globNpts ∧ f.geo.window = win ∧
      (∀ (k : Nat) (f' : FieldObj), w.fw.fields[k]? = some (some f') → f'.home ≠ some d ∧
        ∀ mt' dev' , f'.fieldValuesC cuda mt' dev' ≠ .ok (some d)) ∧
      (win.offset = 0 → win.extent = win.npts → ∀ i, 0 ≤ i → i < win.globNpts → w'.mem d i = given zero src i) ∧
      (mt = .localRam → ∀ loc i, InBlock win.extent loc → win.flatIndex loc = .ok i →
        w'.mem d i = given zero src (fortranPos win.extent loc)) ∧
      (mt = .gpu → ∀ i, 0 ≤ i → i < win.globNpts → w'.mem d i = given zero src i) ∧
      ∀ b i, b ≠ d → w'.mem b i = w.mem b i := by
  have hi := inv_of_run hc hr
  obtain ⟨hl1, _, hu⟩ := hl
  rw [step_life, FieldWorld.step] at hs
  simp only [Outcome.bind_eq_ok] at hs
  obtain ⟨⟨fw', b⟩, e, m', hst, hs⟩ := hs
  injection hs with hs; injection hs with h1 h2
  dsimp only at h1 h2 hst
  subst h1 h2
  rcases create_inv hi.fi hi.dj hu e with ⟨h0, _⟩ | ⟨_, hdj, f, hfs, hf⟩
  · cases h0
  obtain ⟨d, hd, h0 | ⟨_, _, hun⟩⟩ := hf.home
  · cases h0
  have hlen : fw'.fields[w.fw.fields.length]? = some (some f) := by rw [hfs]; simp
  simp only [lifeStores, Option.isSome_none, Bool.false_eq_true, or_self, if_false, hlen] at hst
  obtain ⟨r1, r2, r3, r4⟩ := reset_full zero src w.mem m' hf.ro hd (by rw [hf.window]; exact hl1.1) (by rw [hf.window]; exact hl1.2.1)
    (fun h => (hf.cu h).1) (by rw [hf.window]; exact hf.alloc) hst
  simp only [hf.window, hf.alloc, hf.mt] at r2 r3 r4
  refine ⟨f, d, hfs, hf.mt, hd, hf.alloc, hf.window, ?_, r4, r2, r3, r1⟩
  intro k f' hf'
  obtain ⟨u1, u2⟩ := hun f' (hi.ref k f' hf')
  refine ⟨u1, fun mt' dev' hv => ?_⟩
  obtain ⟨x, hx, _⟩ := (hi.ref k f' hf').home
  unfold FieldObj.fieldValuesC at hv
  cases mt' with
  | other => cases hv
  | localRam =>
    dsimp only at hv
    split at hv
    · cases hv
    · injection hv with hv
      cases hm : f'.memType with
      | other => simp [FieldObj.home, hm] at hx
      | localRam => exact u1 (by simp [FieldObj.home, hm, hv])
      | gpu => exact u2 d (Or.inr ⟨hm, hv⟩) rfl
  | gpu =>
    dsimp only at hv
    split at hv
    · split at hv
      · rename_i hcc
        injection hv with hv
        exact u1 (by simp [FieldObj.home, hcc.1, hv])
      · cases hlk : f'.consumers.lookup dev' with
        | none => rw [hlk] at hv; cases hv
        | some t =>
          rw [hlk] at hv
          injection hv with hv; injection hv with hv
          subst hv
          exact u2 t (Or.inl ⟨_, mem_of_lookup hlk, rfl⟩) rfl
    · cases hv

/-! ## Witnesses and examples -/

/-- A block of two cells, used whole. -/
def exFmWin : Window := ⟨⟨2, 1, 1⟩, 0, ⟨2, 1, 1⟩⟩
/-- The last two cells of a block of three. -/
def exFmPart : Window := ⟨⟨3, 1, 1⟩, ⟨1, 0, 0⟩, ⟨2, 1, 1⟩⟩
/-- No ghosts. -/
def exFmGhosts : GhostData := ⟨0, 0, false⟩
/-- No boundary cells. -/
def exFmBc : BcInfo := ⟨0, 0⟩
/-- Memory full of fives. -/
def exFmMem : Mem Int := fun _ _ => 5
/-- Construct a field with its own memory. -/
def exFmNew (win : Window) (mt : MemType) (dev fresh : Nat) (src : Option (Int → Int)) : Op Int :=
  .life (.create false win exFmBc exFmGhosts none mt dev fresh) src

/-- C59, what fails without the discipline. A copy made before `add_consumer` is not read-only:
writing through it changes the field, and its memory on the device keeps the old value. -/
theorem _root_.SpatialOps.C59_stale_on_device :
    ∃ w f, (init exFmMem).run true 0 [exFmNew exFmWin .localRam 0 1 none, .life (.copy 0) none, .life (.addConsumer 0 .gpu 0 2) none,
        .write 1 .localRam 0 0 7] = .ok w ∧
      w.fw.fields[0]? = some (some f) ∧ f.home = some 1 ∧ w.mem 1 0 = 7 ∧ f.fieldValuesC true .gpu 0 = .ok (some 2) ∧ w.mem 2 0 = 0 := by
  refine ⟨_, _, rfl, rfl, rfl, rfl, rfl, rfl⟩

/-- C59, what fails without the discipline. A copy of a device field that has CPU memory loses its
read-only mark when a consumer of its own is removed; the CPU memory of the original may
then be written through the copy, and does not show what is on the device. -/
theorem _root_.SpatialOps.C59_copy_writes_consumer :
    ∃ w f, (init exFmMem).run true 0 [exFmNew exFmWin .gpu 0 1 none, .life (.addConsumer 0 .localRam 0 2) none, .life (.copy 0) none,
        .life (.addConsumer 1 .gpu 1 3) none, .life (.removeConsumers 1) none, .write 1 .localRam 0 0 9] = .ok w ∧
      w.fw.fields[0]? = some (some f) ∧ f.readOnly = true ∧ f.home = some 1 ∧ w.mem 1 0 = 0 ∧
      f.fieldValuesC true .localRam 0 = .ok (some 2) ∧ w.mem 2 0 = 9 := by
  refine ⟨_, _, rfl, rfl, rfl, rfl, rfl, rfl, rfl⟩

/-- C59, what fails without the discipline. After `remove_consumers` a copy still refers to the
memory given back; another field gets it, and the copy shows that field's values on the device. -/
theorem _root_.SpatialOps.C59_copy_shows_other_field :
    ∃ w f, (init exFmMem).run true 0 [exFmNew exFmWin .localRam 0 1 none, .life (.addConsumer 0 .gpu 0 2) none, .life (.copy 0) none,
        .life (.removeConsumers 0) none, exFmNew exFmWin .gpu 1 3 (some fun _ => 8), .life (.addConsumer 2 .gpu 0 2) none] = .ok w ∧
      w.fw.fields[1]? = some (some f) ∧ f.home = some 1 ∧ w.mem 1 0 = 0 ∧ f.fieldValuesC true .gpu 0 = .ok (some 2) ∧ w.mem 2 0 = 8 := by
  refine ⟨_, _, rfl, rfl, rfl, rfl, rfl, rfl⟩

/-- C18, what fails in a CUDA build: a copy of a field that has consumers stays read-only for good. `remove_consumers()` on the copy takes its
consumers away (the field is no longer found on the device) but not its read-only mark, since the copy allocated none of them; so it is for
the copy after the original has released its consumers. The original, which lives in the same memory, can be written again. -/
theorem _root_.SpatialOps.C18_copy_stays_read_only :
    ∃ w f g, (init exFmMem).run true 0 [exFmNew exFmWin .localRam 0 1 none, .life (.addConsumer 0 .gpu 0 2) none, .life (.copy 0) none,
        .life (.removeConsumers 1) none, .life (.removeConsumers 0) none, .life (.removeConsumers 1) none] = .ok w ∧
      w.fw.fields[0]? = some (some f) ∧ f.readOnly = false ∧ f.home = some 1 ∧
      w.fw.fields[1]? = some (some g) ∧ g.findConsumer true .gpu 0 = .ok false ∧ g.home = some 1 ∧ g.readOnly = true ∧ g.beginM = .throws := by
  refine ⟨_, _, _, rfl, rfl, rfl, rfl, rfl, rfl, rfl, rfl, rfl⟩

/-- C59. What `has_consumers()` says, in a CUDA build: a field of the CPU has consumers iff its values can be obtained on device 0, a field of a
device iff they can be obtained on the CPU. Fields of other kinds are refused. -/
theorem _root_.SpatialOps.C59_has_consumers_partial (f : FieldObj) :
    (f.memType = .localRam → ∃ r, f.hasConsumers = .ok r ∧ (r = true ↔ ∃ p, f.fieldValuesC true .gpu 0 = .ok p)) ∧
    (f.memType = .gpu → ∃ r, f.hasConsumers = .ok r ∧ (r = true ↔ ∃ p, f.fieldValuesC true .localRam 0 = .ok p)) ∧
    (f.memType = .other → f.hasConsumers = .throws) := by
  refine ⟨fun h => ?_, fun h => ?_, fun h => by simp only [FieldObj.hasConsumers, h]⟩
  · refine ⟨(f.consumers.lookup 0).isSome, by simp only [FieldObj.hasConsumers, h], ?_⟩
    simp only [FieldObj.fieldValuesC, h, reduceCtorEq, false_and, if_true, if_false]
    cases f.consumers.lookup 0 <;> simp
  · refine ⟨f.values.isSome, by simp only [FieldObj.hasConsumers, h], ?_⟩
    simp only [FieldObj.fieldValuesC]
    cases f.values <;> simp

/-- C59, what fails: `has_consumers()` does not see a consumer on a device other than 0, nor, for a field of a device, one on another device. -/
theorem _root_.SpatialOps.C59_has_consumers_misses_devices :
    ∃ w f g, (init exFmMem).run true 0 [exFmNew exFmWin .localRam 0 1 none, .life (.addConsumer 0 .gpu 1 2) none,
        exFmNew exFmWin .gpu 0 3 none, .life (.addConsumer 1 .gpu 1 4) none] = .ok w ∧
      w.fw.fields[0]? = some (some f) ∧ f.fieldValuesC true .gpu 1 = .ok (some 2) ∧ f.hasConsumers = .ok false ∧
      w.fw.fields[1]? = some (some g) ∧ g.fieldValuesC true .gpu 1 = .ok (some 4) ∧ g.hasConsumers = .ok false := by
  refine ⟨_, _, _, rfl, rfl, rfl, rfl, rfl, rfl, rfl⟩

/-- C60, what fails for views with other global dimensions (excluded by `Legal`). A view of two cells
of a block of three still counts three elements: assigning a device field of two elements to it reads a
third element, behind the memory of that field, and stores it outside the view. -/
theorem _root_.SpatialOps.C60_view_copies_too_much :
    ∃ w f g, (init exFmMem).run true 0 [exFmNew ⟨⟨3, 1, 1⟩, 0, ⟨3, 1, 1⟩⟩ .localRam 0 1 none, .life (.view false exFmWin 0) none,
        exFmNew exFmWin .gpu 0 2 none, .assign 1 2] = .ok w ∧
      w.fw.fields[1]? = some (some f) ∧ w.fw.fields[2]? = some (some g) ∧ f.geo.window = g.geo.window ∧
      g.home = some 2 ∧ g.alloc = 2 ∧ f.home = some 1 ∧ w.mem 1 2 = exFmMem 2 2 := by
  refine ⟨_, _, _, rfl, rfl, rfl, rfl, rfl, rfl, rfl, rfl⟩

/-- C61, what fails. For a window that is a part of its block, the same array gives the same cell
different values on the CPU and on a device, and on the CPU the cell outside the window is left as
the memory pool had it. -/
theorem _root_.SpatialOps.C61_device_and_cpu_differ :
    ∃ w f g, (init exFmMem).run true 0 [exFmNew exFmPart .localRam 0 1 (some fun i => 10 + i), exFmNew exFmPart .gpu 0 2 (some fun i => 10 + i)] = .ok w ∧
      w.fw.fields[0]? = some (some f) ∧ w.fw.fields[1]? = some (some g) ∧ f.home = some 1 ∧ g.home = some 2 ∧
      exFmPart.flatIndex 0 = .ok 1 ∧ w.mem 1 1 = 10 ∧ w.mem 2 1 = 11 ∧ w.mem 1 0 = 5 ∧ w.mem 2 0 = 10 := by
  refine ⟨_, _, _, rfl, rfl, rfl, rfl, rfl, rfl, rfl, rfl, rfl, rfl⟩

theorem exFm_unused {w : FieldWorld} {a : Nat} (h : a ∉ w.pool.heap.map Prod.fst ∧ a ∉ w.gpuOwn.map Prod.fst ∧ a ∉ w.rawOwn.map Prod.fst) :
    Unused (fun _ => False) w a := ⟨h.1, h.2.1, h.2.2, fun h => h⟩

/-- A careful history: a CPU field and a device field, values written on the CPU, assigned to the
device, made available on a second device, released and written again. -/
example : (init exFmMem).Careful (fun _ => False) true 0 [exFmNew exFmWin .localRam 0 1 none, exFmNew exFmWin .gpu 0 2 (some fun i => i),
    .set 0 ⟨1, 0, 0⟩ 7, .assign 1 0, .life (.addConsumer 1 .gpu 1 3) none, .life (.removeConsumers 1) none, .write 1 .gpu 0 0 4] := by
  have hex : ∀ {w : FieldWorld} {h a b : Nat}, (∃ f g, w.fields = [some f, some g] ∧ f.home = some a ∧ g.home = some b ∧ a ≠ b) → h < 2 → Exclusive w h := by
    rintro w h a b ⟨f, g, hw, ha, hb, hab⟩ hh f1 h' f2 h1 h2 h3 h4
    rw [hw] at h1 h2
    match h', h2 with
    | 0, h2 =>
      match h, hh with
      | 0, _ => exact absurd rfl h3
      | 1, _ =>
        injection h1 with h1; injection h1 with h1; injection h2 with h2; injection h2 with h2; subst h1 h2
        rw [ha, hb] at h4; injection h4 with h4; exact absurd h4 hab
    | 1, h2 =>
      match h, hh with
      | 1, _ => exact absurd rfl h3
      | 0, _ =>
        injection h1 with h1; injection h1 with h1; injection h2 with h2; injection h2 with h2; subst h1 h2
        rw [ha, hb] at h4; injection h4 with h4; exact absurd h4.symm hab
    | n + 2, h2 => cases h2
  refine ⟨⟨⟨by decide, by decide, by decide, by decide⟩, ⟨fun _ h => by (cases h), exFm_unused (by decide)⟩⟩, trivial, ?_⟩
  refine ⟨⟨⟨by decide, by decide, by decide, by decide⟩, ⟨fun _ h => by (cases h), exFm_unused (by decide)⟩⟩, trivial, ?_⟩
  refine ⟨⟨_, rfl⟩, hex ⟨_, _, rfl, rfl, rfl, by decide⟩ (by decide), ?_⟩
  refine ⟨⟨⟨_, rfl⟩, ⟨_, rfl⟩⟩, hex ⟨_, _, rfl, rfl, rfl, by decide⟩ (by decide), ?_⟩
  refine ⟨⟨⟨⟨_, rfl⟩, by decide, by decide⟩, exFm_unused (by decide)⟩, trivial, ?_⟩
  refine ⟨⟨⟨_, rfl⟩, trivial⟩, ?_, ?_⟩
  · intro b h' f' hb hf' hne
    match h', hne with
    | 0, _ =>
      injection hf' with hf'; injection hf' with hf'; subst hf'
      have : b = 3 := by
        rcases hb with hb | ⟨hb, _⟩
        · rcases List.mem_cons.1 hb with hb | hb
          · injection hb
          · cases hb
        · rcases List.mem_cons.1 hb with hb | hb
          · injection hb with _ hb; cases hb
          · cases hb
      subst this
      rintro (h | h | ⟨d, h⟩) <;> cases h
    | 1, hne => exact absurd rfl hne
    | n + 2, _ => cases hf'
  · exact ⟨⟨_, rfl, by decide, by decide⟩, hex ⟨_, _, rfl, rfl, rfl, by decide⟩ (by decide), trivial⟩

/-- The same history; the field on the device shows what was written on the CPU. -/
example : ∃ w f, (init exFmMem).run true 0 [exFmNew exFmWin .localRam 0 1 none, exFmNew exFmWin .gpu 0 2 (some fun i => i),
    .set 0 ⟨1, 0, 0⟩ 7, .assign 1 0, .life (.addConsumer 1 .gpu 1 3) none] = .ok w ∧ w.fw.fields[1]? = some (some f) ∧
    f.fieldValuesC true .gpu 1 = .ok (some 3) ∧ w.mem 3 1 = 7 ∧ f.readOnly = true := by
  refine ⟨_, _, rfl, rfl, rfl, rfl, rfl⟩

end FieldMem
end SpatialOps
