import Verif.FieldMem.Lemmas

/-!
# Every operation keeps the invariant of field contents
-/

namespace SpatialOps.FieldMem
open FieldWorld

variable {V : Type}

/-- Fields existing before and after an operation keep their home, and its contents unless the
operation is a change of a field that lives there. -/
def Frame (w w' : FieldMem V) (o : Op V) : Prop :=
  ∀ (k : Nat) (f f' : FieldObj), w.fw.fields[k]? = some (some f) → w'.fw.fields[k]? = some (some f') →
    SameHome f f' ∧ ∀ d, f.home = some d → ¬ w.Mutates d o → ∀ i, 0 ≤ i → i < f.alloc → w'.mem d i = w.mem d i

theorem resetAny_ok {cuda : Bool} (zero : V) {f : FieldObj} (src : Option (Int → V)) (m : Mem V) {a : Nat} (hr : f.readOnly = false)
    (hh : f.home = some a) (hw : f.geo.window.Fits) (he : f.geo.window.Nonempty) (hc : f.memType = .gpu → cuda = true) :
    ∃ m', resetAny cuda zero f src m = .ok m' ∧ ∀ b i, b ≠ a → m' b i = m b i := by
  unfold resetAny
  cases hm : f.memType with
  | localRam =>
    simp only [FieldObj.home, hm] at hh
    obtain ⟨m', e, _, h⟩ := C53_reset_values zero f a src m hr hm hh hw he
    exact ⟨m', e, fun b i hb => h b i (Or.inl hb)⟩
  | gpu =>
    simp only [FieldObj.home, hm] at hh
    simp only [hc hm, if_true, hh]
    cases src with
    | none => exact ⟨_, rfl, fun b i hb => by simp [Mem.store, hb]⟩
    | some v => exact ⟨_, rfl, fun b i hb => by simp [Mem.store, hb]⟩
  | other => simp [FieldObj.home, hm] at hh

theorem fw_good {cuda : Bool} {w w' : FieldWorld} {o : FieldWorld.Op} {b : Bool} (hi : Inv cuda w) (hl : w.Legal o)
    (he : w.step cuda o = .ok (w', b)) : Inv cuda w' := by
  rcases FieldWorld.step_good hi o hl with e | ⟨w2, b2, e, h⟩
  · rw [e] at he; cases he
  · rw [e] at he; injection he with he; injection he with he _; subst he; exact h

/-- What a constructed field is like. -/
structure Fresh (C : Nat → Prop) (cuda : Bool) (w : FieldWorld) (win : Window) (user : Option Nat) (mt : MemType) (f : FieldObj) : Prop where
  window : f.geo.window = win
  alloc : f.alloc = win.globNpts
  cons : f.consumers = []
  mine : f.mine = []
  bc : f.builtCpu = false
  ro : f.readOnly = false
  mt : f.memType = mt
  cu : f.memType = .gpu → cuda = true ∧ f.values = none
  home : ∃ a, f.home = some a ∧ (user = some a ∨ (user = none ∧ f.built = true ∧ Unref C w.fields a))

theorem create_inv {C : Nat → Prop} {cuda : Bool} {w w' : FieldWorld} (hi : Inv cuda w) (hd : Disj C w) {single win bc g user mt dev fresh}
    {b : Bool} (hu : Unused C w fresh) (he : w.create cuda single win bc g user mt dev fresh = .ok (w', b)) :
    (b = true ∧ w' = w) ∨ (b = false ∧ Disj C w' ∧ ∃ f, w'.fields = w.fields ++ [some f] ∧ Fresh C cuda w win user mt f) := by
  unfold create at he
  cases hgeo : FieldGeo.ctor single win bc g with
  | throws => rw [hgeo] at he; injection he with he; injection he with h1 h2; exact Or.inl ⟨h2.symm, h1.symm⟩
  | abort => rw [hgeo] at he; cases he
  | ub => rw [hgeo] at he; cases he
  | ok geo =>
    rw [hgeo] at he
    have hwin := ctor_window hgeo
    cases mt with
    | other => injection he with he; injection he with h1 h2; exact Or.inl ⟨h2.symm, h1.symm⟩
    | localRam =>
      cases user with
      | none =>
        simp only [Outcome.bind_eq_ok] at he
        obtain ⟨⟨w1, a⟩, e1, _, _, he⟩ := he
        injection he with he; injection he with h1 h2; subst h1 h2
        obtain ⟨hfl, hg, hr, hc, hh, ha, hn, _⟩ := poolGet_heap hi.base hu.1 e1
        refine Or.inr ⟨rfl, (hd.get hu hg hr hh), _, by rw [hfl], hwin, rfl, rfl, rfl, rfl, rfl, rfl, by simp, a, rfl, Or.inr ⟨rfl, rfl, ?_⟩⟩
        rcases ha with rfl | ha
        · exact unref_unused hi hu
        · exact unref_free hi hd ha hn
      | some u =>
        injection he with he; injection he with h1 h2; subst h1 h2
        exact Or.inr ⟨rfl, ⟨hd.hg, hd.hr, hd.hc, hd.gr, hd.gc, hd.rc⟩, _, rfl, hwin, rfl, rfl, rfl, rfl, rfl, rfl, by simp, u, rfl, Or.inl rfl⟩
    | gpu =>
      cases cuda with
      | false => cases user <;> (injection he with he; injection he with h1 h2; exact Or.inl ⟨h2.symm, h1.symm⟩)
      | true =>
        cases user with
        | none =>
          injection he with he; injection he with h1 h2; subst h1 h2
          refine Or.inr ⟨rfl, ⟨hd.hg, ?_, hd.hc, ?_, hd.gc, ?_⟩, _, rfl, hwin, rfl, rfl, rfl, rfl, rfl, rfl, by simp, fresh, rfl,
            Or.inr ⟨rfl, rfl, unref_unused hi hu⟩⟩
          · intro a ha h
            simp only [List.map_cons, List.mem_cons] at h
            rcases h with rfl | h
            · exact hu.1 ha
            · exact hd.hr a ha h
          · intro a ha h
            simp only [List.map_cons, List.mem_cons] at h
            rcases h with rfl | h
            · exact hu.2.1 ha
            · exact hd.gr a ha h
          · intro a h
            simp only [List.map_cons, List.mem_cons] at h
            rcases h with rfl | h
            · exact hu.2.2.2
            · exact hd.rc a h
        | some u =>
          injection he with he; injection he with h1 h2; subst h1 h2
          exact Or.inr ⟨rfl, ⟨hd.hg, hd.hr, hd.hc, hd.gr, hd.gc, hd.rc⟩, _, rfl, hwin, rfl, rfl, rfl, rfl, rfl, rfl, by simp, u, rfl, Or.inl rfl⟩

/-- Adding a field that shares nothing new. -/
theorem mInv_append {C : Nat → Prop} {cuda : Bool} {w : FieldMem V} (hi : MInv C cuda w) {fw' : FieldWorld} {m' : Mem V} {f : FieldObj}
    (hfi : Inv cuda fw') (hdj : Disj C fw') (hfs : fw'.fields = w.fw.fields ++ [some f])
    (hr : RefOk C fw'.fields f) (hc : Coh m' f) (hcu : f.memType = .gpu → cuda = true)
    (hm : ∀ g, RefOk C w.fw.fields g → (∀ d i, g.home = some d → m' d i = w.mem d i) ∧ ∀ t i, IsCons g t → m' t i = w.mem t i) :
    MInv C cuda ⟨fw', m'⟩ := by
  have hk : Keeps w.fw.fields fw'.fields := by rw [hfs]; exact keeps_append _ _
  refine ⟨hfi, hdj, ?_, ?_, ?_⟩
  case refine_3 =>
    intro h g hg
    simp only [hfs] at hg
    rcases getElem?_append_singleton.1 hg with hg | ⟨_, hg⟩
    · exact hi.cu h g hg
    · injection hg with hg; subst hg; exact hcu
  · intro h g hg
    simp only [hfs] at hg
    rcases getElem?_append_singleton.1 hg with hg | ⟨_, hg⟩
    · exact (hi.ref h g hg).keep hk
    · injection hg with hg; subst hg; exact hr
  · intro h g hg
    simp only [hfs] at hg
    rcases getElem?_append_singleton.1 hg with hg | ⟨_, hg⟩
    · have hr := hi.ref h g hg
      exact (hi.coh h g hg).congr (fun d hd i _ _ => (hm g hr).1 d i hd) (fun t ht i _ _ => (hm g hr).2 t i ht)
    · injection hg with hg; subst hg; exact hc

theorem frame_append {C : Nat → Prop} {cuda : Bool} {w : FieldMem V} (hi : MInv C cuda w) {fw' : FieldWorld} {m' : Mem V} {f : Option FieldObj}
    (hfs : fw'.fields = w.fw.fields ++ [f]) (hm : ∀ g, RefOk C w.fw.fields g → ∀ d i, g.home = some d → m' d i = w.mem d i) (o : Op V) :
    Frame w ⟨fw', m'⟩ o := by
  intro k g g' hg hg'
  simp only [hfs, List.getElem?_append_left (lt_of_get hg)] at hg'
  rw [hg] at hg'; injection hg' with hg'; injection hg' with hg'; subst hg'
  exact ⟨.refl _, fun d hd _ i _ _ => hm g (hi.ref k g hg) d i hd⟩

/-- Nothing happened. -/
theorem frame_same {w : FieldMem V} (o : Op V) : Frame w w o := by
  intro k g g' hg hg'
  rw [hg] at hg'; injection hg' with hg'; injection hg' with hg'; subst hg'
  exact ⟨.refl _, fun d hd _ i _ _ => rfl⟩

/-- Outcome of a step: it may end the program by an assertion, otherwise the invariant holds again. -/
def Good (C : Nat → Prop) (cuda : Bool) (zero : V) (w : FieldMem V) (o : Op V) : Prop :=
  w.step cuda zero o = .abort ∨ ∃ w' b, w.step cuda zero o = .ok (w', b) ∧ MInv C cuda w' ∧ Frame w w' o

theorem step_life (cuda : Bool) (zero : V) (w : FieldMem V) (o : FieldWorld.Op) (src : Option (Int → V)) :
    w.step cuda zero (.life o src) = (w.fw.step cuda o >>= fun r =>
      lifeStores cuda zero w.fw r.1 r.2 src w.mem o >>= fun m => .ok (⟨r.1, m⟩, r.2)) := rfl

theorem create_good {C : Nat → Prop} {cuda : Bool} (zero : V) {w : FieldMem V} (hi : MInv C cuda w) {single win bc g user mt dev fresh src}
    (hl : w.Legal C (.life (.create single win bc g user mt dev fresh) src)) :
    Good C cuda zero w (.life (.create single win bc g user mt dev fresh) src) := by
  obtain ⟨hl1, huser, hu⟩ := hl
  unfold Good
  rw [step_life]
  rcases FieldWorld.step_good hi.fi _ hl1 with e | ⟨fw', b, e, hfi⟩
  · left; rw [e]; rfl
  right
  rw [e, Outcome.ok_bind]
  unfold FieldWorld.step at e
  dsimp only at e
  rcases create_inv hi.fi hi.dj hu e with ⟨rfl, rfl⟩ | ⟨rfl, hdj, f, hfs, hf⟩
  · simp only [lifeStores, true_or, if_true, Outcome.ok_bind]
    exact ⟨_, _, rfl, hi, frame_same _⟩
  obtain ⟨a, ha, hcase⟩ := hf.home
  have hlen : fw'.fields[w.fw.fields.length]? = some (some f) := by rw [hfs]; simp
  have hnc : ∀ t, ¬ IsCons f t := by
    rintro t (⟨c, hc, _⟩ | ⟨hm, hv⟩)
    · rw [hf.cons] at hc; cases hc
    · rw [(hf.cu hm).2] at hv; cases hv
  have hr : RefOk C fw'.fields f := by
    refine ⟨⟨a, ha, ?_⟩, by simp [hf.cons], fun b hm hv => ?_, by simp [hf.cons, hf.mine, hf.bc], by rw [hf.window, hf.alloc]⟩
    · rcases hcase with h | ⟨_, hb, _⟩
      · exact Or.inl (huser a h)
      · exact Or.inr ⟨_, f, hlen, hb, rfl, ha⟩
    · exact absurd (Or.inr ⟨hm, hv⟩) (hnc b)
  rcases hcase with rfl | ⟨rfl, _, hun⟩
  · simp only [lifeStores, Option.isSome_some, or_true, if_true, Outcome.ok_bind]
    refine ⟨_, _, rfl, mInv_append hi hfi hdj hfs hr (fun t d ht => absurd ht (hnc t)) (fun h => (hf.cu h).1) (fun _ _ => ⟨fun _ _ _ => rfl, fun _ _ _ => rfl⟩),
      frame_append hi hfs (fun _ _ _ _ _ => rfl) _⟩
  · simp only [lifeStores, Option.isSome_none, Bool.false_eq_true, or_self, if_false, hlen]
    obtain ⟨m', e', hm'⟩ := resetAny_ok (cuda := cuda) zero src w.mem hf.ro ha (by rw [hf.window]; exact hl1.1) (by rw [hf.window]; exact hl1.2.1)
      (fun h => (hf.cu h).1)
    rw [e', Outcome.ok_bind]
    refine ⟨_, _, rfl, mInv_append hi hfi hdj hfs hr (fun t d ht => absurd ht (hnc t)) (fun h => (hf.cu h).1) ?_, frame_append hi hfs ?_ _⟩
    · intro g hg
      obtain ⟨h1, h2⟩ := hun g hg
      exact ⟨fun d i hd => hm' d i (fun e => h1 (e ▸ hd)), fun t i ht => hm' t i (h2 t ht)⟩
    · intro g hg d i hd
      obtain ⟨h1, h2⟩ := hun g hg
      exact hm' d i (fun e => h1 (e ▸ hd))

theorem isCons_copy {f : FieldObj} {geo : FieldGeo} {t : Nat} : IsCons { copyOf f with geo := geo } t ↔ IsCons f t := Iff.rfl

theorem refOk_copy {C : Nat → Prop} {fs : List (Option FieldObj)} {f : FieldObj} (h : RefOk C fs f) {geo : FieldGeo}
    (hg : geo.window.globNpts = f.alloc) : RefOk C fs { copyOf f with geo := geo } := by
  refine ⟨h.home, ?_, ?_, ?_, hg⟩
  · intro c hc
    obtain ⟨h', f', h1, h2, h3⟩ := h.cons c hc
    exact ⟨h', f', h1, h2, h3.mt, h3.home, h3.alloc⟩
  · intro b hm hv
    obtain ⟨h', f', h1, h2, h3, h4⟩ := h.cpu b hm hv
    exact ⟨h', f', h1, h2, h3, h4.mt, h4.home, h4.alloc⟩
  · rintro (hc | hc | hc)
    · exact h.ro (Or.inl hc)
    · exact absurd rfl hc
    · cases hc

/-- A shallow copy. -/
theorem copied_good {C : Nat → Prop} {cuda : Bool} {w : FieldMem V} (hi : MInv C cuda w) {h : Nat} {f : FieldObj}
    (hf : w.fw.fields[h]? = some (some f)) {geo : FieldGeo} (hg : geo.window.globNpts = f.alloc) (o : Op V) :
    MInv C cuda ⟨{ w.fw with fields := w.fw.fields ++ [some { copyOf f with geo := geo }] }, w.mem⟩ ∧
    Frame w ⟨{ w.fw with fields := w.fw.fields ++ [some { copyOf f with geo := geo }] }, w.mem⟩ o := by
  refine ⟨mInv_append hi (inv_append_copy hi.fi f geo) ⟨hi.dj.hg, hi.dj.hr, hi.dj.hc, hi.dj.gr, hi.dj.gc, hi.dj.rc⟩ rfl ?_ ?_ (hi.cu h f hf)
    (fun _ _ => ⟨fun _ _ _ => rfl, fun _ _ _ => rfl⟩), frame_append hi rfl (fun _ _ _ _ _ => rfl) _⟩
  · exact (refOk_copy (hi.ref h f hf) hg).keep (keeps_append _ _)
  · intro t d ht hd
    exact hi.coh h f hf t d ht hd

theorem windowCopy_window {single : Bool} {win : Window} {f geo : FieldGeo} (h : FieldGeo.windowCopy single win f = .ok geo) :
    geo.window = win := by
  unfold FieldGeo.windowCopy at h
  simp only [Outcome.bind_eq_ok] at h
  obtain ⟨_, _, _, _, _, _, _, _, _, _, _, _, h⟩ := h
  injection h with h
  subst h; rfl

theorem copy_good {C : Nat → Prop} {cuda : Bool} (zero : V) {w : FieldMem V} (hi : MInv C cuda w) {h src}
    (hl : w.Legal C (.life (.copy h) src)) : Good C cuda zero w (.life (.copy h) src) := by
  obtain ⟨⟨f, hf⟩, _⟩ := hl
  unfold Good FieldMem.step FieldWorld.step
  dsimp only
  rw [field_eq hf, Outcome.ok_bind]
  rcases FieldGeo.copy_cases f.geo with e | e <;> rw [e]
  · obtain ⟨h1, h2⟩ := copied_good hi hf (hi.ref h f hf).win (.life (.copy h) src)
    exact Or.inr ⟨_, _, rfl, h1, h2⟩
  · exact Or.inl rfl

theorem view_good {C : Nat → Prop} {cuda : Bool} (zero : V) {w : FieldMem V} (hi : MInv C cuda w) {single win h src}
    (hl : w.Legal C (.life (.view single win h) src)) : Good C cuda zero w (.life (.view single win h) src) := by
  obtain ⟨⟨f, hf⟩, hw⟩ := hl
  unfold Good FieldMem.step FieldWorld.step
  dsimp only
  rw [field_eq hf, Outcome.ok_bind]
  cases e : FieldGeo.windowCopy single win f.geo with
  | ok geo =>
    have hg : geo.window.globNpts = f.alloc := by
      rw [← (hi.ref h f hf).win, windowCopy_window e]
      unfold Window.globNpts
      rw [hw f hf]
    obtain ⟨h1, h2⟩ := copied_good hi hf hg (.life (.view single win h) src)
    exact Or.inr ⟨_, _, rfl, h1, h2⟩
  | throws => exact Or.inr ⟨_, _, rfl, hi, frame_same _⟩
  | abort => exact Or.inl rfl
  | ub => exact absurd e (FieldGeo.windowCopy_ne_ub _ _ _)

theorem mem_of_lookup {l : List (Nat × Nat)} {k v : Nat} (h : l.lookup k = some v) : (k, v) ∈ l := by
  induction l with
  | nil => cases h
  | cons p l ih =>
    obtain ⟨a, b⟩ := p
    rw [List.lookup_cons] at h
    by_cases e : k = a
    · subst e
      simp only [beq_self_eq_true] at h
      injection h with h; subst h; exact List.mem_cons_self
    · have : (k == a) = false := by simpa using e
      rw [this] at h
      exact List.mem_cons_of_mem _ (ih h)

/-- The field after `add_consumer` for another location, and the block that was filled. -/
structure Added (C : Nat → Prop) (w w' : FieldWorld) (h : Nat) (f : FieldObj) (mt : MemType) (dev : Nat) (b : Bool) (f1 : FieldObj) : Prop where
  fields : w'.fields = w.fields.set h (some f1)
  disj : Disj C w'
  keeps : Keeps w.fields w'.fields
  ref : RefOk C w'.fields f1
  same : SameHome f f1
  ro : f1.readOnly = true
  geo : f1.geo = f.geo
  filled : ((b = true ∨ (mt = .localRam ∧ f1.memType = .localRam)) ∧ ∀ t, IsCons f1 t → IsCons f t) ∨
    (b = false ∧ ∃ t, IsCons f1 t ∧ (∀ t', IsCons f1 t' → t' ≠ t → IsCons f t') ∧
      ((mt = .localRam ∧ f1.memType = .gpu ∧ f1.values = some t) ∨ (mt = .gpu ∧ f1.memType ≠ .other ∧ f1.consumers.lookup dev = some t)))

theorem add_inv {C : Nat → Prop} {cuda : Bool} {w w' : FieldWorld} (hi : Inv cuda w) (hd : Disj C w) {h : Nat} {f : FieldObj}
    (hf : w.fields[h]? = some (some f)) (hr : RefOk C w.fields f) {mt dev fresh} {b : Bool} (hu : Unused C w fresh)
    (he : w.addConsumer cuda h f mt dev fresh = .ok (w', b)) :
    (mt = f.memType ∧ dev = f.dev ∧ w' = w ∧ b = false) ∨ (¬ (mt = f.memType ∧ dev = f.dev) ∧ ∃ f1, Added C w w' h f mt dev b f1) := by
  unfold addConsumer at he
  by_cases hloc : mt = f.memType ∧ dev = f.dev
  · rw [if_pos hloc] at he
    injection he with he; injection he with h1 h2
    exact Or.inl ⟨hloc.1, hloc.2, h1.symm, h2.symm⟩
  rw [if_neg hloc] at he
  refine Or.inr ⟨hloc, ?_⟩
  have hmo : f.memType ≠ .other := by
    intro e
    obtain ⟨a, ha, _⟩ := hr.home
    simp [FieldObj.home, e] at ha
  -- only the flag is set
  have same : ∀ b : Bool, ((b = true ∨ (mt = .localRam ∧ f.memType = .localRam)) ∨
      (b = false ∧ ∃ t, IsCons f t ∧ ((mt = .localRam ∧ f.memType = .gpu ∧ f.values = some t) ∨
        (mt = .gpu ∧ f.memType ≠ .other ∧ f.consumers.lookup dev = some t)))) →
      Added C w { w with fields := w.fields.set h (some { f with readOnly := true }) } h f mt dev b { f with readOnly := true } := by
    intro b hb
    have hk : Keeps w.fields (w.fields.set h (some { f with readOnly := true })) :=
      keeps_set hf ⟨rfl, rfl, rfl⟩ id (fun _ => id) (fun hb => ⟨hb, rfl⟩)
    have hr1 : RefOk C w.fields { f with readOnly := true } := by
      refine ⟨hr.home, ?_, ?_, fun _ => rfl, hr.win⟩
      · intro c hc
        obtain ⟨h', f', h1, h2, h3⟩ := hr.cons c hc
        exact ⟨h', f', h1, h2, h3.mt, h3.home, h3.alloc⟩
      · intro b hm hv
        obtain ⟨h', f', h1, h2, h3, h4⟩ := hr.cpu b hm hv
        exact ⟨h', f', h1, h2, h3, h4.mt, h4.home, h4.alloc⟩
    refine ⟨rfl, ⟨hd.hg, hd.hr, hd.hc, hd.gr, hd.gc, hd.rc⟩, hk, hr1.keep hk, ⟨rfl, rfl, rfl⟩, rfl, rfl, ?_⟩
    rcases hb with hb | ⟨hb, t, h1, h2⟩
    · exact Or.inl ⟨hb, fun t => id⟩
    · exact Or.inr ⟨hb, t, h1, fun _ h _ => h, h2⟩
  cases mt with
  | other =>
    injection he with he; injection he with h1 h2; subst h1 h2
    exact ⟨_, same true (Or.inl (Or.inl rfl))⟩
  | localRam =>
    cases hcu : cuda with
    | false =>
      simp only [hcu] at he
      injection he with he; injection he with h1 h2; subst h1 h2
      exact ⟨_, same true (Or.inl (Or.inl rfl))⟩
    | true =>
      simp only [hcu] at he
      cases hmt : f.memType with
      | other => exact absurd hmt hmo
      | localRam =>
        simp only [hmt] at he
        injection he with he; injection he with h1 h2; subst h1 h2
        have := same false (Or.inl (Or.inr ⟨rfl, hmt⟩))
        simp only [hmt] at this
        exact ⟨_, this⟩
      | gpu =>
        simp only [hmt] at he
        by_cases hv : f.values = none
        · rw [if_pos hv] at he
          simp only [Outcome.bind_eq_ok] at he
          obtain ⟨⟨w1, a⟩, e1, he⟩ := he
          injection he with he; injection he with h1 h2; subst h1 h2
          obtain ⟨hfl, hg, hrr, hc, hh, ha, hn, _⟩ := poolGet_heap hi.base hu.1 e1
          have hnb : f.builtCpu = false := by
            cases hbc : f.builtCpu with
            | false => rfl
            | true => exact absurd hv ((hi.fok h f hf).cpu hbc).2.2
          have hs : SameHome f { f with readOnly := true, memType := .gpu, values := some a, builtCpu := true } :=
            ⟨hmt.symm, by simp [FieldObj.home, hmt], rfl⟩
          have hk : Keeps w.fields (w.fields.set h (some { f with readOnly := true, memType := .gpu, values := some a, builtCpu := true })) :=
            keeps_set hf hs id (fun _ => id) (fun hb => by rw [hnb] at hb; cases hb)
          refine ⟨_, by rw [hfl], hd.get hu hg hrr hh, by rw [hfl]; exact hk, ?_, hs, rfl, rfl, ?_⟩
          · simp only [hfl]
            have hr1 := hr.keep hk
            refine ⟨?_, ?_, ?_, fun _ => rfl, hr.win⟩
            · obtain ⟨x, hx, hx'⟩ := hr1.home
              exact ⟨x, hs.home.trans hx, by rwa [hs.mt]⟩
            · intro c hc
              obtain ⟨h', f', h1, h2, h3⟩ := hr1.cons c hc
              exact ⟨h', f', h1, h2, h3.mt.trans hmt, h3.home.trans hs.home.symm, h3.alloc⟩
            · intro b _ hb
              injection hb with hb
              subst hb
              exact ⟨h, _, by rw [get_set (lt_of_get hf), if_pos rfl], rfl, rfl, .refl _⟩
          · refine Or.inr ⟨rfl, a, Or.inr ⟨rfl, rfl⟩, ?_, Or.inl ⟨rfl, rfl, rfl⟩⟩
            rintro t' (ht | ⟨_, ht⟩) hne
            · exact Or.inl ht
            · injection ht with ht; exact absurd ht.symm hne
        · rw [if_neg hv] at he
          injection he with he; injection he with h1 h2; subst h1 h2
          obtain ⟨t, ht⟩ := Option.ne_none_iff_exists'.1 hv
          have := same false (Or.inr ⟨rfl, t, Or.inr ⟨hmt, ht⟩, Or.inl ⟨rfl, hmt, ht⟩⟩)
          simp only [hmt] at this
          exact ⟨_, this⟩
  | gpu =>
    cases hcu : cuda with
    | false =>
      simp only [hcu] at he
      injection he with he; injection he with h1 h2; subst h1 h2
      exact ⟨_, same true (Or.inl (Or.inl rfl))⟩
    | true =>
      simp only [hcu, if_true] at he
      have he' : (if (f.consumers.lookup dev).isNone = true then
              (.ok ({ w with
                fields := w.fields.set h (some { { f with readOnly := true } with
                  consumers := (dev, fresh) :: f.consumers, mine := (dev, fresh) :: f.mine })
                gpuOwn := (fresh, h) :: w.gpuOwn }, false) : Res)
            else .ok ({ w with fields := w.fields.set h (some { f with readOnly := true }) }, false)) = .ok (w', b) := by
        cases hmt : f.memType with
        | other => exact absurd hmt hmo
        | localRam => simpa [hmt] using he
        | gpu => simpa [hmt] using he
      by_cases hlk : (f.consumers.lookup dev).isNone = true
      · rw [if_pos hlk] at he'
        injection he' with he'; injection he' with h1 h2; subst h1 h2
        have hk : Keeps w.fields (w.fields.set h (some { { f with readOnly := true } with
                  consumers := (dev, fresh) :: f.consumers, mine := (dev, fresh) :: f.mine })) :=
          keeps_set hf ⟨rfl, rfl, rfl⟩ id (fun b hb => by simp only [List.map_cons, List.mem_cons]; exact Or.inr hb) (fun hb => ⟨hb, rfl⟩)
        refine ⟨_, rfl, ⟨?_, hd.hr, hd.hc, ?_, ?_, hd.rc⟩, hk, ?_, ⟨rfl, rfl, rfl⟩, rfl, rfl, ?_⟩
        · intro a ha hx
          simp only [List.map_cons, List.mem_cons] at hx
          rcases hx with rfl | hx
          · exact hu.1 ha
          · exact hd.hg a ha hx
        · intro a hx
          simp only [List.map_cons, List.mem_cons] at hx
          rcases hx with rfl | hx
          · exact hu.2.2.1
          · exact hd.gr a hx
        · intro a hx
          simp only [List.map_cons, List.mem_cons] at hx
          rcases hx with rfl | hx
          · exact hu.2.2.2
          · exact hd.gc a hx
        · have hr1 := hr.keep hk
          refine ⟨hr1.home, ?_, ?_, fun _ => rfl, hr.win⟩
          · intro c hc
            simp only [List.mem_cons] at hc
            rcases hc with rfl | hc
            · exact ⟨h, _, by rw [get_set (lt_of_get hf), if_pos rfl], by simp, .refl _⟩
            · obtain ⟨h', f', h1, h2, h3⟩ := hr1.cons c hc
              exact ⟨h', f', h1, h2, h3.mt, h3.home, h3.alloc⟩
          · intro b hm hv
            obtain ⟨h', f', h1, h2, h3, h4⟩ := hr1.cpu b hm hv
            exact ⟨h', f', h1, h2, h3, h4.mt, h4.home, h4.alloc⟩
        · refine Or.inr ⟨rfl, fresh, Or.inl ⟨(dev, fresh), by simp, rfl⟩, ?_, Or.inr ⟨rfl, hmo, by simp⟩⟩
          rintro t' (⟨c, hc, ht⟩ | ht) hne
          · simp only [List.mem_cons] at hc
            rcases hc with rfl | hc
            · exact absurd ht.symm hne
            · exact Or.inl ⟨c, hc, ht⟩
          · exact Or.inr ht
      · rw [if_neg hlk] at he'
        injection he' with he'; injection he' with h1 h2; subst h1 h2
        simp only [Option.isNone_iff_eq_none] at hlk
        obtain ⟨t, ht⟩ := Option.ne_none_iff_exists'.1 hlk
        exact ⟨_, same false (Or.inr ⟨rfl, t, Or.inl ⟨_, mem_of_lookup ht, rfl⟩, Or.inr ⟨rfl, hmo, ht⟩⟩)⟩

/-- Changing the memory of consumers of one field. -/
theorem mInv_added {C : Nat → Prop} {cuda : Bool} {w : FieldMem V} (hi : MInv C cuda w) {fw' : FieldWorld} {h mt dev b} {f f1 : FieldObj}
    (hf : w.fw.fields[h]? = some (some f)) (ha : Added C w.fw fw' h f mt dev b f1) :
    (∀ (k : Nat) (g : FieldObj), fw'.fields[k]? = some (some g) → RefOk C fw'.fields g) ∧
    (∀ (k : Nat) (g : FieldObj), fw'.fields[k]? = some (some g) → (k = h ∧ g = f1) ∨ (k ≠ h ∧ w.fw.fields[k]? = some (some g))) := by
  have key : ∀ (k : Nat) (g : FieldObj), fw'.fields[k]? = some (some g) → (k = h ∧ g = f1) ∨ (k ≠ h ∧ w.fw.fields[k]? = some (some g)) := by
    intro k g hg
    rw [ha.fields, get_set (lt_of_get hf)] at hg
    split at hg
    · injection hg with hg; injection hg with hg; exact Or.inl ⟨by assumption, hg.symm⟩
    · exact Or.inr ⟨by assumption, hg⟩
  refine ⟨fun k g hg => ?_, key⟩
  rcases key k g hg with ⟨_, rfl⟩ | ⟨_, hg'⟩
  · exact ha.ref
  · exact (hi.ref k g hg').keep ha.keeps

theorem add_good {C : Nat → Prop} {cuda : Bool} (zero : V) {w : FieldMem V} (hi : MInv C cuda w) {h mt dev fresh src}
    (hl : w.Legal C (.life (.addConsumer h mt dev fresh) src)) : Good C cuda zero w (.life (.addConsumer h mt dev fresh) src) := by
  obtain ⟨hl1, hu⟩ := hl
  obtain ⟨f, hf⟩ := hl1.1
  unfold Good
  rw [step_life]
  rcases FieldWorld.step_good hi.fi _ hl1 with e | ⟨fw', b, e, hfi⟩
  · left; rw [e]; rfl
  right
  rw [e, Outcome.ok_bind]
  unfold FieldWorld.step at e
  dsimp only at e
  rw [field_eq hf, Outcome.ok_bind] at e
  rcases add_inv hi.fi hi.dj hf (hi.ref h f hf) hu e with ⟨h1, h2, rfl, rfl⟩ | ⟨hloc, f1, ha⟩
  · simp only [lifeStores, Bool.false_eq_true, if_false, hf, h1, h2, and_self, if_true, Outcome.ok_bind]
    exact ⟨_, _, rfl, hi, frame_same _⟩
  obtain ⟨href, hkey⟩ := mInv_added hi hf ha
  have hcu : ∀ (k : Nat) (g : FieldObj), fw'.fields[k]? = some (some g) → g.memType = .gpu → cuda = true := by
    intro k g hg hm
    rcases hkey k g hg with ⟨rfl, rfl⟩ | ⟨_, hg'⟩
    · exact hi.cu k f hf (ha.same.mt.symm.trans hm)
    · exact hi.cu k g hg' hm
  have hf1 : fw'.fields[h]? = some (some f1) := by rw [ha.fields, get_set (lt_of_get hf), if_pos rfl]
  have hsame : ∀ (k : Nat) (g g' : FieldObj), w.fw.fields[k]? = some (some g) → fw'.fields[k]? = some (some g') → SameHome g g' := by
    intro k g g' hg hg'
    rcases hkey k g' hg' with ⟨rfl, rfl⟩ | ⟨_, hg''⟩
    · rw [hf] at hg; injection hg with hg; injection hg with hg; subst hg; exact ha.same
    · rw [hg] at hg''; injection hg'' with hg''; injection hg'' with hg''; subst hg''; exact .refl _
  have nothing : (∀ t, IsCons f1 t → IsCons f t) → ∃ w' b', (Outcome.ok ((⟨fw', w.mem⟩ : FieldMem V), b) = .ok (w', b')) ∧ MInv C cuda w' ∧
      Frame w w' (.life (.addConsumer h mt dev fresh) src) := by
    intro hcs
    refine ⟨_, _, rfl, ⟨hfi, ha.disj, href, ?_, hcu⟩, ?_⟩
    · intro k g hg
      rcases hkey k g hg with ⟨_, rfl⟩ | ⟨_, hg'⟩
      · intro t d ht hd
        rw [ha.same.alloc]
        exact hi.coh h f hf t d (hcs t ht) (ha.same.home.symm.trans hd)
      · exact hi.coh k g hg'
    · intro k g g' hg hg'
      exact ⟨hsame k g g' hg hg', fun _ _ _ _ _ _ => rfl⟩
  rcases ha.filled with ⟨hb, hcs⟩ | ⟨rfl, t, ht, hcs, hk⟩
  · have hst : lifeStores cuda zero w.fw fw' b src w.mem (.addConsumer h mt dev fresh) = .ok w.mem := by
      simp only [lifeStores, hf, hf1]
      rcases hb with rfl | ⟨h1, h2⟩
      · rfl
      · cases b with
        | true => rfl
        | false =>
          simp only [Bool.false_eq_true, if_false, consumerCopy, h1, h2]
          split <;> rfl
    dsimp only
    rw [hst, Outcome.ok_bind]
    exact nothing hcs
  · obtain ⟨d, hd, _⟩ := ha.ref.home
    have hst : lifeStores cuda zero w.fw fw' false src w.mem (.addConsumer h mt dev fresh) =
        .ok (fun b i => if b = t ∧ 0 ≤ i ∧ i < f1.alloc then w.mem d i else w.mem b i) := by
      simp only [lifeStores, hf, hf1, Bool.false_eq_true, if_false, hloc]
      unfold consumerCopy Mem.memcpy
      rcases hk with ⟨rfl, h2, h3⟩ | ⟨rfl, h2, h3⟩
      · simp only [FieldObj.home, h2] at hd
        simp only [h2, h3, hd]
      · cases hmt : f1.memType with
        | other => exact absurd hmt h2
        | localRam =>
          simp only [FieldObj.home, hmt] at hd
          simp only [h3, hd]
        | gpu =>
          simp only [FieldObj.home, hmt] at hd
          simp only [h3, hd]
    dsimp only
    rw [hst, Outcome.ok_bind]
    have hne : ∀ (k : Nat) (g : FieldObj), fw'.fields[k]? = some (some g) → ∀ x, g.home = some x → x ≠ t :=
      fun k g hg x hx => (home_ne_cons hfi ha.disj ha.ref (href k g hg) hx ht).symm
    refine ⟨_, _, rfl, ⟨hfi, ha.disj, href, ?_, hcu⟩, ?_⟩
    · intro k g hg t' x ht' hx i h0 h1
      have hxt := hne k g hg x hx
      simp only [hxt, false_and, if_false]
      by_cases e : t' = t
      · subst e
        obtain ⟨s1, s2⟩ := same_block hfi ha.disj ha.ref (href k g hg) ht ht'
        rw [s1, hd] at hx; injection hx with hx; subst hx
        rw [if_pos ⟨rfl, h0, by rw [← s2]; exact h1⟩]
      · simp only [e, false_and, if_false]
        rcases hkey k g hg with ⟨_, rfl⟩ | ⟨_, hg'⟩
        · rw [ha.same.alloc] at h1
          exact hi.coh h f hf t' x (hcs t' ht' e) (ha.same.home.symm.trans hx) i h0 h1
        · exact hi.coh k g hg' t' x ht' hx i h0 h1
    · intro k g g' hg hg'
      have hs := hsame k g g' hg hg'
      refine ⟨hs, fun x hx _ i _ _ => ?_⟩
      have hxt := hne k g' hg' x (hs.home.trans hx)
      simp [hxt]

/-- Memory was only given back. -/
structure Shrinks (w w' : FieldWorld) : Prop where
  fields : w'.fields = w.fields
  heap : w'.pool.heap = w.pool.heap
  gpu : ∀ p ∈ w'.gpuOwn, p ∈ w.gpuOwn
  raw : ∀ p ∈ w'.rawOwn, p ∈ w.rawOwn

theorem Shrinks.refl (w : FieldWorld) : Shrinks w w := ⟨rfl, rfl, fun _ => id, fun _ => id⟩
theorem Shrinks.trans {a b c : FieldWorld} (h : Shrinks a b) (k : Shrinks b c) : Shrinks a c :=
  ⟨k.fields.trans h.fields, k.heap.trans h.heap, fun p hp => h.gpu p (k.gpu p hp), fun p hp => h.raw p (k.raw p hp)⟩

theorem shrinks_gpuPutAll {h : Nat} (cs : List (Nat × Nat)) : ∀ {w w' : FieldWorld}, w.gpuPutAll h cs = .ok w' → Shrinks w w' := by
  induction cs with
  | nil => intro w w' e; injection e with e; subst e; exact .refl _
  | cons c cs ih =>
    intro w w' e
    unfold gpuPutAll gpuPut at e
    split at e
    · rw [Outcome.ok_bind] at e
      have s1 : Shrinks w { w with gpuOwn := w.gpuOwn.erase (c.2, h) } := ⟨rfl, rfl, fun p hp => List.mem_of_mem_erase hp, fun _ => id⟩
      exact s1.trans (ih e)
    · cases e

theorem shrinks_poolPut {h : Nat} {p : Option Nat} {w w' : FieldWorld} (e : w.poolPut h p = .ok w') : Shrinks w w' := by
  unfold poolPut at e
  cases p with
  | none => cases e
  | some a =>
    dsimp only at e
    split at e
    · simp only [Outcome.bind_eq_ok] at e
      obtain ⟨q, e1, e⟩ := e
      injection e with e; subst e
      unfold PoolWorld.step at e1
      simp only [Outcome.bind_eq_ok] at e1
      obtain ⟨p', _, e1⟩ := e1
      injection e1 with e1; subst e1
      exact ⟨rfl, rfl, fun _ => id, fun _ => id⟩
    · cases e

theorem shrinks_rawPut {h : Nat} {p : Option Nat} {w w' : FieldWorld} (e : w.rawPut h p = .ok w') : Shrinks w w' := by
  unfold rawPut at e
  cases p with
  | none => cases e
  | some a =>
    dsimp only at e
    split at e
    · injection e with e; subst e
      exact ⟨rfl, rfl, fun _ => id, fun p hp => List.mem_of_mem_erase hp⟩
    · cases e

theorem remove_inv {cuda : Bool} {w w' : FieldWorld} {h : Nat} {f : FieldObj} {b : Bool}
    (he : w.removeConsumers cuda h f = .ok (w', b)) :
    b = false ∧ (w' = w ∨ ∃ w1 f1, Shrinks w w1 ∧ w' = { w1 with fields := w.fields.set h (some f1) } ∧ SameHome f f1 ∧ f1.built = f.built ∧
      f1.consumers = [] ∧ f1.mine = [] ∧ (f.memType = .gpu → f1.builtCpu = false ∧ (f1.values = none ∨ (f1.values = f.values ∧ f.builtCpu = false))) ∧
      (f.memType ≠ .gpu → f1.builtCpu = f.builtCpu) ∧ f1.geo = f.geo) := by
  unfold removeConsumers at he
  split at he
  · simp only [Outcome.bind_eq_ok] at he
    obtain ⟨w1, e1, he⟩ := he
    have s1 := shrinks_gpuPutAll _ e1
    split at he
    · rename_i hc
      simp only [Outcome.bind_eq_ok] at he
      obtain ⟨w2, e2, he⟩ := he
      have s2 := shrinks_poolPut e2
      injection he with he; injection he with h1 h2
      refine ⟨h2.symm, Or.inr ⟨w2, { f with readOnly := false, consumers := [], mine := [], values := none, builtCpu := false }, s1.trans s2, ?_, ?_⟩⟩
      · rw [← h1, (s1.trans s2).fields]
      · exact ⟨⟨rfl, by simp [FieldObj.home, hc.1], rfl⟩, rfl, rfl, rfl, fun _ => ⟨rfl, Or.inl rfl⟩, fun h => absurd hc.1 h, rfl⟩
    · rename_i hc
      injection he with he; injection he with h1 h2
      refine ⟨h2.symm, Or.inr ⟨w1, { f with readOnly := if f.mine = [] then f.readOnly else false, consumers := [], mine := [] }, s1, ?_, ?_⟩⟩
      · rw [← h1, s1.fields]
      · refine ⟨⟨rfl, rfl, rfl⟩, rfl, rfl, rfl, fun hm => ?_, fun _ => rfl, rfl⟩
        have : f.builtCpu = false := by
          cases hb : f.builtCpu with
          | false => rfl
          | true => exact absurd ⟨hm, hb⟩ hc
        exact ⟨this, Or.inr ⟨rfl, this⟩⟩
  · injection he with he; injection he with h1 h2
    exact ⟨h2.symm, Or.inl h1.symm⟩

theorem refers_of_cons {f : FieldObj} {c : Nat × Nat} (hc : c ∈ f.consumers) : f.Refers c.2 := Or.inr (Or.inr ⟨c.1, hc⟩)

theorem refers_of_home {f : FieldObj} {a : Nat} (ha : f.home = some a) : f.Refers a := by
  unfold FieldObj.home at ha
  split at ha
  · exact Or.inl ha
  · exact Or.inr (Or.inl ha)
  · cases ha

theorem life_nothing {cuda : Bool} {zero : V} {w : FieldMem V} {o : FieldWorld.Op} {src} {fw' : FieldWorld} {b : Bool}
    (he : w.fw.step cuda o = .ok (fw', b)) (hs : lifeStores cuda zero w.fw fw' b src w.mem o = .ok w.mem) :
    w.step cuda zero (.life o src) = .ok (⟨fw', w.mem⟩, b) := by
  rw [step_life, he, Outcome.ok_bind]
  dsimp only
  rw [hs, Outcome.ok_bind]

theorem remove_good {C : Nat → Prop} {cuda : Bool} (zero : V) {w : FieldMem V} (hi : MInv C cuda w) {h src}
    (hl : w.Legal C (.life (.removeConsumers h) src)) (hdis : w.Disciplined (.life (.removeConsumers h) src)) :
    Good C cuda zero w (.life (.removeConsumers h) src) := by
  obtain ⟨hl1, _⟩ := hl
  have hl2 := hl1
  obtain ⟨f, hf⟩ := hl2
  rcases FieldWorld.step_good hi.fi _ hl1 with e | ⟨fw', b, e, hfi⟩
  · left; rw [step_life, e]; rfl
  right
  refine ⟨_, _, life_nothing e rfl, ?_⟩
  unfold FieldWorld.step at e
  dsimp only at e
  rw [field_eq hf, Outcome.ok_bind] at e
  obtain ⟨_, rfl | ⟨w1, f1, hsh, rfl, hs, hb, hcons, hmine, hgpu, hngpu, hgeo⟩⟩ := remove_inv e
  · exact ⟨hi, frame_same _⟩
  have hkey : ∀ (k : Nat) (g : FieldObj), (w.fw.fields.set h (some f1))[k]? = some (some g) →
      (k = h ∧ g = f1) ∨ (k ≠ h ∧ w.fw.fields[k]? = some (some g)) := by
    intro k g hg
    rw [get_set (lt_of_get hf)] at hg
    split at hg
    · injection hg with hg; injection hg with hg; exact Or.inl ⟨by assumption, hg.symm⟩
    · exact Or.inr ⟨by assumption, hg⟩
  have get1 : (w.fw.fields.set h (some f1))[h]? = some (some f1) := by rw [get_set (lt_of_get hf), if_pos rfl]
  have getne : ∀ k, k ≠ h → (w.fw.fields.set h (some f1))[k]? = w.fw.fields[k]? := by
    intro k hk; rw [get_set (lt_of_get hf), if_neg hk]
  have hr := hi.ref h f hf
  have homeok : ∀ g, RefOk C w.fw.fields g → ∃ a, g.home = some a ∧ (C a ∨ ∃ (h' : Nat) (f' : FieldObj),
      (w.fw.fields.set h (some f1))[h']? = some (some f') ∧ f'.built = true ∧ f'.memType = g.memType ∧ f'.home = some a) := by
    intro g hg
    obtain ⟨a, ha, hc | ⟨h', f', h1, h2, h3, h4⟩⟩ := hg.home
    · exact ⟨a, ha, Or.inl hc⟩
    · refine ⟨a, ha, Or.inr ?_⟩
      by_cases hk : h' = h
      · subst hk
        rw [hf] at h1; injection h1 with h1; injection h1 with h1; subst h1
        exact ⟨h', f1, get1, hb.trans h2, hs.mt.trans h3, hs.home.trans h4⟩
      · exact ⟨h', f', by rw [getne h' hk]; exact h1, h2, h3, h4⟩
  have hcu : ∀ (k : Nat) (g : FieldObj), (w.fw.fields.set h (some f1))[k]? = some (some g) → g.memType = .gpu → cuda = true := by
    intro k g hg hm
    rcases hkey k g hg with ⟨rfl, rfl⟩ | ⟨_, hg'⟩
    · exact hi.cu k f hf (hs.mt.symm.trans hm)
    · exact hi.cu k g hg' hm
  refine ⟨⟨hfi, ?_, ?_, ?_, hcu⟩, ?_⟩
  · exact hi.dj.sub hsh.heap hsh.gpu hsh.raw
  · intro k g hg
    rcases hkey k g hg with ⟨rfl, rfl⟩ | ⟨hk, hg'⟩
    · obtain ⟨a, ha, ha'⟩ := homeok f hr
      refine ⟨⟨a, hs.home.trans ha, by rwa [hs.mt]⟩, by simp [hcons], ?_, ?_, by rw [hgeo, hs.alloc]; exact hr.win⟩
      · intro x hm hv
        rw [hs.mt] at hm
        rcases (hgpu hm).2 with h0 | ⟨h0, h1⟩
        · rw [h0] at hv; cases hv
        · rw [h0] at hv
          obtain ⟨h', f', e1, e2, e3, e4⟩ := hr.cpu x hm hv
          have hne : h' ≠ k := by
            rintro rfl
            rw [hf] at e1; injection e1 with e1; injection e1 with e1; subst e1
            rw [h1] at e2; cases e2
          exact ⟨h', f', by rw [getne h' hne]; exact e1, e2, e3, e4.mt.trans hs.mt.symm, e4.home.trans hs.home.symm, e4.alloc.trans hs.alloc.symm⟩
      · rintro (h0 | h0 | h0)
        · exact absurd hcons h0
        · exact absurd hmine h0
        · by_cases hm : f.memType = .gpu
          · rw [(hgpu hm).1] at h0; cases h0
          · rw [hngpu hm] at h0
            exact absurd ((hi.fi.fok k f hf).cpu h0).2.1 hm
    · have hrg := hi.ref k g hg'
      refine ⟨homeok g hrg, ?_, ?_, hrg.ro, hrg.win⟩
      · intro c hc
        obtain ⟨h', f', e1, e2, e3⟩ := hrg.cons c hc
        have hne : h' ≠ h := by
          rintro rfl
          exact hdis c.2 k g (Or.inl ((hi.fi.gown c.2 h').2 ⟨f', e1, e2⟩)) hg' hk (refers_of_cons hc)
        exact ⟨h', f', by simp only [getne h' hne]; exact e1, e2, e3⟩
      · intro x hm hv
        obtain ⟨h', f', e1, e2, e3, e4⟩ := hrg.cpu x hm hv
        have hne : h' ≠ h := by
          rintro rfl
          exact hdis x k g (Or.inr ⟨(hi.fi.cown x h').2 ⟨f', e1, by simp [ownedCpu, e2, e3]⟩, f', e1, e4.mt.trans hm⟩) hg' hk (Or.inl hv)
        exact ⟨h', f', by simp only [getne h' hne]; exact e1, e2, e3, e4⟩
  · intro k g hg
    rcases hkey k g hg with ⟨rfl, rfl⟩ | ⟨hk, hg'⟩
    · rintro t d (⟨c, hc, _⟩ | ⟨hm, hv⟩) hd
      · rw [hcons] at hc; cases hc
      · rw [hs.mt] at hm
        rcases (hgpu hm).2 with h0 | ⟨h0, _⟩
        · rw [h0] at hv; cases hv
        · rw [h0] at hv
          rw [hs.alloc]
          exact hi.coh k f hf t d (Or.inr ⟨hm, hv⟩) (hs.home.symm.trans hd)
    · exact hi.coh k g hg'
  · intro k g g' hg hg'
    rcases hkey k g' hg' with ⟨rfl, rfl⟩ | ⟨hk, hg''⟩
    · rw [hf] at hg; injection hg with hg; injection hg with hg; subst hg
      exact ⟨hs, fun _ _ _ _ _ _ => rfl⟩
    · rw [hg] at hg''; injection hg'' with hg''; injection hg'' with hg''; subst hg''
      exact ⟨.refl _, fun _ _ _ _ _ _ => rfl⟩

theorem destroy_shrinks {cuda : Bool} {w w' : FieldWorld} {h : Nat} {f : FieldObj} {b : Bool}
    (he : w.destroy cuda h f = .ok (w', b)) : ∃ w1, Shrinks w w1 ∧ w' = { w1 with fields := w.fields.set h none } := by
  unfold destroy at he
  simp only [Outcome.bind_eq_ok] at he
  obtain ⟨w1, e1, w2, e2, w3, e3, he⟩ := he
  have s1 : Shrinks w w1 := by
    split at e1
    · exact shrinks_gpuPutAll _ e1
    · injection e1 with e1; subst e1; exact .refl _
  have s2 : Shrinks w1 w2 := by
    split at e2
    · exact shrinks_poolPut e2
    · injection e2 with e2; subst e2; exact .refl _
  have s3 : Shrinks w2 w3 := by
    split at e3
    · split at e3
      · exact shrinks_poolPut e3
      · split at e3
        · exact shrinks_rawPut e3
        · cases e3
      · cases e3
    · injection e3 with e3; subst e3; exact .refl _
  injection he with he; injection he with h1 _
  have s := s1.trans (s2.trans s3)
  exact ⟨w3, s, by rw [← h1, s.fields]⟩

theorem destroy_good' {C : Nat → Prop} {cuda : Bool} (zero : V) {w : FieldMem V} (hi : MInv C cuda w) {h src}
    (hl : w.Legal C (.life (.destroy h) src)) (hdis : w.Disciplined (.life (.destroy h) src)) :
    Good C cuda zero w (.life (.destroy h) src) := by
  obtain ⟨hl1, _⟩ := hl
  have hl2 := hl1
  obtain ⟨f, hf⟩ := hl2
  rcases FieldWorld.step_good hi.fi _ hl1 with e | ⟨fw', b, e, hfi⟩
  · left; rw [step_life, e]; rfl
  right
  refine ⟨_, _, life_nothing e rfl, ?_⟩
  unfold FieldWorld.step at e
  dsimp only at e
  rw [field_eq hf, Outcome.ok_bind] at e
  obtain ⟨w1, hsh, rfl⟩ := destroy_shrinks e
  have hkey : ∀ (k : Nat) (g : FieldObj), (w.fw.fields.set h none)[k]? = some (some g) → k ≠ h ∧ w.fw.fields[k]? = some (some g) := by
    intro k g hg
    rw [get_set (lt_of_get hf)] at hg
    split at hg
    · injection hg with hg; cases hg
    · exact ⟨by assumption, hg⟩
  have getne : ∀ k, k ≠ h → (w.fw.fields.set h none)[k]? = w.fw.fields[k]? := by
    intro k hk; rw [get_set (lt_of_get hf), if_neg hk]
  refine ⟨⟨hfi, ?_, ?_, ?_, fun k g hg => hi.cu k g (hkey k g hg).2⟩, ?_⟩
  · exact hi.dj.sub hsh.heap hsh.gpu hsh.raw
  · intro k g hg
    obtain ⟨hk, hg'⟩ := hkey k g hg
    have hrg := hi.ref k g hg'
    refine ⟨?_, ?_, ?_, hrg.ro, hrg.win⟩
    · obtain ⟨a, ha, hc | ⟨h', f', h1, h2, h3, h4⟩⟩ := hrg.home
      · exact ⟨a, ha, Or.inl hc⟩
      · have hne : h' ≠ h := by
          rintro rfl
          refine hdis a k g ?_ hg' hk (refers_of_home ha)
          rcases (hi.fi.fok h' f' h1).built h2 with ⟨hm, _⟩ | ⟨_, hm, _⟩
          · exact Or.inl ((hi.fi.cown a h').2 ⟨f', h1, by simp only [FieldObj.home, hm] at h4; simp [ownedCpu, h2, hm, h4]⟩)
          · exact Or.inr (Or.inr ((hi.fi.rown a h').2 ⟨f', h1, by simp only [FieldObj.home, hm] at h4; simp [ownedRaw, h2, hm, h4]⟩))
        exact ⟨a, ha, Or.inr ⟨h', f', by simp only [getne h' hne]; exact h1, h2, h3, h4⟩⟩
    · intro c hc
      obtain ⟨h', f', e1, e2, e3⟩ := hrg.cons c hc
      have hne : h' ≠ h := by
        rintro rfl
        exact hdis c.2 k g (Or.inr (Or.inl ((hi.fi.gown c.2 h').2 ⟨f', e1, e2⟩))) hg' hk (refers_of_cons hc)
      exact ⟨h', f', by simp only [getne h' hne]; exact e1, e2, e3⟩
    · intro x hm hv
      obtain ⟨h', f', e1, e2, e3, e4⟩ := hrg.cpu x hm hv
      have hne : h' ≠ h := by
        rintro rfl
        exact hdis x k g (Or.inl ((hi.fi.cown x h').2 ⟨f', e1, by simp [ownedCpu, e2, e3]⟩)) hg' hk (Or.inl hv)
      exact ⟨h', f', by simp only [getne h' hne]; exact e1, e2, e3, e4⟩
  · intro k g hg
    exact hi.coh k g (hkey k g hg).2
  · intro k g g' hg hg'
    have hg'' := (hkey k g' hg').2
    rw [hg] at hg''; injection hg'' with hg''; injection hg'' with hg''; subst hg''
    exact ⟨.refl _, fun _ _ _ _ _ _ => rfl⟩

/-- A field that may be written and is the only one available elsewhere is available nowhere else. -/
theorem no_cons {C : Nat → Prop} {cuda : Bool} {w : FieldMem V} (hi : MInv C cuda w) {h : Nat} {f : FieldObj}
    (hf : w.fw.fields[h]? = some (some f)) (hro : f.readOnly = false) (hex : Exclusive w.fw h) : ∀ t, ¬ IsCons f t := by
  have hr := hi.ref h f hf
  rintro t (⟨c, hc, _⟩ | ⟨hm, hv⟩)
  · have := hr.ro (Or.inl (List.ne_nil_of_mem hc))
    rw [hro] at this; cases this
  · obtain ⟨h', f', e1, e2, e3, e4⟩ := hr.cpu t hm hv
    by_cases hk : h' = h
    · subst hk
      rw [hf] at e1; injection e1 with e1; injection e1 with e1; subst e1
      have := hr.ro (Or.inr (Or.inr e2))
      rw [hro] at this; cases this
    · have := (hex f h' f' hf e1 hk e4.home).2 (e4.mt.trans hm)
      rw [e3] at this; cases this

/-- Writing to the home of a field. -/
theorem changed_good {C : Nat → Prop} {cuda : Bool} {w : FieldMem V} (hi : MInv C cuda w) {h : Nat} {f : FieldObj}
    (hf : w.fw.fields[h]? = some (some f)) (hro : f.readOnly = false) (hex : Exclusive w.fw h) {d : Nat} (hd : f.home = some d)
    {m' : Mem V} (hm : ∀ b i, b ≠ d → m' b i = w.mem b i) {o : Op V} (ho : w.Mutates d o) :
    MInv C cuda ⟨w.fw, m'⟩ ∧ Frame w ⟨w.fw, m'⟩ o := by
  have hnc := no_cons hi hf hro hex
  refine ⟨⟨hi.fi, hi.dj, hi.ref, ?_, hi.cu⟩, ?_⟩
  · intro k g hg t x ht hx
    have htd : t ≠ d := home_ne_cons hi.fi hi.dj (hi.ref k g hg) (hi.ref h f hf) hd ht
    have hxd : x ≠ d := by
      rintro rfl
      by_cases hk : k = h
      · subst hk
        rw [hf] at hg; injection hg with hg; injection hg with hg; subst hg
        exact hnc t ht
      · have hoh := hex f k g hf hg hk (hx.trans hd.symm)
        rcases ht with ⟨c, hc, _⟩ | ⟨hmt, hv⟩
        · rw [hoh.1] at hc; cases hc
        · rw [hoh.2 hmt] at hv; cases hv
    intro i h0 h1
    simp only [hm t i htd, hm x i hxd]
    exact hi.coh k g hg t x ht hx i h0 h1
  · intro k g g' hg hg'
    rw [hg] at hg'; injection hg' with hg'; injection hg' with hg'; subst hg'
    refine ⟨.refl _, fun x hx hnm i _ _ => hm x i ?_⟩
    rintro rfl
    exact hnm ho

/-- The memory to write through `field_values` is the home. -/
theorem fieldValuesM_home {C : Nat → Prop} {cuda : Bool} {w : FieldMem V} (hi : MInv C cuda w) {h : Nat} {f : FieldObj}
    (hf : w.fw.fields[h]? = some (some f)) (hex : Exclusive w.fw h) {mt dev} :
    f.fieldValuesM cuda mt dev = .throws ∨ ∃ d, f.fieldValuesM cuda mt dev = .ok (some d) ∧ f.home = some d ∧ f.readOnly = false := by
  unfold FieldObj.fieldValuesM
  cases hro : f.readOnly with
  | true => left; rw [Outcome.throwIf_true rfl]; rfl
  | false =>
    have hnc := no_cons hi hf hro hex
    rw [Outcome.throwIf_false (by simp), Outcome.ok_bind]
    unfold FieldObj.fieldValuesC
    obtain ⟨a, ha, _⟩ := (hi.ref h f hf).home
    cases mt with
    | other => exact Or.inl rfl
    | localRam =>
      dsimp only
      cases hv : f.values with
      | none => exact Or.inl rfl
      | some b =>
        right
        refine ⟨b, rfl, ?_, rfl⟩
        cases hm : f.memType with
        | localRam => simp [FieldObj.home, hm, hv]
        | gpu => exact absurd (Or.inr ⟨hm, hv⟩) (hnc b)
        | other => simp [FieldObj.home, hm] at ha
    | gpu =>
      dsimp only
      split
      · split
        · rename_i hc
          right
          simp only [FieldObj.home, hc.1] at ha
          exact ⟨a, by rw [ha], by simp [FieldObj.home, hc.1, ha], rfl⟩
        · cases hlk : f.consumers.lookup dev with
          | none => exact Or.inl rfl
          | some b => exact absurd (Or.inl ⟨_, mem_of_lookup hlk, rfl⟩) (hnc b)
      · exact Or.inl rfl

theorem write_good {C : Nat → Prop} {cuda : Bool} (zero : V) {w : FieldMem V} (hi : MInv C cuda w) {h mt dev i v}
    (hl : w.Legal C (.write h mt dev i v)) (hdis : w.Disciplined (.write h mt dev i v)) :
    Good C cuda zero w (.write h mt dev i v) := by
  obtain ⟨f, hf, _⟩ := hl
  unfold Good FieldMem.step
  dsimp only
  rw [field_eq hf, Outcome.ok_bind]
  right
  rcases fieldValuesM_home hi hf hdis (mt := mt) (dev := dev) with e | ⟨d, e, hd, hro⟩
  · rw [e]; exact ⟨_, _, rfl, hi, frame_same _⟩
  · rw [e]
    obtain ⟨h1, h2⟩ := changed_good hi hf hro hdis hd (m' := w.mem.write d i v)
      (fun b j hb => by simp [Mem.write, hb]) (o := .write h mt dev i v) ⟨f, hf, hd⟩
    exact ⟨_, _, rfl, h1, h2⟩

theorem flatIndex_cases (w : Window) (p : IntVec) : w.flatIndex p = .abort ∨ ∃ x, w.flatIndex p = .ok x := by
  unfold Window.flatIndex ijkToFlat
  generalize (⟨if 1 < w.npts.x then p.x + w.offset.x else 0, _, _⟩ : IntVec) = q
  unfold Outcome.assert
  repeat' split
  all_goals first | exact Or.inl rfl | exact Or.inr ⟨_, rfl⟩

theorem callM_home {C : Nat → Prop} {cuda : Bool} {w : FieldMem V} (hi : MInv C cuda w) {h : Nat} {f : FieldObj}
    (hf : w.fw.fields[h]? = some (some f)) (ijk : IntVec) :
    f.callM ijk = .throws ∨ f.callM ijk = .abort ∨ ∃ d a, f.callM ijk = .ok (d, a) ∧ f.home = some d ∧ f.readOnly = false := by
  unfold FieldObj.callM
  cases hro : f.readOnly with
  | true => left; rw [Outcome.throwIf_true rfl]; rfl
  | false =>
    rw [Outcome.throwIf_false (by simp), Outcome.ok_bind]
    by_cases hm : f.memType = .localRam
    · rw [Outcome.throwIf_false (not_not.2 hm), Outcome.ok_bind]
      obtain ⟨a, ha, _⟩ := (hi.ref h f hf).home
      have hv : f.values = some a := by simpa [FieldObj.home, hm] using ha
      right
      by_cases hc : f.callAsserts ijk
      · rw [Outcome.assert_true hc, Outcome.ok_bind]
        cases hfl : f.geo.window.flatIndex ijk with
        | ok x => right; exact ⟨a, x, by rw [Outcome.ok_bind, hv]; rfl, ha, rfl⟩
        | abort => left; rfl
        | throws => rcases flatIndex_cases f.geo.window ijk with e | ⟨_, e⟩ <;> rw [e] at hfl <;> cases hfl
        | ub => rcases flatIndex_cases f.geo.window ijk with e | ⟨_, e⟩ <;> rw [e] at hfl <;> cases hfl
      · left; rw [Outcome.assert_false hc]; rfl
    · left; rw [Outcome.throwIf_true hm]; rfl

theorem set_good {C : Nat → Prop} {cuda : Bool} (zero : V) {w : FieldMem V} (hi : MInv C cuda w) {h ijk v}
    (hl : w.Legal C (.set h ijk v)) (hdis : w.Disciplined (.set h ijk v)) : Good C cuda zero w (.set h ijk v) := by
  obtain ⟨f, hf⟩ := hl
  unfold Good FieldMem.step
  dsimp only
  rw [field_eq hf, Outcome.ok_bind]
  rcases callM_home hi hf ijk with e | e | ⟨d, a, e, hd, hro⟩
  · right; rw [e]; exact ⟨_, _, rfl, hi, frame_same _⟩
  · left; rw [e]; rfl
  · right; rw [e]
    obtain ⟨h1, h2⟩ := changed_good hi hf hro hdis hd (m' := w.mem.write d a v)
      (fun b j hb => by simp [Mem.write, hb]) (o := .set h ijk v) ⟨f, hf, hd⟩
    exact ⟨_, _, rfl, h1, h2⟩

/-- What `operator=` does, for fields that have a home. -/
theorem assignAny_cases (cuda : Bool) (f g : FieldObj) (m : Mem V) {d s : Nat} (hd : f.home = some d) (hs : g.home = some s) :
    assignAny cuda f g m = .throws ∨ (f.readOnly = false ∧ f.geo.window.neOp g.geo.window = false ∧
      ((assignAny cuda f g m = .ok m ∧ d = s) ∨
       (assignAny cuda f g m = .ok (fun b i => if b = d ∧ 0 ≤ i ∧ i < g.geo.window.globNpts then m s i else m b i) ∧ f.memType = .localRam ∧ g.memType = .localRam) ∨
       (assignAny cuda f g m = .ok (fun b i => if b = d ∧ 0 ≤ i ∧ i < f.alloc then m s i else m b i) ∧ cuda = true ∧ ¬ (f.memType = .localRam ∧ g.memType = .localRam)))) := by
  unfold assignAny
  by_cases hro : f.readOnly = true
  · left; rw [Outcome.throwIf_true hro]; rfl
  rw [Outcome.throwIf_false hro, Outcome.ok_bind]
  by_cases hne : f.geo.window.neOp g.geo.window = true
  · left; rw [Outcome.throwIf_true hne]; rfl
  rw [Outcome.throwIf_false hne, Outcome.ok_bind]
  have hro' : f.readOnly = false := by simpa using hro
  have hne' : f.geo.window.neOp g.geo.window = false := by simpa using hne
  cases hfm : f.memType with
  | other => simp [FieldObj.home, hfm] at hd
  | localRam =>
    simp only [FieldObj.home, hfm] at hd
    cases hgm : g.memType with
    | other => simp [FieldObj.home, hgm] at hs
    | localRam =>
      simp only [FieldObj.home, hgm] at hs
      right
      refine ⟨hro', hne', ?_⟩
      dsimp only
      unfold assignField
      rw [Outcome.throwIf_false hro, Outcome.ok_bind, Outcome.throwIf_false hne, Outcome.ok_bind,
        Outcome.throwIf_false (by simp [hfm, hgm]), Outcome.ok_bind, Outcome.throwIf_false (by simp [hs]), Outcome.ok_bind]
      by_cases he : f.values = g.values
      · rw [if_pos he]
        left
        rw [hd, hs] at he; injection he with he
        exact ⟨rfl, he⟩
      · rw [if_neg he, hd, hs]
        exact Or.inr (Or.inl ⟨rfl, rfl, rfl⟩)
    | gpu =>
      simp only [FieldObj.home, hgm] at hs
      dsimp only
      cases cuda with
      | false => exact Or.inl rfl
      | true =>
        right
        refine ⟨hro', hne', Or.inr (Or.inr ⟨?_, rfl, by simp⟩)⟩
        simp [Mem.memcpy, hd, hs]
  | gpu =>
    simp only [FieldObj.home, hfm] at hd
    cases hgm : g.memType with
    | other => simp [FieldObj.home, hgm] at hs
    | localRam =>
      simp only [FieldObj.home, hgm] at hs
      dsimp only
      cases cuda with
      | false => exact Or.inl rfl
      | true =>
        right
        refine ⟨hro', hne', Or.inr (Or.inr ⟨?_, rfl, by simp⟩)⟩
        simp [Mem.memcpy, hd, hs]
    | gpu =>
      simp only [FieldObj.home, hgm] at hs
      dsimp only
      cases cuda with
      | false => exact Or.inl rfl
      | true =>
        right
        refine ⟨hro', hne', ?_⟩
        simp only [if_true]
        by_cases he : f.dev = g.dev ∧ f.ext = g.ext
        · rw [if_pos he]
          left
          rw [hd, hs] at he
          exact ⟨rfl, by injection he.2⟩
        · rw [if_neg he]
          refine Or.inr (Or.inr ⟨?_, trivial, by simp⟩)
          simp [Mem.memcpy, hd, hs]

theorem assign_good {C : Nat → Prop} {cuda : Bool} (zero : V) {w : FieldMem V} (hi : MInv C cuda w) {h k}
    (hl : w.Legal C (.assign h k)) (hdis : w.Disciplined (.assign h k)) : Good C cuda zero w (.assign h k) := by
  obtain ⟨⟨f, hf⟩, g, hg⟩ := hl
  unfold Good FieldMem.step
  dsimp only
  rw [field_eq hf, Outcome.ok_bind, field_eq hg, Outcome.ok_bind]
  right
  obtain ⟨d, hd, _⟩ := (hi.ref h f hf).home
  obtain ⟨s, hs, _⟩ := (hi.ref k g hg).home
  rcases assignAny_cases cuda f g w.mem hd hs with e | ⟨hro, _, ⟨e, _⟩ | ⟨e, _⟩ | ⟨e, _⟩⟩
  · rw [e]; exact ⟨_, _, rfl, hi, frame_same _⟩
  · rw [e]; exact ⟨_, _, rfl, hi, frame_same _⟩
  · rw [e]
    obtain ⟨h1, h2⟩ := changed_good hi hf hro hdis hd (m' := fun b i => if b = d ∧ 0 ≤ i ∧ i < g.geo.window.globNpts then w.mem s i else w.mem b i)
      (fun b i hb => by simp [hb]) (o := .assign h k) ⟨f, hf, hd⟩
    exact ⟨_, _, rfl, h1, h2⟩
  · rw [e]
    obtain ⟨h1, h2⟩ := changed_good hi hf hro hdis hd (m' := fun b i => if b = d ∧ 0 ≤ i ∧ i < f.alloc then w.mem s i else w.mem b i)
      (fun b i hb => by simp [hb]) (o := .assign h k) ⟨f, hf, hd⟩
    exact ⟨_, _, rfl, h1, h2⟩

theorem step_good {C : Nat → Prop} {cuda : Bool} (zero : V) {w : FieldMem V} (hi : MInv C cuda w) (o : Op V)
    (hl : w.Legal C o) (hd : w.Disciplined o) : Good C cuda zero w o := by
  cases o with
  | life o src =>
    cases o with
    | create => exact create_good zero hi hl
    | copy => exact copy_good zero hi hl
    | view => exact view_good zero hi hl
    | addConsumer => exact add_good zero hi hl
    | removeConsumers => exact remove_good zero hi hl hd
    | destroy => exact destroy_good' zero hi hl hd
  | write => exact write_good zero hi hl hd
  | set => exact set_good zero hi hl hd
  | assign => exact assign_good zero hi hl hd

theorem run_good {C : Nat → Prop} {cuda : Bool} (zero : V) (os : List (Op V)) : ∀ {w : FieldMem V}, MInv C cuda w →
    w.Careful C cuda zero os → w.run cuda zero os = .abort ∨ ∃ w', w.run cuda zero os = .ok w' ∧ MInv C cuda w' := by
  induction os with
  | nil => intro w hi _; exact Or.inr ⟨w, rfl, hi⟩
  | cons o os ih =>
    intro w hi hc
    obtain ⟨hl, hd, hc⟩ := hc
    unfold FieldMem.run
    rcases step_good zero hi o hl hd with e | ⟨w', b, e, hi', _⟩
    · left; rw [e]; rfl
    · rw [e] at hc ⊢
      rw [Outcome.ok_bind]
      exact ih hi' hc

end SpatialOps.FieldMem
