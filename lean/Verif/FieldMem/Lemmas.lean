import Verif.FieldMem.Spec
import Verif.Field.Props

/-!
# Invariant of field contents: every reference is to memory held, and consumers agree
-/

namespace SpatialOps.FieldMem
open FieldWorld

variable {V : Type}

/-- `f` and `f'` live in the same memory. -/
structure SameHome (f f' : FieldObj) : Prop where
  mt : f'.memType = f.memType
  home : f'.home = f.home
  alloc : f'.alloc = f.alloc

theorem SameHome.refl (f : FieldObj) : SameHome f f := ⟨rfl, rfl, rfl⟩
theorem SameHome.trans {f g h : FieldObj} (a : SameHome f g) (b : SameHome g h) : SameHome f h :=
  ⟨b.mt.trans a.mt, b.home.trans a.home, b.alloc.trans a.alloc⟩

structure RefOk (C : Nat → Prop) (fs : List (Option FieldObj)) (f : FieldObj) : Prop where
  home : ∃ a, f.home = some a ∧ (C a ∨ ∃ (h' : Nat) (f' : FieldObj), fs[h']? = some (some f') ∧ f'.built = true ∧
    f'.memType = f.memType ∧ f'.home = some a)
  cons : ∀ c ∈ f.consumers, ∃ (h' : Nat) (f' : FieldObj), fs[h']? = some (some f') ∧ c.2 ∈ f'.mine.map Prod.snd ∧ SameHome f f'
  cpu : ∀ b, f.memType = .gpu → f.values = some b → ∃ (h' : Nat) (f' : FieldObj), fs[h']? = some (some f') ∧
    f'.builtCpu = true ∧ f'.values = some b ∧ SameHome f f'
  ro : (f.consumers ≠ [] ∨ f.mine ≠ [] ∨ f.builtCpu = true) → f.readOnly = true
  win : f.geo.window.globNpts = f.alloc

/-- The four kinds of memory are disjoint. -/
structure Disj (C : Nat → Prop) (w : FieldWorld) : Prop where
  hg : ∀ a ∈ w.pool.heap.map Prod.fst, a ∉ w.gpuOwn.map Prod.fst
  hr : ∀ a ∈ w.pool.heap.map Prod.fst, a ∉ w.rawOwn.map Prod.fst
  hc : ∀ a ∈ w.pool.heap.map Prod.fst, ¬ C a
  gr : ∀ a ∈ w.gpuOwn.map Prod.fst, a ∉ w.rawOwn.map Prod.fst
  gc : ∀ a ∈ w.gpuOwn.map Prod.fst, ¬ C a
  rc : ∀ a ∈ w.rawOwn.map Prod.fst, ¬ C a

/-- Block `t` is memory of the field on a device it does not live on. -/
def IsCons (f : FieldObj) (t : Nat) : Prop := (∃ c ∈ f.consumers, c.2 = t) ∨ (f.memType = .gpu ∧ f.values = some t)

/-- Wherever the field is available it shows what is in its home. -/
def Coh (m : Mem V) (f : FieldObj) : Prop := ∀ t d, IsCons f t → f.home = some d → Agree m f.alloc t d

structure MInv (C : Nat → Prop) (cuda : Bool) (w : FieldMem V) : Prop where
  fi : Inv cuda w.fw
  dj : Disj C w.fw
  ref : ∀ (h : Nat) (f : FieldObj), w.fw.fields[h]? = some (some f) → RefOk C w.fw.fields f
  coh : ∀ (h : Nat) (f : FieldObj), w.fw.fields[h]? = some (some f) → Coh w.mem f
  cu : ∀ (h : Nat) (f : FieldObj), w.fw.fields[h]? = some (some f) → f.memType = .gpu → cuda = true

theorem mInv_init (C : Nat → Prop) (cuda : Bool) (m : Mem V) : MInv C cuda (FieldMem.init m) :=
  ⟨inv_init cuda, by constructor <;> intro a h <;> simp [FieldMem.init, FieldWorld.init, PoolWorld.init] at h,
    by simp [FieldMem.init, FieldWorld.init], by simp [FieldMem.init, FieldWorld.init], by simp [FieldMem.init, FieldWorld.init]⟩

theorem heap_of_cpuOwn {cuda : Bool} {w : FieldWorld} (hi : Inv cuda w) {a h : Nat} (hm : (a, h) ∈ w.cpuOwn) :
    a ∈ w.pool.heap.map Prod.fst := by
  have h1 : a ∈ w.pool.held := hi.perm.mem_iff.2 (List.mem_map.2 ⟨_, hm, rfl⟩)
  exact (poolInv_reach hi.reach).perm.mem_iff.1 (List.mem_append.2 (Or.inr h1))

theorem unique_cpu {cuda : Bool} {w : FieldWorld} (hi : Inv cuda w) {a h h' : Nat} (h1 : (a, h) ∈ w.cpuOwn)
    (h2 : (a, h') ∈ w.cpuOwn) : h = h' := by
  have := List.inj_on_of_nodup_map hi.cnd h1 h2 rfl
  injection this

theorem unique_gpu {cuda : Bool} {w : FieldWorld} (hi : Inv cuda w) {a h h' : Nat} (h1 : (a, h) ∈ w.gpuOwn)
    (h2 : (a, h') ∈ w.gpuOwn) : h = h' := by
  have := List.inj_on_of_nodup_map hi.gnd h1 h2 rfl
  injection this

/-- Which account a home block is in. -/
theorem home_cases {C : Nat → Prop} {cuda : Bool} {w : FieldWorld} (hi : Inv cuda w) {f : FieldObj} (hr : RefOk C w.fields f) :
    ∃ a, f.home = some a ∧ (C a ∨ (∃ h' f', w.fields[h']? = some (some f') ∧ f'.memType = .localRam ∧ (a, h') ∈ w.cpuOwn ∧ f.memType = .localRam) ∨
      (∃ h', (a, h') ∈ w.rawOwn ∧ f.memType = .gpu)) := by
  obtain ⟨a, ha, hc | ⟨h', f', hf, hb, hm, hh⟩⟩ := hr.home
  · exact ⟨a, ha, Or.inl hc⟩
  · refine ⟨a, ha, Or.inr ?_⟩
    rcases (hi.fok h' f' hf).built hb with ⟨h1, _⟩ | ⟨_, h1, _⟩
    · refine Or.inl ⟨h', f', hf, h1, (hi.cown a h').2 ⟨f', hf, ?_⟩, hm.symm.trans h1⟩
      simp only [FieldObj.home, h1] at hh
      simp [ownedCpu, hb, h1, hh]
    · refine Or.inr ⟨h', (hi.rown a h').2 ⟨f', hf, ?_⟩, hm.symm.trans h1⟩
      simp only [FieldObj.home, h1] at hh
      simp [ownedRaw, hb, h1, hh]

/-- Which account a block of a consumer is in. -/
theorem cons_own {C : Nat → Prop} {cuda : Bool} {w : FieldWorld} (hi : Inv cuda w) {f : FieldObj} (hr : RefOk C w.fields f)
    {c : Nat × Nat} (hc : c ∈ f.consumers) :
    ∃ (h' : Nat) (f' : FieldObj), w.fields[h']? = some (some f') ∧ (c.2, h') ∈ w.gpuOwn ∧ SameHome f f' := by
  obtain ⟨h', f', hf, hm, hs⟩ := hr.cons c hc
  exact ⟨h', f', hf, (hi.gown c.2 h').2 ⟨f', hf, hm⟩, hs⟩

theorem cpu_own {C : Nat → Prop} {cuda : Bool} {w : FieldWorld} (hi : Inv cuda w) {f : FieldObj} (hr : RefOk C w.fields f)
    {b : Nat} (hm : f.memType = .gpu) (hv : f.values = some b) :
    ∃ (h' : Nat) (f' : FieldObj), w.fields[h']? = some (some f') ∧ f'.memType = .gpu ∧ (b, h') ∈ w.cpuOwn ∧ SameHome f f' := by
  obtain ⟨h', f', hf, hb, hv', hs⟩ := hr.cpu b hm hv
  refine ⟨h', f', hf, hs.mt.trans hm, (hi.cown b h').2 ⟨f', hf, ?_⟩, hs⟩
  simp [ownedCpu, hb, hv']

theorem mem_fst {l : List (Nat × Nat)} {a h : Nat} (hm : (a, h) ∈ l) : a ∈ l.map Prod.fst := List.mem_map.2 ⟨_, hm, rfl⟩

theorem isCons_own {C : Nat → Prop} {cuda : Bool} {w : FieldWorld} (hi : Inv cuda w) {f : FieldObj} (hr : RefOk C w.fields f)
    {t : Nat} (ht : IsCons f t) : ∃ (h' : Nat) (f' : FieldObj), w.fields[h']? = some (some f') ∧ SameHome f f' ∧
      ((t, h') ∈ w.gpuOwn ∨ ((t, h') ∈ w.cpuOwn ∧ f'.memType = .gpu)) := by
  rcases ht with ⟨c, hc, rfl⟩ | ⟨hm, hv⟩
  · obtain ⟨h', f', h1, h2, h3⟩ := cons_own hi hr hc
    exact ⟨h', f', h1, h3, Or.inl h2⟩
  · obtain ⟨h', f', h1, h2, h3, h4⟩ := cpu_own hi hr hm hv
    exact ⟨h', f', h1, h4, Or.inr ⟨h3, h2⟩⟩

/-- A home is not the block of a consumer. -/
theorem home_ne_cons {C : Nat → Prop} {cuda : Bool} {w : FieldWorld} (hi : Inv cuda w) (hd : Disj C w) {f g : FieldObj}
    (hf : RefOk C w.fields f) (hg : RefOk C w.fields g) {d t : Nat} (hgd : g.home = some d) (ht : IsCons f t) : t ≠ d := by
  rintro rfl
  obtain ⟨a, ha, hk⟩ := home_cases hi hg
  rw [hgd] at ha; injection ha with ha; subst ha
  obtain ⟨h', f', hf', _, ho | ⟨ho, hmt⟩⟩ := isCons_own hi hf ht
  · rcases hk with hk | ⟨k, _, _, _, hk, _⟩ | ⟨k, hk, _⟩
    · exact hd.gc _ (mem_fst ho) hk
    · exact hd.hg _ (heap_of_cpuOwn hi hk) (mem_fst ho)
    · exact hd.gr _ (mem_fst ho) (mem_fst hk)
  · rcases hk with hk | ⟨k, f'', hf'', hmt', hk, _⟩ | ⟨k, hk, _⟩
    · exact hd.hc _ (heap_of_cpuOwn hi ho) hk
    · have := unique_cpu hi ho hk
      subst this
      rw [hf'] at hf''; injection hf'' with hf''; injection hf'' with hf''; subst hf''
      rw [hmt] at hmt'; cases hmt'
    · exact hd.hr _ (heap_of_cpuOwn hi ho) (mem_fst hk)

/-- Fields with a consumer block in common live in the same memory. -/
theorem same_block {C : Nat → Prop} {cuda : Bool} {w : FieldWorld} (hi : Inv cuda w) (hd : Disj C w) {f g : FieldObj}
    (hf : RefOk C w.fields f) (hg : RefOk C w.fields g) {t : Nat} (ht : IsCons f t) (ht' : IsCons g t) :
    g.home = f.home ∧ g.alloc = f.alloc := by
  obtain ⟨h1, f1, e1, s1, o1⟩ := isCons_own hi hf ht
  obtain ⟨h2, f2, e2, s2, o2⟩ := isCons_own hi hg ht'
  have : h1 = h2 := by
    rcases o1 with o1 | ⟨o1, _⟩ <;> rcases o2 with o2 | ⟨o2, _⟩
    · exact unique_gpu hi o1 o2
    · exact absurd (mem_fst o1) (hd.hg _ (heap_of_cpuOwn hi o2))
    · exact absurd (mem_fst o2) (hd.hg _ (heap_of_cpuOwn hi o1))
    · exact unique_cpu hi o1 o2
  subst this
  rw [e1] at e2; injection e2 with e2; injection e2 with e2; subst e2
  exact ⟨s2.home.symm.trans s1.home, s2.alloc.symm.trans s1.alloc⟩

/-- Block `a` is not referred to by fields whose references are in order. -/
def Unref (C : Nat → Prop) (fs : List (Option FieldObj)) (a : Nat) : Prop :=
  ∀ f, RefOk C fs f → f.home ≠ some a ∧ ∀ t, IsCons f t → t ≠ a

theorem unref_unused {C : Nat → Prop} {cuda : Bool} {w : FieldWorld} (hi : Inv cuda w) {a : Nat} (hu : Unused C w a) :
    Unref C w.fields a := by
  intro f hf
  constructor
  · intro e
    obtain ⟨b, hb, hk⟩ := home_cases hi hf
    rw [e] at hb; injection hb with hb; subst hb
    rcases hk with hk | ⟨k, _, _, _, hk, _⟩ | ⟨k, hk, _⟩
    · exact hu.2.2.2 hk
    · exact hu.1 (heap_of_cpuOwn hi hk)
    · exact hu.2.2.1 (mem_fst hk)
  · rintro t ht rfl
    obtain ⟨h', f', _, _, ho | ⟨ho, _⟩⟩ := isCons_own hi hf ht
    · exact hu.2.1 (mem_fst ho)
    · exact hu.1 (heap_of_cpuOwn hi ho)

/-- A CPU block that is not handed out is no live field's memory. -/
theorem unref_free {C : Nat → Prop} {cuda : Bool} {w : FieldWorld} (hi : Inv cuda w) (hd : Disj C w)
    {a : Nat} (h1 : a ∈ w.pool.heap.map Prod.fst) (h2 : a ∉ w.cpuOwn.map Prod.fst) : Unref C w.fields a := by
  intro f hf
  constructor
  · intro e
    obtain ⟨b, hb, hk⟩ := home_cases hi hf
    rw [e] at hb; injection hb with hb; subst hb
    rcases hk with hk | ⟨k, _, _, _, hk, _⟩ | ⟨k, hk, _⟩
    · exact hd.hc _ h1 hk
    · exact h2 (mem_fst hk)
    · exact hd.hr _ h1 (mem_fst hk)
  · rintro t ht rfl
    obtain ⟨h', f', _, _, ho | ⟨ho, _⟩⟩ := isCons_own hi hf ht
    · exact hd.hg _ h1 (mem_fst ho)
    · exact h2 (mem_fst ho)

/-- Coherence depends only on the blocks the field refers to. -/
theorem Coh.congr {m m' : Mem V} {f : FieldObj} (h : Coh m f)
    (hh : ∀ d, f.home = some d → ∀ i, 0 ≤ i → i < f.alloc → m' d i = m d i)
    (hc : ∀ t, IsCons f t → ∀ i, 0 ≤ i → i < f.alloc → m' t i = m t i) : Coh m' f := by
  intro t d ht hd i h0 h1
  rw [hc t ht i h0 h1, hh d hd i h0 h1]; exact h t d ht hd i h0 h1

/-- The owners of `fs` are still there in `fs'`. -/
def Keeps (fs fs' : List (Option FieldObj)) : Prop :=
  ∀ (h : Nat) (f : FieldObj), fs[h]? = some (some f) → ∃ f', fs'[h]? = some (some f') ∧ SameHome f f' ∧ (f.built = true → f'.built = true) ∧
    (∀ b ∈ f.mine.map Prod.snd, b ∈ f'.mine.map Prod.snd) ∧ (f.builtCpu = true → f'.builtCpu = true ∧ f'.values = f.values)

theorem RefOk.keep {C : Nat → Prop} {fs fs' : List (Option FieldObj)} (hk : Keeps fs fs') {f : FieldObj} (h : RefOk C fs f) :
    RefOk C fs' f := by
  refine ⟨?_, ?_, ?_, h.ro, h.win⟩
  · obtain ⟨a, ha, hc | ⟨h', f', hf, hb, hm, hh⟩⟩ := h.home
    · exact ⟨a, ha, Or.inl hc⟩
    · obtain ⟨f'', e, hs, hb', _⟩ := hk h' f' hf
      exact ⟨a, ha, Or.inr ⟨h', f'', e, hb' hb, hs.mt.trans hm, hs.home.trans hh⟩⟩
  · intro c hc
    obtain ⟨h', f', hf, hm, hs⟩ := h.cons c hc
    obtain ⟨f'', e, hs', _, hm', _⟩ := hk h' f' hf
    exact ⟨h', f'', e, hm' _ hm, hs.trans hs'⟩
  · intro b hm hv
    obtain ⟨h', f', hf, hb, hv', hs⟩ := h.cpu b hm hv
    obtain ⟨f'', e, hs', _, _, hx⟩ := hk h' f' hf
    exact ⟨h', f'', e, (hx hb).1, (hx hb).2.trans hv', hs.trans hs'⟩

theorem keeps_append (fs : List (Option FieldObj)) (o : Option FieldObj) : Keeps fs (fs ++ [o]) := by
  intro h f hf
  exact ⟨f, getElem?_append_singleton.2 (Or.inl hf), .refl f, id, fun _ => id, fun hb => ⟨hb, rfl⟩⟩

theorem keeps_refl (fs : List (Option FieldObj)) : Keeps fs fs := fun _ f hf => ⟨f, hf, .refl f, id, fun _ => id, fun hb => ⟨hb, rfl⟩⟩

theorem get_set {l : List (Option FieldObj)} {o : Option FieldObj} {h h' : Nat} (hl : h < l.length) :
    (l.set h o)[h']? = if h' = h then some o else l[h']? := by
  by_cases e : h' = h
  · subst e; rw [if_pos rfl, List.getElem?_set_self hl]
  · rw [if_neg e, List.getElem?_set_ne (fun x => e x.symm)]

theorem lt_of_get {l : List (Option FieldObj)} {h : Nat} {o : Option FieldObj} (hm : l[h]? = some o) : h < l.length :=
  (List.getElem?_eq_some_iff.1 hm).1

theorem keeps_set {fs : List (Option FieldObj)} {h : Nat} {f f1 : FieldObj} (hf : fs[h]? = some (some f)) (hs : SameHome f f1)
    (hb : f.built = true → f1.built = true) (hm : ∀ b ∈ f.mine.map Prod.snd, b ∈ f1.mine.map Prod.snd)
    (hc : f.builtCpu = true → f1.builtCpu = true ∧ f1.values = f.values) : Keeps fs (fs.set h (some f1)) := by
  intro k g hg
  rw [get_set (lt_of_get hf)]
  by_cases e : k = h
  · subst e
    rw [hf] at hg; injection hg with hg; injection hg with hg; subst hg
    exact ⟨f1, by simp, hs, hb, hm, hc⟩
  · exact ⟨g, by rw [if_neg e]; exact hg, .refl g, id, fun _ => id, fun hb => ⟨hb, rfl⟩⟩

theorem poolGet_heap {w w' : FieldWorld} (hb : Base w) {h n fresh a : Nat} (hf : fresh ∉ w.pool.heap.map Prod.fst)
    (he : w.poolGet h n fresh = .ok (w', a)) :
    w'.fields = w.fields ∧ w'.gpuOwn = w.gpuOwn ∧ w'.rawOwn = w.rawOwn ∧ w'.cpuOwn = (a, h) :: w.cpuOwn ∧
    (∀ x ∈ w'.pool.heap.map Prod.fst, x ∈ w.pool.heap.map Prod.fst ∨ x = fresh) ∧
    (a = fresh ∨ a ∈ w.pool.heap.map Prod.fst) ∧ a ∉ w.cpuOwn.map Prod.fst ∧ Base w' := by
  obtain ⟨w2, a2, e2, hb2, hb3, hb4, hb5, hb6⟩ := poolGet_spec hb (h := h) (n := n) hf
  rw [e2] at he; injection he with he; injection he with he1 he2; subst he1 he2
  have hi := poolInv_reach hb.reach
  obtain ⟨r, p', e1, e3, e4, e5, e6, ⟨k, e7, _⟩, e8, e9, e10⟩ := poolInv_get hi (n := n) hf
  unfold poolGet at e2
  rw [e1, Outcome.ok_bind, e3, Outcome.ok_bind] at e2
  injection e2 with e2; injection e2 with e2 e2'; subst e2 e2'
  have hh : p'.heap = w.pool.heap ∨ ∃ k, p'.heap = (fresh, k) :: w.pool.heap := by
    cases hr : r.alloc with
    | none => exact Or.inl (e10 hr)
    | some k => exact Or.inr ⟨k, e9 k hr⟩
  have hin : r.addr ∈ p'.heap.map Prod.fst := List.mem_map.2 ⟨_, e7, rfl⟩
  have hsub : ∀ x ∈ p'.heap.map Prod.fst, x ∈ w.pool.heap.map Prod.fst ∨ x = fresh := by
    intro x hx
    rcases hh with hh | ⟨k, hh⟩ <;> rw [hh] at hx
    · exact Or.inl hx
    · simp only [List.map_cons, List.mem_cons] at hx
      exact hx.symm
  exact ⟨rfl, rfl, rfl, rfl, hsub, (hsub _ hin).symm, fun hc => e8 (hb.perm.mem_iff.2 hc), hb2⟩

theorem Disj.get {C : Nat → Prop} {w w' : FieldWorld} (hd : Disj C w) {fresh : Nat} (hu : Unused C w fresh)
    (hg : w'.gpuOwn = w.gpuOwn) (hr : w'.rawOwn = w.rawOwn)
    (hh : ∀ x ∈ w'.pool.heap.map Prod.fst, x ∈ w.pool.heap.map Prod.fst ∨ x = fresh) : Disj C w' := by
  refine ⟨?_, ?_, ?_, by rw [hg, hr]; exact hd.gr, by rw [hg]; exact hd.gc, by rw [hr]; exact hd.rc⟩ <;> intro a ha
  · rw [hg]; rcases hh a ha with h | rfl
    · exact hd.hg a h
    · exact hu.2.1
  · rw [hr]; rcases hh a ha with h | rfl
    · exact hd.hr a h
    · exact hu.2.2.1
  · rcases hh a ha with h | rfl
    · exact hd.hc a h
    · exact hu.2.2.2

theorem Disj.sub {C : Nat → Prop} {w w' : FieldWorld} (hd : Disj C w) (hh : w'.pool.heap = w.pool.heap)
    (hg : ∀ p ∈ w'.gpuOwn, p ∈ w.gpuOwn) (hr : ∀ p ∈ w'.rawOwn, p ∈ w.rawOwn) : Disj C w' := by
  have hg' : ∀ a ∈ w'.gpuOwn.map Prod.fst, a ∈ w.gpuOwn.map Prod.fst := by
    intro a ha; obtain ⟨p, h1, h2⟩ := List.mem_map.1 ha; exact List.mem_map.2 ⟨p, hg p h1, h2⟩
  have hr' : ∀ a ∈ w'.rawOwn.map Prod.fst, a ∈ w.rawOwn.map Prod.fst := by
    intro a ha; obtain ⟨p, h1, h2⟩ := List.mem_map.1 ha; exact List.mem_map.2 ⟨p, hr p h1, h2⟩
  refine ⟨?_, ?_, ?_, ?_, ?_, ?_⟩ <;> intro a ha
  · rw [hh] at ha; exact fun h => hd.hg a ha (hg' a h)
  · rw [hh] at ha; exact fun h => hd.hr a ha (hr' a h)
  · rw [hh] at ha; exact hd.hc a ha
  · exact fun h => hd.gr a (hg' a ha) (hr' a h)
  · exact hd.gc a (hg' a ha)
  · exact hd.rc a (hr' a ha)

end SpatialOps.FieldMem
