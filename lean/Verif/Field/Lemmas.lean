import Verif.Field.Spec
import Verif.Pool.Props

/-!
# Ownership invariant of field memory
-/

namespace SpatialOps.FieldWorld

/-- CPU blocks the flags of a field make it responsible for. -/
def ownedCpu (f : FieldObj) : List Nat :=
  if (f.built = true ∧ f.memType = .localRam) ∨ f.builtCpu = true then f.values.toList else []
/-- GPU pool blocks of a field. -/
def ownedGpu (f : FieldObj) : List Nat := f.mine.map Prod.snd
/-- Raw device blocks of a field. -/
def ownedRaw (f : FieldObj) : List Nat :=
  if f.built = true ∧ f.memType = .gpu then f.ext.toList else []

structure FOk (cuda : Bool) (f : FieldObj) : Prop where
  built : f.built = true → (f.memType = .localRam ∧ f.values ≠ none) ∨
    (cuda = true ∧ f.memType = .gpu ∧ f.ext ≠ none)
  cpu : f.builtCpu = true → cuda = true ∧ f.memType = .gpu ∧ f.values ≠ none
  mine : f.mine ≠ [] → cuda = true
  nodup : (f.mine.map Prod.snd).Nodup

structure Inv (cuda : Bool) (w : FieldWorld) : Prop where
  reach : PoolWorld.Reach w.pool
  perm : w.pool.held.Perm (w.cpuOwn.map Prod.fst)
  gnd : (w.gpuOwn.map Prod.fst).Nodup
  rnd : (w.rawOwn.map Prod.fst).Nodup
  cown : ∀ a h, (a, h) ∈ w.cpuOwn ↔ ∃ f, w.fields[h]? = some (some f) ∧ a ∈ ownedCpu f
  gown : ∀ a h, (a, h) ∈ w.gpuOwn ↔ ∃ f, w.fields[h]? = some (some f) ∧ a ∈ ownedGpu f
  rown : ∀ a h, (a, h) ∈ w.rawOwn ↔ ∃ f, w.fields[h]? = some (some f) ∧ a ∈ ownedRaw f
  fok : ∀ (h : Nat) (f : FieldObj), w.fields[h]? = some (some f) → FOk cuda f

theorem inv_init (cuda : Bool) : Inv cuda init := by
  refine ⟨.init, by simp [init, PoolWorld.init], by simp [init], by simp [init], ?_, ?_, ?_, ?_⟩ <;>
    simp [init]

theorem held_nodup {w : PoolWorld} (h : PoolWorld.Reach w) : w.held.Nodup := by
  have hi := poolInv_reach h
  exact (List.nodup_append.1 (hi.perm.nodup_iff.2 hi.nodup)).2.1

theorem Inv.cnd {cuda : Bool} {w : FieldWorld} (hi : Inv cuda w) : (w.cpuOwn.map Prod.fst).Nodup :=
  hi.perm.nodup_iff.1 (held_nodup hi.reach)

theorem nodup_of_fst {l : List (Nat × Nat)} (h : (l.map Prod.fst).Nodup) : l.Nodup :=
  List.Nodup.of_map _ h

theorem mem_erase_iff {l : List (Nat × Nat)} (h : (l.map Prod.fst).Nodup) {p q : Nat × Nat} :
    p ∈ l.erase q ↔ p ≠ q ∧ p ∈ l := (nodup_of_fst h).mem_erase_iff

theorem map_fst_erase {l : List (Nat × Nat)} {q : Nat × Nat} (hq : q ∈ l) :
    ((l.erase q).map Prod.fst).Perm ((l.map Prod.fst).erase q.1) := by
  have h1 : (l.map Prod.fst).Perm (q.1 :: (l.erase q).map Prod.fst) := by
    have := (List.perm_cons_erase hq).map Prod.fst
    simpa using this
  have h2 := h1.erase q.1
  simpa using h2.symm

theorem fst_sub_nodup {l : List (Nat × Nat)} (h : (l.map Prod.fst).Nodup) (q : Nat × Nat) :
    ((l.erase q).map Prod.fst).Nodup :=
  List.Nodup.sublist (List.Sublist.map _ List.erase_sublist) h

/-- What the pool-level part of the state must satisfy, without the field list. -/
structure Base (w : FieldWorld) : Prop where
  reach : PoolWorld.Reach w.pool
  perm : w.pool.held.Perm (w.cpuOwn.map Prod.fst)
  gnd : (w.gpuOwn.map Prod.fst).Nodup
  rnd : (w.rawOwn.map Prod.fst).Nodup

theorem Base.cnd {w : FieldWorld} (hi : Base w) : (w.cpuOwn.map Prod.fst).Nodup :=
  hi.perm.nodup_iff.1 (held_nodup hi.reach)

theorem poolGet_spec {w : FieldWorld} (hb : Base w) {h n fresh : Nat}
    (hf : fresh ∉ w.pool.heap.map Prod.fst) :
    ∃ w' a, w.poolGet h n fresh = .ok (w', a) ∧ Base w' ∧ w'.fields = w.fields ∧
      w'.cpuOwn = (a, h) :: w.cpuOwn ∧ w'.gpuOwn = w.gpuOwn ∧ w'.rawOwn = w.rawOwn := by
  obtain ⟨r, p', e1, e2, e3, e4, e5, _⟩ :=
    poolInv_get (poolInv_reach hb.reach) (n := n) hf
  unfold poolGet
  rw [e1, Outcome.ok_bind, e2, Outcome.ok_bind]
  refine ⟨_, _, rfl, ⟨PoolWorld.Reach.step (e := .get n fresh) hb.reach hf e2, ?_, hb.gnd, hb.rnd⟩, rfl, rfl, rfl, rfl⟩
  simp only [List.map_cons]
  rw [e4]
  exact List.Perm.cons _ hb.perm

theorem poolPut_spec {w : FieldWorld} (hb : Base w) {h a : Nat} (hm : (a, h) ∈ w.cpuOwn) :
    ∃ w', w.poolPut h (some a) = .ok w' ∧ Base w' ∧ w'.fields = w.fields ∧
      w'.cpuOwn = w.cpuOwn.erase (a, h) ∧ w'.gpuOwn = w.gpuOwn ∧ w'.rawOwn = w.rawOwn := by
  have hheld : a ∈ w.pool.held := hb.perm.mem_iff.2 (List.mem_map.2 ⟨(a, h), hm, rfl⟩)
  obtain ⟨p', e1, e2, e3, e4⟩ := poolInv_put (poolInv_reach hb.reach) hheld
  unfold poolPut
  simp only [hm, if_true]
  rw [e1, Outcome.ok_bind]
  refine ⟨_, rfl, ⟨PoolWorld.Reach.step (e := .put a) hb.reach hheld e1, ?_, hb.gnd, hb.rnd⟩, rfl, rfl, rfl, rfl⟩
  simp only
  rw [e3]
  exact (hb.perm.erase a).trans (map_fst_erase hm).symm

theorem rawPut_spec {w : FieldWorld} (hb : Base w) {h a : Nat} (hm : (a, h) ∈ w.rawOwn) :
    ∃ w', w.rawPut h (some a) = .ok w' ∧ Base w' ∧ w'.fields = w.fields ∧
      w'.rawOwn = w.rawOwn.erase (a, h) ∧ w'.gpuOwn = w.gpuOwn ∧ w'.cpuOwn = w.cpuOwn := by
  unfold rawPut
  simp only [hm, if_true]
  exact ⟨_, rfl, ⟨hb.reach, hb.perm, hb.gnd, fst_sub_nodup hb.rnd _⟩, rfl, rfl, rfl, rfl⟩

theorem gpuPutAll_spec {h : Nat} (cs : List (Nat × Nat)) : ∀ {w : FieldWorld}, Base w →
    (cs.map Prod.snd).Nodup → (∀ c ∈ cs, (c.2, h) ∈ w.gpuOwn) →
    ∃ w', w.gpuPutAll h cs = .ok w' ∧ Base w' ∧ w'.fields = w.fields ∧ w'.cpuOwn = w.cpuOwn ∧
      w'.rawOwn = w.rawOwn ∧
      ∀ p, p ∈ w'.gpuOwn ↔ p ∈ w.gpuOwn ∧ ¬ (p.2 = h ∧ p.1 ∈ cs.map Prod.snd) := by
  induction cs with
  | nil => intro w hb _ _; exact ⟨w, rfl, hb, rfl, rfl, rfl, by simp⟩
  | cons c cs ih =>
    intro w hb hnd hm
    simp only [List.map_cons, List.nodup_cons] at hnd
    have hc := hm c (by simp)
    unfold gpuPutAll gpuPut
    rw [if_pos hc, Outcome.ok_bind]
    have hb1 : Base { w with gpuOwn := w.gpuOwn.erase (c.2, h) } :=
      ⟨hb.reach, hb.perm, fst_sub_nodup hb.gnd _, hb.rnd⟩
    obtain ⟨w', e, h1, h2, h3, h4, h5⟩ := ih hb1 hnd.2 (by
      intro d hd
      simp only
      rw [mem_erase_iff hb.gnd]
      refine ⟨?_, hm d (by simp [hd])⟩
      intro heq
      injection heq with heq
      exact hnd.1 (heq ▸ List.mem_map.2 ⟨d, hd, rfl⟩))
    refine ⟨w', e, h1, h2, h3, h4, fun p => ?_⟩
    rw [h5 p]
    simp only
    rw [mem_erase_iff hb.gnd]
    simp only [List.map_cons, List.mem_cons]
    constructor
    · rintro ⟨⟨h6, h7⟩, h8⟩
      refine ⟨h7, ?_⟩
      rintro ⟨h9, h10 | h10⟩
      · exact h6 (Prod.ext h10 h9)
      · exact h8 ⟨h9, h10⟩
    · rintro ⟨h6, h7⟩
      refine ⟨⟨?_, h6⟩, fun h8 => h7 ⟨h8.1, Or.inr h8.2⟩⟩
      intro heq
      exact h7 ⟨by rw [heq], Or.inl (by rw [heq])⟩

theorem Inv.base {cuda : Bool} {w : FieldWorld} (hi : Inv cuda w) : Base w :=
  ⟨hi.reach, hi.perm, hi.gnd, hi.rnd⟩

theorem getElem?_append_singleton {α : Type} {l : List α} {a b : α} {i : Nat} :
    (l ++ [a])[i]? = some b ↔ (l[i]? = some b) ∨ (i = l.length ∧ a = b) := by
  by_cases h : i < l.length
  · rw [List.getElem?_append_left h]
    constructor
    · exact Or.inl
    · rintro (h1 | h1)
      · exact h1
      · omega
  · rw [List.getElem?_append_right (by omega)]
    have hn : l[i]? = none := by rw [List.getElem?_eq_none_iff]; omega
    rw [hn]
    by_cases h2 : i = l.length
    · subst h2; simp
    · have : i - l.length ≠ 0 := by omega
      obtain ⟨j, hj⟩ := Nat.exists_eq_succ_of_ne_zero this
      rw [hj]; simp [h2]

theorem not_own_new {cuda : Bool} {w : FieldWorld} (hi : Inv cuda w) (a : Nat) :
    (a, w.fields.length) ∉ w.cpuOwn ∧ (a, w.fields.length) ∉ w.gpuOwn ∧ (a, w.fields.length) ∉ w.rawOwn := by
  have hn : w.fields[w.fields.length]? = none := by simp
  refine ⟨fun h => ?_, fun h => ?_, fun h => ?_⟩
  · obtain ⟨f, e, _⟩ := (hi.cown _ _).1 h; rw [hn] at e; cases e
  · obtain ⟨f, e, _⟩ := (hi.gown _ _).1 h; rw [hn] at e; cases e
  · obtain ⟨f, e, _⟩ := (hi.rown _ _).1 h; rw [hn] at e; cases e

/-- Appending a new field that owns exactly the new entries of the accounts. -/
theorem inv_append {cuda : Bool} {w w1 : FieldWorld} (hi : Inv cuda w) (hb : Base w1)
    (hfl : w1.fields = w.fields) {f : FieldObj} (hf : FOk cuda f)
    (hc : ∀ p, p ∈ w1.cpuOwn ↔ p ∈ w.cpuOwn ∨ (p.2 = w.fields.length ∧ p.1 ∈ ownedCpu f))
    (hg : ∀ p, p ∈ w1.gpuOwn ↔ p ∈ w.gpuOwn ∨ (p.2 = w.fields.length ∧ p.1 ∈ ownedGpu f))
    (hr : ∀ p, p ∈ w1.rawOwn ↔ p ∈ w.rawOwn ∨ (p.2 = w.fields.length ∧ p.1 ∈ ownedRaw f)) :
    Inv cuda { w1 with fields := w1.fields ++ [some f] } := by
  have key : ∀ (own : List (Nat × Nat)) (own1 : List (Nat × Nat)) (g : FieldObj → List Nat),
      (∀ p, p ∈ own1 ↔ p ∈ own ∨ (p.2 = w.fields.length ∧ p.1 ∈ g f)) →
      (∀ a h, (a, h) ∈ own ↔ ∃ f, w.fields[h]? = some (some f) ∧ a ∈ g f) →
      ∀ a h, (a, h) ∈ own1 ↔ ∃ f', (w1.fields ++ [some f])[h]? = some (some f') ∧ a ∈ g f' := by
    intro own own1 g h1 h2 a h
    rw [h1, h2, hfl]
    constructor
    · rintro (⟨f', e, ha⟩ | ⟨e, ha⟩)
      · exact ⟨f', getElem?_append_singleton.2 (Or.inl e), ha⟩
      · exact ⟨f, getElem?_append_singleton.2 (Or.inr ⟨e, rfl⟩), ha⟩
    · rintro ⟨f', e, ha⟩
      rcases getElem?_append_singleton.1 e with e | ⟨e1, e2⟩
      · exact Or.inl ⟨f', e, ha⟩
      · injection e2 with e2
        subst e2
        exact Or.inr ⟨e1, ha⟩
  refine ⟨hb.reach, hb.perm, hb.gnd, hb.rnd, key _ _ _ hc hi.cown, key _ _ _ hg hi.gown,
    key _ _ _ hr hi.rown, ?_⟩
  intro h f' e
  rcases getElem?_append_singleton.1 e with e | ⟨_, e2⟩
  · rw [hfl] at e; exact hi.fok h f' e
  · injection e2 with e2; subst e2; exact hf

/-- Replacing field `h` by `o`, the accounts changing only for `h`. -/
theorem inv_set {cuda : Bool} {w w1 : FieldWorld} (hi : Inv cuda w) (hb : Base w1)
    (hfl : w1.fields = w.fields) {h : Nat} {f : FieldObj} (hh : w.fields[h]? = some (some f))
    {o : Option FieldObj} (ho : ∀ f', o = some f' → FOk cuda f')
    (hc : ∀ p, p ∈ w1.cpuOwn ↔ (p.2 ≠ h ∧ p ∈ w.cpuOwn) ∨ (p.2 = h ∧ ∃ f', o = some f' ∧ p.1 ∈ ownedCpu f'))
    (hg : ∀ p, p ∈ w1.gpuOwn ↔ (p.2 ≠ h ∧ p ∈ w.gpuOwn) ∨ (p.2 = h ∧ ∃ f', o = some f' ∧ p.1 ∈ ownedGpu f'))
    (hr : ∀ p, p ∈ w1.rawOwn ↔ (p.2 ≠ h ∧ p ∈ w.rawOwn) ∨ (p.2 = h ∧ ∃ f', o = some f' ∧ p.1 ∈ ownedRaw f')) :
    Inv cuda { w1 with fields := w1.fields.set h o } := by
  have hlt : h < w.fields.length := (List.getElem?_eq_some_iff.1 hh).1
  have key : ∀ (own own1 : List (Nat × Nat)) (g : FieldObj → List Nat),
      (∀ p, p ∈ own1 ↔ (p.2 ≠ h ∧ p ∈ own) ∨ (p.2 = h ∧ ∃ f', o = some f' ∧ p.1 ∈ g f')) →
      (∀ a h, (a, h) ∈ own ↔ ∃ f, w.fields[h]? = some (some f) ∧ a ∈ g f) →
      ∀ a k, (a, k) ∈ own1 ↔ ∃ f', (w1.fields.set h o)[k]? = some (some f') ∧ a ∈ g f' := by
    intro own own1 g h1 h2 a k
    rw [h1, h2, hfl]
    by_cases hk : h = k
    · subst hk
      rw [List.getElem?_set_self hlt]
      simp
    · rw [List.getElem?_set_ne hk]
      have : k ≠ h := fun h => hk h.symm
      simp [this]
  refine ⟨hb.reach, hb.perm, hb.gnd, hb.rnd, key _ _ _ hc hi.cown, key _ _ _ hg hi.gown,
    key _ _ _ hr hi.rown, ?_⟩
  intro k f' e
  simp only [hfl] at e
  by_cases hk : h = k
  · subst hk
    rw [List.getElem?_set_self hlt] at e
    injection e with e
    exact ho f' e
  · rw [List.getElem?_set_ne hk] at e
    exact hi.fok k f' e

theorem ownedCpu_copy (f : FieldObj) (g : FieldGeo) :
    ownedCpu { copyOf f with geo := g } = [] ∧ ownedGpu { copyOf f with geo := g } = [] ∧
    ownedRaw { copyOf f with geo := g } = [] := by
  simp [ownedCpu, ownedGpu, ownedRaw, copyOf]

theorem fok_copy (cuda : Bool) (f : FieldObj) (g : FieldGeo) : FOk cuda { copyOf f with geo := g } :=
  ⟨by simp [copyOf], by simp [copyOf], by simp [copyOf], by simp [copyOf]⟩

theorem inv_append_copy {cuda : Bool} {w : FieldWorld} (hi : Inv cuda w) (f : FieldObj) (g : FieldGeo) :
    Inv cuda { w with fields := w.fields ++ [some { copyOf f with geo := g }] } := by
  obtain ⟨h1, h2, h3⟩ := ownedCpu_copy f g
  apply inv_append hi hi.base rfl (fok_copy cuda f g)
  · intro p; rw [h1]; simp
  · intro p; rw [h2]; simp
  · intro p; rw [h3]; simp

theorem field_eq {w : FieldWorld} {h : Nat} {f : FieldObj} (hh : w.fields[h]? = some (some f)) :
    w.field h = .ok f := by
  unfold field; rw [hh]

/-- Entries of field `h` and of other fields. -/
theorem own_split {own : List (Nat × Nat)} {w : FieldWorld} {g : FieldObj → List Nat}
    (hown : ∀ a h, (a, h) ∈ own ↔ ∃ f, w.fields[h]? = some (some f) ∧ a ∈ g f)
    {h : Nat} {f : FieldObj} (hh : w.fields[h]? = some (some f)) (p : Nat × Nat) :
    p ∈ own ↔ (p.2 ≠ h ∧ p ∈ own) ∨ (p.2 = h ∧ p.1 ∈ g f) := by
  by_cases hp : p.2 = h
  · have := hown p.1 p.2
    rw [hp, hh] at this
    have e : (p.1, h) = p := by rw [← hp]
    rw [e] at this
    simp only [hp, ne_eq, not_true_eq_false, false_and, true_and, false_or]
    rw [this]
    simp
  · simp [hp]

/-- Replacing a field by one with the same memory duties. -/
theorem inv_set_same {cuda : Bool} {w : FieldWorld} (hi : Inv cuda w) {h : Nat} {f f' : FieldObj}
    (hh : w.fields[h]? = some (some f)) (hf' : FOk cuda f') (hc : ownedCpu f' = ownedCpu f)
    (hg : ownedGpu f' = ownedGpu f) (hr : ownedRaw f' = ownedRaw f) :
    Inv cuda { w with fields := w.fields.set h (some f') } := by
  apply inv_set hi hi.base rfl hh (o := some f')
  · intro f'' e; injection e with e; subst e; exact hf'
  · intro p
    have := own_split hi.cown hh p
    rw [← hc] at this
    simpa using this
  · intro p
    have := own_split hi.gown hh p
    rw [← hg] at this
    simpa using this
  · intro p
    have := own_split hi.rown hh p
    rw [← hr] at this
    simpa using this

theorem ctor_window {single : Bool} {win : Window} {bc : BcInfo} {g : GhostData} {geo : FieldGeo}
    (h : FieldGeo.ctor single win bc g = .ok geo) : geo.window = win := by
  unfold FieldGeo.ctor at h
  simp only [Outcome.bind_eq_ok] at h
  obtain ⟨_, _, _, _, _, _, h⟩ := h
  injection h with h
  rw [← h]

/-- The result of a step: never `ub` or `throws` (exceptions are reported in the
flag), and a normal result keeps the invariant. -/
def Good (cuda : Bool) (r : Res) : Prop :=
  r = .abort ∨ ∃ w b, r = .ok (w, b) ∧ Inv cuda w

theorem create_good {cuda : Bool} {w : FieldWorld} (hi : Inv cuda w) (single : Bool) (win : Window)
    (bc : BcInfo) (g : GhostData) (user : Option Nat) (mt : MemType) (dev fresh : Nat)
    (hl : w.Legal (.create single win bc g user mt dev fresh)) :
    FieldGeo.ctor single win bc g ≠ .ub →
    Good cuda (w.create cuda single win bc g user mt dev fresh) := by
  intro hnub
  obtain ⟨hfit, hne, hfp, hfr⟩ := hl
  unfold create
  cases hgeo : FieldGeo.ctor single win bc g with
  | throws => exact Or.inr ⟨w, true, rfl, hi⟩
  | abort => exact Or.inl rfl
  | ub => exact absurd hgeo hnub
  | ok geo =>
    have hwin := ctor_window hgeo
    right
    cases mt with
    | other => exact ⟨w, true, rfl, hi⟩
    | localRam =>
      cases user with
      | none =>
        obtain ⟨w1, a, e1, hb, hfl, hc, hg, hr⟩ :=
          poolGet_spec hi.base (h := w.fields.length) (n := win.globNpts.toNat) hfp
        simp only
        rw [e1, Outcome.ok_bind]
        simp only [FieldObj.endM, hwin, ne_eq, not_true_eq_false]
        rw [Outcome.throwIf_false (by simp), Outcome.ok_bind, It.finish_eq_nth hne]
        refine ⟨_, _, rfl, ?_⟩
        refine inv_append hi hb hfl ⟨by simp, by simp, by simp, by simp⟩ ?_ ?_ ?_
        · intro p
          rw [hc]
          simp only [ownedCpu, Option.isNone_none, true_and, true_or, if_true, Option.toList_some,
            List.mem_cons, List.not_mem_nil, or_false]
          constructor
          · rintro (h | h)
            · exact Or.inr ⟨by rw [h], by rw [h]⟩
            · exact Or.inl h
          · rintro (h | h)
            · exact Or.inr h
            · exact Or.inl (Prod.ext h.2 h.1)
        · intro p; rw [hg]; simp [ownedGpu]
        · intro p; rw [hr]; simp [ownedRaw]
      | some u =>
        refine ⟨_, _, rfl, ?_⟩
        refine inv_append hi hi.base rfl ⟨by simp, by simp, by simp, by simp⟩ ?_ ?_ ?_
        · intro p; simp [ownedCpu]
        · intro p; simp [ownedGpu]
        · intro p; simp [ownedRaw]
    | gpu =>
      cases cuda with
      | false => cases user <;> exact ⟨w, true, rfl, hi⟩
      | true =>
        cases user with
        | none =>
          refine ⟨_, _, rfl, ?_⟩
          refine inv_append (w1 := { w with rawOwn := (fresh, w.fields.length) :: w.rawOwn })
            hi ⟨hi.reach, hi.perm, hi.gnd, ?_⟩ rfl ⟨by simp, by simp, by simp, by simp⟩ ?_ ?_ ?_
          · simp only [List.map_cons, List.nodup_cons]; exact ⟨hfr, hi.rnd⟩
          · intro p; simp [ownedCpu]
          · intro p; simp [ownedGpu]
          · intro p
            simp only [ownedRaw, Option.isNone_none, and_self, if_true, Option.toList_some,
              List.mem_cons, List.not_mem_nil, or_false]
            constructor
            · rintro (h | h)
              · exact Or.inr ⟨by rw [h], by rw [h]⟩
              · exact Or.inl h
            · rintro (h | h)
              · exact Or.inr h
              · exact Or.inl (Prod.ext h.2 h.1)
        | some u =>
          refine ⟨_, _, rfl, ?_⟩
          refine inv_append hi hi.base rfl ⟨by simp, by simp, by simp, by simp⟩ ?_ ?_ ?_
          · intro p; simp [ownedCpu]
          · intro p; simp [ownedGpu]
          · intro p; simp [ownedRaw]

theorem addConsumer_good {cuda : Bool} {w : FieldWorld} (hi : Inv cuda w) {h : Nat} {f : FieldObj}
    (hh : w.fields[h]? = some (some f)) (mt : MemType) (dev fresh : Nat)
    (hfp : fresh ∉ w.pool.heap.map Prod.fst) (hfg : fresh ∉ w.gpuOwn.map Prod.fst) :
    ∃ w' b, w.addConsumer cuda h f mt dev fresh = .ok (w', b) ∧ Inv cuda w' := by
  have hf := hi.fok h f hh
  have same : Inv cuda { w with fields := w.fields.set h (some { f with readOnly := true }) } :=
    inv_set_same hi hh ⟨hf.built, hf.cpu, hf.mine, hf.nodup⟩ rfl rfl rfl
  unfold addConsumer
  by_cases c : mt = f.memType ∧ dev = f.dev
  · rw [if_pos c]; exact ⟨w, false, rfl, hi⟩
  · rw [if_neg c]
    cases mt with
    | other => exact ⟨_, _, rfl, same⟩
    | localRam =>
      cases hcu : cuda with
      | false => subst hcu; exact ⟨_, _, rfl, same⟩
      | true =>
        subst hcu
        cases hmt : f.memType with
        | localRam => exact ⟨_, _, rfl, by simpa [hmt] using same⟩
        | other => exact ⟨_, _, rfl, by simpa [hmt] using same⟩
        | gpu =>
          simp only
          by_cases hv : f.values = none
          · rw [if_pos hv]
            obtain ⟨w1, a, e1, hb, hfl, hc, hg, hr⟩ :=
              poolGet_spec hi.base (h := h) (n := f.alloc.toNat) hfp
            rw [e1, Outcome.ok_bind]
            refine ⟨_, _, rfl, ?_⟩
            have hnb : f.builtCpu = false := by
              cases hbc : f.builtCpu with
              | false => rfl
              | true => exact absurd hv (hf.cpu hbc).2.2
            have hcpu : ownedCpu f = [] := by simp [ownedCpu, hv]
            refine inv_set hi hb hfl hh (o := some _) ?_ ?_ ?_ ?_
            · intro f' e
              injection e with e
              subst e
              refine ⟨?_, by simp, hf.mine, hf.nodup⟩
              intro hbt
              rcases hf.built hbt with h1 | h1
              · rw [hmt] at h1; exact absurd h1.1 (by decide)
              · exact Or.inr ⟨rfl, rfl, h1.2.2⟩
            · intro p
              rw [hc]
              have hs := own_split hi.cown hh p
              rw [hcpu] at hs
              simp only [List.not_mem_nil, and_false, or_false] at hs
              simp only [ownedCpu, or_true, if_true, Option.toList_some, List.mem_cons,
                Option.some.injEq, exists_eq_left', List.not_mem_nil, or_false]
              constructor
              · rintro (h1 | h1)
                · exact Or.inr ⟨by rw [h1], by rw [h1]⟩
                · exact Or.inl (hs.1 h1)
              · rintro (h1 | h1)
                · exact Or.inr h1.2
                · exact Or.inl (Prod.ext h1.2 h1.1)
            · intro p
              rw [hg]
              have hs := own_split hi.gown hh p
              simpa [ownedGpu] using hs
            · intro p
              rw [hr]
              have hs := own_split hi.rown hh p
              simpa [ownedRaw, hmt] using hs
          · rw [if_neg hv]; exact ⟨_, _, rfl, by simpa [hmt] using same⟩
    | gpu =>
      simp only
      cases hcu : cuda with
      | false => subst hcu; exact ⟨_, _, rfl, same⟩
      | true =>
        subst hcu
        rw [if_pos rfl]
        have body : ∃ w' b,
            (if (f.consumers.lookup dev).isNone = true then
              (.ok ({ w with
                fields := w.fields.set h (some { { f with readOnly := true } with
                  consumers := (dev, fresh) :: f.consumers, mine := (dev, fresh) :: f.mine })
                gpuOwn := (fresh, h) :: w.gpuOwn }, false) : Res)
            else .ok ({ w with fields := w.fields.set h (some { f with readOnly := true }) }, false)) =
              .ok (w', b) ∧ Inv true w' := by
          by_cases hlk : (f.consumers.lookup dev).isNone = true
          · rw [if_pos hlk]
            refine ⟨_, _, rfl, ?_⟩
            refine inv_set (w1 := { w with gpuOwn := (fresh, h) :: w.gpuOwn }) hi
              ⟨hi.reach, hi.perm, ?_, hi.rnd⟩ rfl hh (o := some _) ?_ ?_ ?_ ?_
            · simp only [List.map_cons, List.nodup_cons]; exact ⟨hfg, hi.gnd⟩
            · intro f' e
              injection e with e
              subst e
              refine ⟨hf.built, hf.cpu, by simp, ?_⟩
              simp only [List.map_cons, List.nodup_cons]
              refine ⟨?_, hf.nodup⟩
              intro hm
              exact hfg (List.mem_map.2 ⟨(fresh, h), (hi.gown fresh h).2 ⟨f, hh, hm⟩, rfl⟩)
            · intro p
              have hs := own_split hi.cown hh p
              simpa [ownedCpu] using hs
            · intro p
              have hs := own_split hi.gown hh p
              simp only [List.mem_cons, Option.some.injEq, exists_eq_left', ownedGpu, List.map_cons]
              simp only [ownedGpu] at hs
              rw [hs]
              constructor
              · rintro (h1 | h1 | h1)
                · exact Or.inr ⟨by rw [h1], Or.inl (by rw [h1])⟩
                · exact Or.inl ⟨h1.1, hs.1 h1.2⟩
                · exact Or.inr ⟨h1.1, Or.inr h1.2⟩
              · rintro (h1 | ⟨h1, h2 | h2⟩)
                · exact Or.inr (Or.inl ⟨h1.1, hs.2 h1.2⟩)
                · exact Or.inl (Prod.ext h2 h1)
                · exact Or.inr (Or.inr ⟨h1, h2⟩)
            · intro p
              have hs := own_split hi.rown hh p
              simpa [ownedRaw] using hs
          · rw [if_neg hlk]; exact ⟨_, _, rfl, same⟩
        cases hmt : f.memType with
        | other => exact ⟨_, _, rfl, by simpa [hmt] using same⟩
        | localRam => simpa [hmt] using body
        | gpu => simpa [hmt] using body

/-- Releasing the consumer memory of field `h`, as `remove_consumers` and the
destructor do. -/
theorem gpuPut_mine {cuda : Bool} {w : FieldWorld} (hi : Inv cuda w) {h : Nat} {f : FieldObj}
    (hh : w.fields[h]? = some (some f)) :
    ∃ w', w.gpuPutAll h f.mine = .ok w' ∧ Base w' ∧ w'.fields = w.fields ∧ w'.cpuOwn = w.cpuOwn ∧
      w'.rawOwn = w.rawOwn ∧ ∀ p, p ∈ w'.gpuOwn ↔ p.2 ≠ h ∧ p ∈ w.gpuOwn := by
  have hf := hi.fok h f hh
  obtain ⟨w', e, h1, h2, h3, h4, h5⟩ := gpuPutAll_spec (h := h) f.mine hi.base hf.nodup
    (fun c hc => (hi.gown c.2 h).2 ⟨f, hh, List.mem_map.2 ⟨c, hc, rfl⟩⟩)
  refine ⟨w', e, h1, h2, h3, h4, fun p => ?_⟩
  rw [h5]
  have hs := own_split hi.gown hh p
  simp only [ownedGpu] at hs
  constructor
  · rintro ⟨h6, h7⟩
    rcases hs.1 h6 with h8 | h8
    · exact h8
    · exact absurd h8 h7
  · rintro ⟨h6, h7⟩
    exact ⟨h7, fun h8 => h6 h8.1⟩

theorem mem_erase_own {cuda : Bool} {w : FieldWorld} (hi : Inv cuda w) {h a : Nat} {f : FieldObj}
    (hh : w.fields[h]? = some (some f)) (ho : ownedCpu f = [a]) (p : Nat × Nat) :
    p ∈ w.cpuOwn.erase (a, h) ↔ p.2 ≠ h ∧ p ∈ w.cpuOwn := by
  rw [mem_erase_iff hi.cnd]
  have hs := own_split hi.cown hh p
  rw [ho] at hs
  constructor
  · rintro ⟨h1, h2⟩
    rcases hs.1 h2 with h3 | h3
    · exact h3
    · exact absurd (Prod.ext (List.mem_singleton.1 h3.2) h3.1) h1
  · rintro ⟨h1, h2⟩
    exact ⟨fun h3 => h1 (by rw [h3]), h2⟩

theorem removeConsumers_good {cuda : Bool} {w : FieldWorld} (hi : Inv cuda w) {h : Nat} {f : FieldObj}
    (hh : w.fields[h]? = some (some f)) :
    ∃ w' b, w.removeConsumers cuda h f = .ok (w', b) ∧ Inv cuda w' := by
  have hf := hi.fok h f hh
  unfold removeConsumers
  by_cases c : cuda = true ∧ f.readOnly = true
  · rw [if_pos c]
    obtain ⟨w1, e1, hb, hfl, hc, hr, hg⟩ := gpuPut_mine hi hh
    rw [e1, Outcome.ok_bind]
    simp only
    by_cases c2 : f.memType = .gpu ∧ f.builtCpu = true
    · rw [if_pos c2]
      have hv := (hf.cpu c2.2).2.2
      cases hval : f.values with
      | none => exact absurd hval hv
      | some a =>
        have hoc : ownedCpu f = [a] := by simp [ownedCpu, c2.2, hval]
        have hm : (a, h) ∈ w1.cpuOwn := by
          rw [hc]; exact (hi.cown a h).2 ⟨f, hh, by rw [hoc]; simp⟩
        obtain ⟨w2, e2, hb2, hfl2, hc2, hg2, hr2⟩ := poolPut_spec hb hm
        rw [e2, Outcome.ok_bind]
        refine ⟨_, _, rfl, ?_⟩
        refine inv_set hi hb2 (hfl2.trans hfl) hh (o := some _) ?_ ?_ ?_ ?_
        · intro f' e
          injection e with e
          subst e
          refine ⟨?_, by simp, by simp, by simp⟩
          intro hbt
          rcases hf.built hbt with h1 | h1
          · rw [c2.1] at h1; exact absurd h1.1 (by decide)
          · exact Or.inr h1
        · intro p
          rw [hc2, hc, mem_erase_own hi hh hoc]
          simp [ownedCpu]
        · intro p
          rw [hg2, hg]
          simp [ownedGpu]
        · intro p
          rw [hr2, hr]
          have hs := own_split hi.rown hh p
          simpa [ownedRaw] using hs
    · rw [if_neg c2]
      have hnb : f.builtCpu = false := by
        cases hbc : f.builtCpu with
        | false => rfl
        | true => exact absurd ⟨(hf.cpu hbc).2.1, hbc⟩ c2
      refine ⟨_, _, rfl, ?_⟩
      refine inv_set hi hb hfl hh (o := some _) ?_ ?_ ?_ ?_
      · intro f' e
        injection e with e
        subst e
        exact ⟨hf.built, hf.cpu, by simp, by simp⟩
      · intro p
        rw [hc]
        have hs := own_split hi.cown hh p
        simpa [ownedCpu] using hs
      · intro p
        rw [hg]
        simp [ownedGpu]
      · intro p
        rw [hr]
        have hs := own_split hi.rown hh p
        simpa [ownedRaw] using hs
  · rw [if_neg c]; exact ⟨w, false, rfl, hi⟩

/-- The part of the destructor after the consumer memory is gone. -/
theorem destroy_good {cuda : Bool} {w : FieldWorld} (hi : Inv cuda w) {h : Nat} {f : FieldObj}
    (hh : w.fields[h]? = some (some f)) :
    ∃ w', w.destroy cuda h f = .ok (w', false) ∧ Inv cuda w' ∧ w'.fields = w.fields.set h none ∧
      (∀ p, p ∈ w'.cpuOwn ↔ p.2 ≠ h ∧ p ∈ w.cpuOwn) ∧
      (∀ p, p ∈ w'.gpuOwn ↔ p.2 ≠ h ∧ p ∈ w.gpuOwn) ∧
      (∀ p, p ∈ w'.rawOwn ↔ p.2 ≠ h ∧ p ∈ w.rawOwn) := by
  have hf := hi.fok h f hh
  -- first release: GPU consumer blocks
  have s1 : ∃ w1, (if cuda = true then w.gpuPutAll h f.mine else .ok w : Outcome FieldWorld) = .ok w1 ∧
      Base w1 ∧ w1.fields = w.fields ∧ w1.cpuOwn = w.cpuOwn ∧ w1.rawOwn = w.rawOwn ∧
      ∀ p, p ∈ w1.gpuOwn ↔ p.2 ≠ h ∧ p ∈ w.gpuOwn := by
    by_cases c : cuda = true
    · rw [if_pos c]; exact gpuPut_mine hi hh
    · rw [if_neg c]
      refine ⟨w, rfl, hi.base, rfl, rfl, rfl, fun p => ?_⟩
      have hs := own_split hi.gown hh p
      have hmn : f.mine = [] := by
        by_contra hne
        exact c (hf.mine hne)
      simp only [ownedGpu, hmn, List.map_nil, List.not_mem_nil, and_false, or_false] at hs
      exact hs
  obtain ⟨w1, e1, b1, fl1, c1, r1, g1⟩ := s1
  unfold destroy
  rw [e1, Outcome.ok_bind]
  -- final assembly
  have fin : ∀ w3 : FieldWorld, Base w3 → w3.fields = w.fields →
      (∀ p, p ∈ w3.cpuOwn ↔ p.2 ≠ h ∧ p ∈ w.cpuOwn) →
      (∀ p, p ∈ w3.gpuOwn ↔ p.2 ≠ h ∧ p ∈ w.gpuOwn) →
      (∀ p, p ∈ w3.rawOwn ↔ p.2 ≠ h ∧ p ∈ w.rawOwn) →
      ∃ w', (Outcome.ok ({ w3 with fields := w3.fields.set h none }, false) : Res) = .ok (w', false) ∧
        Inv cuda w' ∧ w'.fields = w.fields.set h none ∧
        (∀ p, p ∈ w'.cpuOwn ↔ p.2 ≠ h ∧ p ∈ w.cpuOwn) ∧
        (∀ p, p ∈ w'.gpuOwn ↔ p.2 ≠ h ∧ p ∈ w.gpuOwn) ∧
        (∀ p, p ∈ w'.rawOwn ↔ p.2 ≠ h ∧ p ∈ w.rawOwn) := by
    intro w3 hb hfl hc hg hr
    refine ⟨_, rfl, ?_, by simp [hfl], hc, hg, hr⟩
    refine inv_set hi hb hfl hh (o := none) (by intro f' e; cases e) ?_ ?_ ?_
    · intro p; rw [hc]; simp
    · intro p; rw [hg]; simp
    · intro p; rw [hr]; simp
  have noraw : ¬ (f.built = true ∧ f.memType = .gpu) → ∀ p, p ∈ w.rawOwn ↔ p.2 ≠ h ∧ p ∈ w.rawOwn := by
    intro hn p
    have hs := own_split hi.rown hh p
    simp only [ownedRaw, if_neg hn, List.not_mem_nil, and_false, or_false] at hs
    exact hs
  have nocpu : ownedCpu f = [] → ∀ p, p ∈ w.cpuOwn ↔ p.2 ≠ h ∧ p ∈ w.cpuOwn := by
    intro hn p
    have hs := own_split hi.cown hh p
    simp only [hn, List.not_mem_nil, and_false, or_false] at hs
    exact hs
  -- second and third releases
  by_cases cb : f.builtCpu = true
  · obtain ⟨hcu, hmt, hv⟩ := hf.cpu cb
    rw [if_pos ⟨hcu, cb⟩]
    cases hval : f.values with
    | none => exact absurd hval hv
    | some a =>
      have hoc : ownedCpu f = [a] := by simp [ownedCpu, cb, hval]
      have hm : (a, h) ∈ w1.cpuOwn := by
        rw [c1]; exact (hi.cown a h).2 ⟨f, hh, by rw [hoc]; simp⟩
      obtain ⟨w2, e2, b2, fl2, c2, g2, r2⟩ := poolPut_spec b1 hm
      rw [e2, Outcome.ok_bind]
      have hc2 : ∀ p, p ∈ w2.cpuOwn ↔ p.2 ≠ h ∧ p ∈ w.cpuOwn := by
        intro p; rw [c2, c1]; exact mem_erase_own hi hh hoc p
      by_cases hbt : f.built = true
      · rw [if_pos hbt]
        simp only [hmt]
        rw [if_pos hcu]
        have hext : f.ext ≠ none := by
          rcases hf.built hbt with h1 | h1
          · rw [hmt] at h1; exact absurd h1.1 (by decide)
          · exact h1.2.2
        cases hx : f.ext with
        | none => exact absurd hx hext
        | some x =>
          have hor : ownedRaw f = [x] := by simp [ownedRaw, hbt, hmt, hx]
          have hmr : (x, h) ∈ w2.rawOwn := by
            rw [r2, r1]; exact (hi.rown x h).2 ⟨f, hh, by rw [hor]; simp⟩
          obtain ⟨w3, e3, b3, fl3, r3, g3, c3⟩ := rawPut_spec b2 hmr
          rw [e3, Outcome.ok_bind]
          refine fin w3 b3 (fl3.trans (fl2.trans fl1)) (by rw [c3]; exact hc2)
            (by rw [g3, g2]; exact g1) ?_
          intro p
          rw [r3, mem_erase_iff b2.rnd, r2, r1]
          have hs := own_split hi.rown hh p
          rw [hor] at hs
          constructor
          · rintro ⟨h1, h2⟩
            rcases hs.1 h2 with h3 | h3
            · exact h3
            · exact absurd (Prod.ext (List.mem_singleton.1 h3.2) h3.1) h1
          · rintro ⟨h1, h2⟩
            exact ⟨fun h3 => h1 (by rw [h3]), h2⟩
      · rw [if_neg hbt, Outcome.ok_bind]
        refine fin w2 b2 (fl2.trans fl1) hc2 (by rw [g2]; exact g1) ?_
        intro p
        rw [r2, r1]
        exact noraw (fun h => hbt h.1) p
  · rw [if_neg (fun h => cb h.2), Outcome.ok_bind]
    by_cases hbt : f.built = true
    · rw [if_pos hbt]
      rcases hf.built hbt with ⟨hmt, hv⟩ | ⟨hcu, hmt, hext⟩
      · simp only [hmt]
        cases hval : f.values with
        | none => exact absurd hval hv
        | some a =>
          have hoc : ownedCpu f = [a] := by simp [ownedCpu, hbt, hmt, hval]
          have hm : (a, h) ∈ w1.cpuOwn := by
            rw [c1]; exact (hi.cown a h).2 ⟨f, hh, by rw [hoc]; simp⟩
          obtain ⟨w2, e2, b2, fl2, c2, g2, r2⟩ := poolPut_spec b1 hm
          rw [e2, Outcome.ok_bind]
          refine fin w2 b2 (fl2.trans fl1)
            (fun p => by rw [c2, c1]; exact mem_erase_own hi hh hoc p) (by rw [g2]; exact g1) ?_
          intro p
          rw [r2, r1]
          exact noraw (fun h => by rw [hmt] at h; exact absurd h.2 (by decide)) p
      · simp only [hmt]
        rw [if_pos hcu]
        cases hx : f.ext with
        | none => exact absurd hx hext
        | some x =>
          have hor : ownedRaw f = [x] := by simp [ownedRaw, hbt, hmt, hx]
          have hmr : (x, h) ∈ w1.rawOwn := by
            rw [r1]; exact (hi.rown x h).2 ⟨f, hh, by rw [hor]; simp⟩
          obtain ⟨w3, e3, b3, fl3, r3, g3, c3⟩ := rawPut_spec b1 hmr
          rw [e3, Outcome.ok_bind]
          have hoc : ownedCpu f = [] := by
            simp only [Bool.not_eq_true] at cb
            simp [ownedCpu, hmt, cb]
          refine fin w3 b3 (fl3.trans fl1) (by rw [c3, c1]; exact nocpu hoc)
            (by rw [g3]; exact g1) ?_
          intro p
          rw [r3, mem_erase_iff b1.rnd, r1]
          have hs := own_split hi.rown hh p
          rw [hor] at hs
          constructor
          · rintro ⟨h1, h2⟩
            rcases hs.1 h2 with h3 | h3
            · exact h3
            · exact absurd (Prod.ext (List.mem_singleton.1 h3.2) h3.1) h1
          · rintro ⟨h1, h2⟩
            exact ⟨fun h3 => h1 (by rw [h3]), h2⟩
    · rw [if_neg hbt, Outcome.ok_bind]
      have hoc : ownedCpu f = [] := by
        simp only [Bool.not_eq_true] at cb hbt
        simp [ownedCpu, cb, hbt]
      exact fin w1 b1 fl1 (by rw [c1]; exact nocpu hoc) g1
        (by rw [r1]; exact noraw (fun h => hbt h.1))

end SpatialOps.FieldWorld
