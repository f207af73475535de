import Verif.Field.Step
import Verif.Index.Props
import Verif.Geometry.Props

/-!
# Property theorems for SpatialField: C16 - C20
-/

namespace SpatialOps

open FieldWorld

/-! ## C16: memory is returned exactly once, by the field that obtained it -/

/-- C16. In every history of constructing, copying, viewing, adding and removing
consumers and destroying fields, in any order and in both builds: memory is never
given back twice or by a field that did not obtain it (`ub` in the model), and at
every point each block handed out has exactly one owner, which still exists; the
pool's own account agrees. -/
theorem C16_histories (cuda : Bool) (os : List Op) (hl : LegalRun cuda init os) :
    init.run cuda os = .abort ∨ ∃ w, init.run cuda os = .ok w ∧ w.Accounted := by
  rcases run_good os (inv_init cuda) hl with h | ⟨w, h, hi⟩
  · exact Or.inl h
  · exact Or.inr ⟨w, h, hi.accounted⟩

/-- C16. The memory of a live field with internal storage has not been given
back: the pool still counts it as handed out, to that field. -/
theorem C16_live_owner_keeps_memory (cuda : Bool) (os : List Op) (hl : LegalRun cuda init os)
    (w : FieldWorld) (hw : init.run cuda os = .ok w) (h : Nat) (f : FieldObj)
    (hf : w.fields[h]? = some (some f)) (hb : f.built = true) :
    (f.memType = .localRam → ∃ a, f.values = some a ∧ (a, h) ∈ w.cpuOwn ∧ a ∈ w.pool.held) ∧
    (f.memType = .gpu → ∃ a, f.ext = some a ∧ (a, h) ∈ w.rawOwn) ∧ f.memType ≠ .other := by
  rcases run_good os (inv_init cuda) hl with e | ⟨w', e, hi⟩
  · rw [e] at hw; cases hw
  rw [e] at hw; injection hw with hw; subst hw
  have hfo := (hi.fok h f hf).built hb
  refine ⟨fun hm => ?_, fun hm => ?_, fun hm => ?_⟩
  · rcases hfo with ⟨_, hv⟩ | ⟨_, h2, _⟩
    · cases hx : f.values with
      | none => exact absurd hx hv
      | some a =>
        have hin : (a, h) ∈ w'.cpuOwn := (hi.cown a h).2 ⟨f, hf, by simp [ownedCpu, hb, hm, hx]⟩
        exact ⟨a, rfl, hin, hi.perm.mem_iff.2 (List.mem_map.2 ⟨_, hin, rfl⟩)⟩
    · rw [hm] at h2; cases h2
  · rcases hfo with ⟨h1, _⟩ | ⟨_, _, hv⟩
    · rw [hm] at h1; cases h1
    · cases hx : f.ext with
      | none => exact absurd hx hv
      | some a => exact ⟨a, rfl, (hi.rown a h).2 ⟨f, hf, by simp [ownedRaw, hb, hm, hx]⟩⟩
  · rcases hfo with ⟨h1, _⟩ | ⟨_, h1, _⟩ <;> rw [hm] at h1 <;> cases h1

/-- C16. Destroying a field always succeeds and gives back exactly the blocks
that field obtained; everything owned by other fields stays. -/
theorem C16_destroy (cuda : Bool) (os : List Op) (hl : LegalRun cuda init os)
    (w : FieldWorld) (hw : init.run cuda os = .ok w) (h : Nat) (hh : w.Alive h) :
    ∃ w', w.step cuda (.destroy h) = .ok (w', false) ∧ ¬ w'.Alive h ∧
      (∀ h', h' ≠ h → w'.fields[h']? = w.fields[h']?) ∧
      ∀ p, (p ∈ w'.cpuOwn ↔ p.2 ≠ h ∧ p ∈ w.cpuOwn) ∧ (p ∈ w'.gpuOwn ↔ p.2 ≠ h ∧ p ∈ w.gpuOwn) ∧
        (p ∈ w'.rawOwn ↔ p.2 ≠ h ∧ p ∈ w.rawOwn) := by
  rcases run_good os (inv_init cuda) hl with e | ⟨w0, e, hi⟩
  · rw [e] at hw; cases hw
  rw [e] at hw; injection hw with hw; subst hw
  obtain ⟨f, hf⟩ := hh
  obtain ⟨w', e1, hi', hfl, hc, hg, hr⟩ := destroy_good hi hf
  refine ⟨w', ?_, ?_, ?_, fun p => ⟨hc p, hg p, hr p⟩⟩
  · unfold step; dsimp only; rw [field_eq hf, Outcome.ok_bind]; exact e1
  · rintro ⟨f', hf'⟩
    have hlt := (List.getElem?_eq_some_iff.1 hf).1
    rw [hfl, List.getElem?_set_self hlt] at hf'
    cases hf'
  · intro h' hne
    rw [hfl, List.getElem?_set_ne (Ne.symm hne)]

/-- A field that obtained nothing gives nothing back. -/
theorem destroy_new_copy (cuda : Bool) (w : FieldWorld) (f : FieldObj) (g : FieldGeo) :
    FieldWorld.step cuda { w with fields := w.fields ++ [some { copyOf f with geo := g }] } (.destroy w.fields.length) =
      .ok ({ w with fields := w.fields ++ [none] }, false) := by
  unfold step field
  dsimp only
  rw [List.getElem?_append_right (Nat.le_refl _)]
  simp only [Nat.sub_self, List.getElem?_cons_zero, Outcome.ok_bind]
  unfold destroy copyOf
  cases cuda <;> simp [gpuPutAll, Outcome.ok_bind, Outcome.pure_eq]

/-- C16. Shallow copies and windowed views obtain no memory, and destroying one
succeeds and gives none back. -/
theorem C16_copies_own_nothing (cuda : Bool) (w w' : FieldWorld) (o : Op) (b : Bool)
    (ho : (∃ h, o = .copy h) ∨ ∃ s win h, o = .view s win h) (hs : w.step cuda o = .ok (w', b)) :
    (w'.cpuOwn = w.cpuOwn ∧ w'.gpuOwn = w.gpuOwn ∧ w'.rawOwn = w.rawOwn ∧ w'.pool = w.pool) ∧
    (b = false → ∃ w'', w'.step cuda (.destroy w.fields.length) = .ok (w'', false) ∧
      w''.cpuOwn = w.cpuOwn ∧ w''.gpuOwn = w.gpuOwn ∧ w''.rawOwn = w.rawOwn ∧ w''.pool = w.pool) := by
  rcases ho with ⟨h, rfl⟩ | ⟨s, win, h, rfl⟩
  · unfold step at hs
    simp only [Outcome.bind_eq_ok] at hs
    obtain ⟨f, _, _, _, hs⟩ := hs
    injection hs with hs
    injection hs with hs _
    subst hs
    exact ⟨⟨rfl, rfl, rfl, rfl⟩, fun _ => ⟨_, destroy_new_copy cuda w f f.geo, rfl, rfl, rfl, rfl⟩⟩
  · unfold step at hs
    simp only [Outcome.bind_eq_ok] at hs
    obtain ⟨f, _, hs⟩ := hs
    cases e : FieldGeo.windowCopy s win f.geo with
    | ok g =>
      rw [e] at hs
      injection hs with hs; injection hs with hs _; subst hs
      exact ⟨⟨rfl, rfl, rfl, rfl⟩, fun _ => ⟨_, destroy_new_copy cuda w f g, rfl, rfl, rfl, rfl⟩⟩
    | throws =>
      rw [e] at hs
      injection hs with hs; injection hs with hs hb; subst hs
      exact ⟨⟨rfl, rfl, rfl, rfl⟩, fun h => by rw [h] at hb; cases hb⟩
    | abort => rw [e] at hs; cases hs
    | ub => rw [e] at hs; cases hs

/-- C16. When no field is left, all memory has been given back. -/
theorem C16_no_leak (cuda : Bool) (os : List Op) (hl : LegalRun cuda init os)
    (w : FieldWorld) (hw : init.run cuda os = .ok w) (hnone : ∀ h, ¬ w.Alive h) :
    w.pool.held = [] ∧ w.cpuOwn = [] ∧ w.gpuOwn = [] ∧ w.rawOwn = [] := by
  rcases C16_histories cuda os hl with e | ⟨w', e, ha⟩
  · rw [e] at hw; cases hw
  rw [e] at hw; injection hw with hw; subst hw
  have hc : w'.cpuOwn = [] := List.eq_nil_iff_forall_not_mem.2
    (fun p hp => hnone p.2 (ha.owner_alive p.1 p.2 (Or.inl hp)))
  refine ⟨?_, hc, ?_, ?_⟩
  · have := ha.pool_agrees; rw [hc] at this; exact List.Perm.eq_nil this
  · exact List.eq_nil_iff_forall_not_mem.2
      (fun p hp => hnone p.2 (ha.owner_alive p.1 p.2 (Or.inr (Or.inl hp))))
  · exact List.eq_nil_iff_forall_not_mem.2
      (fun p hp => hnone p.2 (ha.owner_alive p.1 p.2 (Or.inr (Or.inr hp))))

/-- A window and ghosts for the examples. -/
def exWin : Window := ⟨⟨4, 3, 2⟩, 0, ⟨4, 3, 2⟩⟩
def exGhost : GhostData := ⟨⟨1, 0, 0⟩, ⟨1, 0, 0⟩, false⟩
def exBc : BcInfo := BcInfo.build false false false 0

/-- A history with a copy outliving its original, a view and GPU consumers. -/
def exHistory : List Op :=
  [.create false exWin exBc exGhost none .localRam 0 100, .copy 0, .addConsumer 0 .gpu 1 200,
   .view false ⟨⟨4, 3, 2⟩, ⟨1, 0, 0⟩, ⟨2, 3, 2⟩⟩ 1, .destroy 0, .destroy 2,
   .create false exWin exBc exGhost none .localRam 0 101, .destroy 3, .destroy 1]

def legalB (w : FieldWorld) : Op → Bool
  | .create _ win _ _ _ _ _ fresh =>
    decide (win.Fits ∧ win.Nonempty ∧ fresh ∉ w.pool.heap.map Prod.fst ∧ fresh ∉ w.rawOwn.map Prod.fst)
  | .copy h => (w.fields[h]?.join).isSome
  | .view _ _ h => (w.fields[h]?.join).isSome
  | .addConsumer h _ _ fresh => (w.fields[h]?.join).isSome &&
    decide (fresh ∉ w.pool.heap.map Prod.fst ∧ fresh ∉ w.gpuOwn.map Prod.fst)
  | .removeConsumers h => (w.fields[h]?.join).isSome
  | .destroy h => (w.fields[h]?.join).isSome

theorem alive_of_join {w : FieldWorld} {h : Nat} (hj : (w.fields[h]?.join).isSome = true) : w.Alive h := by
  unfold Alive
  cases e : w.fields[h]? with
  | none => rw [e] at hj; cases hj
  | some o => cases o with
    | none => rw [e] at hj; cases hj
    | some f => exact ⟨f, rfl⟩

theorem legal_of_legalB {w : FieldWorld} {o : Op} (h : legalB w o = true) : w.Legal o := by
  cases o with
  | create => unfold legalB at h; have h' := of_decide_eq_true h; exact h'
  | copy => exact alive_of_join h
  | view => exact alive_of_join h
  | addConsumer =>
    unfold legalB at h
    rw [Bool.and_eq_true] at h
    exact ⟨alive_of_join h.1, of_decide_eq_true h.2⟩
  | removeConsumers => exact alive_of_join h
  | destroy => exact alive_of_join h

def legalRunB (cuda : Bool) (w : FieldWorld) : List Op → Bool
  | [] => true
  | o :: os => legalB w o &&
    match w.step cuda o with
    | .ok r => legalRunB cuda r.1 os
    | _ => true

theorem legalRun_of_B {cuda : Bool} (os : List Op) : ∀ {w : FieldWorld}, legalRunB cuda w os = true →
    w.LegalRun cuda os := by
  induction os with
  | nil => intro w _; trivial
  | cons o os ih =>
    intro w h
    unfold legalRunB at h
    rw [Bool.and_eq_true] at h
    refine ⟨legal_of_legalB h.1, ?_⟩
    cases e : w.step cuda o with
    | ok r => have := h.2; rw [e] at this; exact ih this
    | abort => trivial
    | throws => trivial
    | ub => trivial

/-- The example history is legal, runs to the end, and frees everything. -/
example : LegalRun true init exHistory ∧
    ∃ w, init.run true exHistory = .ok w ∧ w.fields = [none, none, none, none] ∧ w.pool.held = [] := by
  refine ⟨legalRun_of_B _ (by decide +kernel), ?_⟩
  have : (match init.run true exHistory with
    | .ok w => decide (w.fields = [none, none, none, none] ∧ w.pool.held = [])
    | _ => false) = true := by decide +kernel
  cases e : init.run true exHistory with
  | ok w => rw [e] at this; exact ⟨w, rfl, of_decide_eq_true this⟩
  | abort => rw [e] at this; cases this
  | throws => rw [e] at this; cases this
  | ub => rw [e] at this; cases this

/-! ## C17: scratch fields -/

/-- C17. Let a prototype be built in the ordinary way for `n` interior cells,
ghosts `g` and boundary flags, with the extra cells `eP` of its type. A scratch
field of a type with extra cells `eF` is accepted and its geometry is exactly
that of a field of that type built in the ordinary way for the same interior,
ghosts and flags; the memory requested is exactly the size of its window. Assumed:
no boundary flag in a direction without cells to spare (`n ≤ 1`), unless the two
types agree there. Missing from the full property: such directions and prototypes
whose ghosts were reset, where it is false (`C17_inactive_direction_differs`,
`C17_reset_prototype_loses_interior`). -/
theorem C17_scratch_geometry_partial (n : IntVec) (g : GhostData) (bx bY bz : Bool) (eP eF : IntVec)
    (hg : g.Valid) (hP : IntVec.Le 0 eP) (hF : IntVec.Le 0 eF)
    (hx : n.x ≤ 1 → bx = false ∨ eF.x = eP.x) (hy : n.y ≤ 1 → bY = false ∨ eF.y = eP.y)
    (hz : n.z ≤ 1 → bz = false ∨ eF.z = eP.z)
    (wP : Window) (fP : FieldGeo) (h1 : getWindowWithGhost n g (BcInfo.build bx bY bz eP) = .ok wP)
    (h2 : FieldGeo.ctor false wP (BcInfo.build bx bY bz eP) g = .ok fP) :
    ∃ w f, getWindowWithGhost n g (BcInfo.build bx bY bz eF) = .ok w ∧
      FieldGeo.ctor false w (BcInfo.build bx bY bz eF) g = .ok f ∧
      storeGet false fP eF eP = .ok (f, w.npts.x * w.npts.y * w.npts.z) := by
  obtain ⟨w, f, e1, e2, e3, e4, e5, hfit, _, _, _, _, _, _, _, _⟩ := C09_field_layout n g bx bY bz eF hg hF
  obtain ⟨wP', fP', p1, p2, p3, p4, p5, hPfit, _, _, _, _, p6, _⟩ := C09_field_layout n g bx bY bz eP hg hP
  rw [h1] at p1; injection p1 with p1; subst p1
  rw [h2] at p2; injection p2 with p2; subst p2
  have hbc : fP.bc = BcInfo.build bx bY bz eP := by
    unfold FieldGeo.ctor at h2
    simp only [Outcome.bind_eq_ok] at h2
    obtain ⟨_, _, _, _, _, _, h2⟩ := h2
    injection h2 with h2
    rw [← h2]
  have hbv : BcInfo.buildVec (BcInfo.build bx bY bz eP).isbc eF = BcInfo.build bx bY bz eF := by
    cases bx <;> cases bY <;> cases bz <;> rfl
  have hn : ∀ (w : Window) (e : IntVec), getWindowWithGhost n g (BcInfo.build bx bY bz e) = .ok w →
      w = ⟨⟨getDimWithGhost n.x g.minus.x g.plus.x (BcInfo.build bx bY bz e).hasExtra.x,
        getDimWithGhost n.y g.minus.y g.plus.y (BcInfo.build bx bY bz e).hasExtra.y,
        getDimWithGhost n.z g.minus.z g.plus.z (BcInfo.build bx bY bz e).hasExtra.z⟩, 0,
        ⟨getDimWithGhost n.x g.minus.x g.plus.x (BcInfo.build bx bY bz e).hasExtra.x,
        getDimWithGhost n.y g.minus.y g.plus.y (BcInfo.build bx bY bz e).hasExtra.y,
        getDimWithGhost n.z g.minus.z g.plus.z (BcInfo.build bx bY bz e).hasExtra.z⟩⟩ := by
    intro w e h
    unfold getWindowWithGhost Window.makeFull Window.make at h
    simp only [Outcome.bind_eq_ok] at h
    obtain ⟨_, _, h⟩ := h
    injection h with h
    exact h.symm
  have dim : ∀ (n m p : Int) (b : Bool) (eP eF : Int), (n ≤ 1 → b = false ∨ eF = eP) →
      getDimWithGhost n m p (if BcInfo.b2i b ≠ 0 then BcInfo.b2i b * eP else 0) +
        BcInfo.b2i b * (eF - eP) =
      getDimWithGhost n m p (if BcInfo.b2i b ≠ 0 then BcInfo.b2i b * eF else 0) := by
    intro n m p b eP eF h
    unfold getDimWithGhost BcInfo.b2i
    by_cases hn : 1 < n
    · rw [if_pos hn, if_pos hn]; cases b <;> simp
    · rw [if_neg hn, if_neg hn]
      rcases h (by omega) with h | h
      · subst h; simp
      · subst h; cases b <;> simp
  have hw := hn w eF e1
  have hwP := hn wP eP h1
  have hinc : wP.npts + (BcInfo.build bx bY bz eF).isbc * (eF - eP) = w.npts := by
    rw [hw, hwP]
    ext
    · exact dim _ _ _ _ _ _ hx
    · exact dim _ _ _ _ _ _ hy
    · exact dim _ _ _ _ _ _ hz
  refine ⟨w, f, e1, e2, ?_⟩
  have hmake : Window.make w.npts 0 w.npts = .ok w := by
    have := C02_fits_accepted w hfit
    rw [e4, e5] at this
    exact this
  have hsan : w.sanityCheck := by
    unfold Window.sanityCheck
    rw [e4, e5]
    iv_omega
  unfold storeGet
  rw [p6, GhostData.copy_ok hg, Outcome.ok_bind, hbc, hbv, p3]
  dsimp only
  rw [hinc, p4, p5, hinc, hmake, Outcome.ok_bind]
  unfold storeFromWindow
  rw [e5, hmake, Outcome.ok_bind, Outcome.assert_true hsan, Outcome.ok_bind, e2, Outcome.ok_bind]
  rfl

/-- C17. The memory of the scratch field comes from the pool: it is large enough
and no other user has it. -/
theorem C17_scratch_memory (p : PoolWorld) (hp : PoolWorld.Reach p) (f : FieldGeo) (N : Int)
    (single : Bool) (fP : FieldGeo) (eF eP : IntVec) (hs : storeGet single fP eF eP = .ok (f, N))
    (fresh : Nat) (hfr : fresh ∉ p.heap.map Prod.fst) :
    N = f.window.npts.x * f.window.npts.y * f.window.npts.z ∧ 0 < N ∧ f.window.offset = 0 ∧
    f.window.extent = f.window.npts ∧
    ∃ p' a k, p.step (.get N.toNat fresh) = .ok p' ∧ a ∉ p.held ∧ p'.held = a :: p.held ∧
      (a, k) ∈ p'.heap ∧ N ≤ k := by
  unfold storeGet at hs
  simp only [Outcome.bind_eq_ok] at hs
  obtain ⟨_, _, w, _, hs⟩ := hs
  unfold storeFromWindow at hs
  simp only [Outcome.bind_eq_ok] at hs
  obtain ⟨mw, hm, _, _, geo, hc, hs⟩ := hs
  injection hs with hs
  injection hs with h1 h2
  subst h1 h2
  have hwin := ctor_window hc
  unfold Window.make at hm
  simp only [Outcome.bind_eq_ok] at hm
  obtain ⟨_, hsan, hm⟩ := hm
  injection hm with hm
  have hsan' : Window.sanityCheck ⟨w.extent, 0, w.extent⟩ := by
    apply Classical.byContradiction
    intro h; rw [Outcome.assert_false h] at hsan; cases hsan
  rw [hwin]
  subst hm
  obtain ⟨⟨q1, q2, q3⟩, _⟩ := hsan'
  have hpos : 0 < Window.globNpts ⟨w.extent, 0, w.extent⟩ := by
    unfold Window.globNpts; dsimp only at *; positivity
  obtain ⟨p', a, k, e1, e2, e3, e4, e5, _⟩ := C13_get_fresh_and_large p hp
    (Window.globNpts ⟨w.extent, 0, w.extent⟩).toNat fresh hfr
  exact ⟨rfl, hpos, rfl, rfl, p', a, k, e1, e3, e2, e4, by omega⟩

/-- Non-vacuity of C17: an x-face scratch field from a volume prototype. -/
example : ∃ w f, getWindowWithGhost ⟨10, 4, 1⟩ exGhost (BcInfo.build true false false 0) = .ok w ∧
    FieldGeo.ctor false w (BcInfo.build true false false 0) exGhost = .ok f ∧
    w.npts = ⟨12, 4, 1⟩ ∧
    ∃ r, storeGet false f ⟨1, 0, 0⟩ 0 = .ok r ∧ r.1.interior = ⟨⟨13, 4, 1⟩, ⟨1, 0, 0⟩, ⟨11, 4, 1⟩⟩ :=
  ⟨_, _, rfl, rfl, rfl, _, rfl, rfl⟩

/-- Deviation 1. With a boundary flag in a direction of a single cell the scratch
field has two cells there, an ordinary field of the same type has one. -/
theorem C17_inactive_direction_differs :
    ∃ (n : IntVec) (g : GhostData) (eF : IntVec) (wP wF : Window) (fP : FieldGeo) (r : FieldGeo × Int),
      getWindowWithGhost n g (BcInfo.build false true false 0) = .ok wP ∧
      FieldGeo.ctor false wP (BcInfo.build false true false 0) g = .ok fP ∧
      getWindowWithGhost n g (BcInfo.build false true false eF) = .ok wF ∧
      storeGet false fP eF 0 = .ok r ∧ wF.npts.y = 1 ∧ r.1.window.npts.y = 2 :=
  ⟨⟨10, 1, 1⟩, ⟨0, 0, false⟩, ⟨0, 1, 0⟩, _, _, _, _, rfl, rfl, rfl, rfl, rfl, rfl⟩

/-- Deviation 2. If the valid ghosts of the prototype were reset before, the
window is shrunk but the full ghosts are subtracted again: the interior of the
scratch field is smaller than that of its prototype (same type here). -/
theorem C17_reset_prototype_loses_interior :
    ∃ (w : Window) (f f' : FieldGeo) (g : GhostData) (r : FieldGeo × Int),
      getWindowWithGhost ⟨10, 1, 1⟩ exGhost exBc = .ok w ∧ FieldGeo.ctor false w exBc exGhost = .ok f ∧
      f.resetValidGhosts g = .ok f' ∧ storeGet false f' 0 0 = .ok r ∧
      f'.interior.extent.x = 10 ∧ r.1.interior.extent.x = 8 :=
  ⟨_, _, _, ⟨0, 0, false⟩, _, rfl, rfl, rfl, rfl, rfl, rfl⟩

/-! ## C18: read-only fields -/

/-- C18. On a read-only field every call for mutable access throws, except
`end()` (see `C18_end_gives_mutable_access`), which is why this is partial. -/
theorem C18_mutable_access_refused_partial (cuda : Bool) (f : FieldObj) (c : MutCall)
    (hr : f.readOnly = true) (hc : c ≠ .end_) : c.attempt cuda f = .throws := by
  have t : Outcome.throwIf (f.readOnly = true) = .throws := Outcome.throwIf_true hr
  have u : Outcome.throwIf (f.memType ≠ .localRam ∧ f.readOnly = false) = .ok () :=
    Outcome.throwIf_false (by simp [hr])
  cases c with
  | end_ => exact absurd rfl hc
  | begin => unfold MutCall.attempt FieldObj.beginM; rw [u, Outcome.ok_bind, t]; rfl
  | interiorBegin =>
    unfold MutCall.attempt FieldObj.interiorBeginM
    dsimp only
    rw [u, t]
    unfold Outcome.throwIf
    split <;> rfl
  | interiorEnd =>
    unfold MutCall.attempt FieldObj.interiorEndM
    dsimp only
    rw [t]
    unfold Outcome.throwIf
    split <;> rfl
  | fieldValues => unfold MutCall.attempt FieldObj.fieldValuesM; dsimp only; rw [t]; rfl
  | call => unfold MutCall.attempt FieldObj.callM; dsimp only; rw [t]; rfl
  | subscript => unfold MutCall.attempt FieldObj.subscriptM; dsimp only; rw [t]; rfl

/-- C18. Assignment to a read-only field throws. -/
theorem C18_assignment_refused {V : Type} (f other : FieldObj) (m : Mem V) (hr : f.readOnly = true) :
    assignField f other m = .throws := by
  unfold assignField; rw [Outcome.throwIf_true hr]; rfl

/-- Violation. On every read-only field in CPU memory with a non-empty window the
non-const `end()` succeeds, and stepping back from it gives a writable reference
to the last cell. -/
theorem C18_end_gives_mutable_access (f : FieldObj) (b : Nat) (_hr : f.readOnly = true)
    (hm : f.memType = .localRam) (hv : f.values = some b) (hw : f.geo.window.Fits)
    (he : f.geo.window.Nonempty) :
    ∃ e a loc, f.endM = .ok e ∧ e.base = some b ∧ e.it.dec.deref = .ok a ∧
      IsNthCell f.geo.window.extent (f.geo.window.localNpts - 1) loc ∧ f.geo.window.flatIndex loc = .ok a := by
  have hN : 0 < f.geo.window.localNpts := by
    obtain ⟨e0, e1, e2⟩ := he
    simp only [IntVec.zero_x, IntVec.zero_y, IntVec.zero_z] at e0 e1 e2
    unfold Window.localNpts; positivity
  have h1 := C05_history_independent f.geo.window he 0
    [.add f.geo.window.localNpts, .dec] (by simp [It.StaysIn, It.Op.delta]; omega)
  obtain ⟨_, it, h2, h3⟩ := h1
  have hd : It.endPos 0 [.add f.geo.window.localNpts, .dec] = f.geo.window.localNpts - 1 := by
    simp [It.endPos, It.Op.delta]; omega
  rw [hd, It.run_inc_eq_nth] at h3
  injection h3 with h3
  obtain ⟨loc, a, g1, g2, g3, g4⟩ := It.nth_spec hw he 0 (k := (f.geo.window.localNpts - 1).toNat) (by omega)
  have hfin : It.finish 0 f.geo.window = (It.start 0 f.geo.window).addAssign f.geo.window.localNpts := rfl
  simp only [It.run, It.step, Outcome.bind_eq_ok] at h2
  obtain ⟨e, q1, j, q2, q3⟩ := h2
  injection q2 with q2
  injection q3 with q3
  refine ⟨⟨f.values, e⟩, a, loc, ?_, hv, ?_, ?_, g3⟩
  · unfold FieldObj.endM
    rw [Outcome.throwIf_false (by simp [hm]), Outcome.ok_bind, hfin, q1]; rfl
  · dsimp only; rw [q2, q3, ← h3, g4, zero_add]
  · rw [show (((f.geo.window.localNpts - 1).toNat : Nat) : Int) = f.geo.window.localNpts - 1 by omega] at g1
    exact g1

/-- C18. Const access works on every field with CPU memory, read-only or not:
iteration over the window and over the interior (unless disabled), the raw
pointer and reads by position. -/
theorem C18_const_access (cuda : Bool) (f : FieldObj) (b : Nat) (hv : f.values = some b)
    (he : f.geo.window.Nonempty) (hi : f.geo.interior.Nonempty) :
    f.beginC = .ok ⟨some b, It.start 0 f.geo.window⟩ ∧ (∃ e, f.endC = .ok ⟨some b, e⟩) ∧
    (f.geo.disableInterior = false →
      f.interiorBeginC = .ok ⟨some b, It.start 0 f.geo.interior⟩ ∧ ∃ e, f.interiorEndC = .ok ⟨some b, e⟩) ∧
    f.fieldValuesC cuda .localRam 0 = .ok (some b) ∧
    (f.memType = .localRam ∨ f.readOnly = true → ∀ i, f.subscriptC i = .ok (b, i)) := by
  obtain ⟨e1, h1, _⟩ := C04_reaches_end f.geo.window he 0
  obtain ⟨e2, h2, _⟩ := C04_reaches_end f.geo.interior hi 0
  refine ⟨?_, ⟨e1, ?_⟩, fun hd => ⟨?_, e2, ?_⟩, ?_, fun hm i => ?_⟩
  · unfold FieldObj.beginC; rw [Outcome.throwIf_false (by simp [hv]), Outcome.ok_bind, hv]; rfl
  · unfold FieldObj.endC; rw [Outcome.throwIf_false (by simp [hv]), Outcome.ok_bind, h1, hv]; rfl
  · unfold FieldObj.interiorBeginC
    rw [Outcome.throwIf_false (by simp [hd]), Outcome.ok_bind, Outcome.throwIf_false (by simp [hv]),
      Outcome.ok_bind, hv]; rfl
  · unfold FieldObj.interiorEndC
    rw [Outcome.throwIf_false (by simp [hd]), Outcome.ok_bind, Outcome.throwIf_false (by simp [hv]),
      Outcome.ok_bind, h2, hv]; rfl
  · unfold FieldObj.fieldValuesC; dsimp only; rw [if_neg (by simp [hv]), hv]
  · unfold FieldObj.subscriptC
    rw [if_neg (by rw [hv]; rcases hm with hm | hm <;> simp [hm])]
    rw [hv]

/-- C18. Where the interior was cut by a window, all four interior accessors throw. -/
theorem C18_interior_refused (f : FieldObj) (hd : f.geo.disableInterior = true) :
    f.interiorBeginC = .throws ∧ f.interiorBeginM = .throws ∧ f.interiorEndC = .throws ∧
    f.interiorEndM = .throws := by
  have t : Outcome.throwIf (f.geo.disableInterior = true) = .throws := Outcome.throwIf_true hd
  unfold FieldObj.interiorBeginC FieldObj.interiorBeginM FieldObj.interiorEndC FieldObj.interiorEndM
  rw [t]
  exact ⟨rfl, rfl, rfl, rfl⟩

/-- C18. Adding a consumer on another device makes the field read-only, even if
the call throws; every other field is left as it was. -/
theorem C18_add_consumer_freezes (cuda : Bool) (w w' : FieldWorld) (h : Nat) (f : FieldObj)
    (mt : MemType) (dev fresh : Nat) (b : Bool) (hf : w.fields[h]? = some (some f))
    (hne : ¬ (mt = f.memType ∧ dev = f.dev))
    (hs : w.step cuda (.addConsumer h mt dev fresh) = .ok (w', b)) :
    (∃ f', w'.fields[h]? = some (some f') ∧ f'.readOnly = true) ∧
    ∀ k, k ≠ h → w'.fields[k]? = w.fields[k]? := by
  have hlt : h < w.fields.length := (List.getElem?_eq_some_iff.1 hf).1
  have fin : ∀ (fs : List (Option FieldObj)) (f' : FieldObj), fs = w.fields.set h (some f') →
      f'.readOnly = true → (∃ f', fs[h]? = some (some f') ∧ f'.readOnly = true) ∧
        ∀ k, k ≠ h → fs[k]? = w.fields[k]? := by
    intro fs f' e hr
    subst e
    exact ⟨⟨f', by rw [List.getElem?_set_self hlt], hr⟩, fun k hk => List.getElem?_set_ne (Ne.symm hk)⟩
  unfold step at hs
  dsimp only at hs
  rw [field_eq hf, Outcome.ok_bind] at hs
  unfold addConsumer at hs
  rw [if_neg hne] at hs
  dsimp only at hs
  have ok1 : ∀ {x : FieldWorld × Bool}, Outcome.ok x = Outcome.ok (w', b) → x.1 = w' := by
    intro x h; injection h with h; rw [h]
  cases mt with
  | other => rw [← (ok1 hs)]; exact fin _ _ rfl rfl
  | localRam =>
    cases cuda with
    | false => rw [← (ok1 hs)]; exact fin _ _ rfl rfl
    | true =>
      cases hm : f.memType with
      | localRam => rw [hm] at hs; rw [← (ok1 hs)]; exact fin _ _ rfl rfl
      | other => rw [hm] at hs; rw [← (ok1 hs)]; exact fin _ _ rfl rfl
      | gpu =>
        rw [hm] at hs
        dsimp only at hs
        split at hs
        · simp only [Outcome.bind_eq_ok] at hs
          obtain ⟨⟨w1, a⟩, hg, hs⟩ := hs
          have hfl : w1.fields = w.fields := by
            unfold poolGet at hg
            simp only [Outcome.bind_eq_ok] at hg
            obtain ⟨r, _, p, _, hg⟩ := hg
            injection hg with hg
            injection hg with hg _
            rw [← hg]
          rw [← (ok1 hs)]
          exact fin _ _ (by dsimp only; rw [hfl]) rfl
        · rw [← (ok1 hs)]; exact fin _ _ rfl rfl
  | gpu =>
    cases cuda with
    | false => rw [← (ok1 hs)]; exact fin _ _ rfl rfl
    | true =>
      cases hm : f.memType with
      | other => rw [hm] at hs; rw [← (ok1 hs)]; exact fin _ _ rfl rfl
      | localRam =>
        rw [hm] at hs
        dsimp only at hs
        rw [if_pos rfl] at hs
        split at hs <;> (rw [← (ok1 hs)]; exact fin _ _ rfl rfl)
      | gpu =>
        rw [hm] at hs
        dsimp only at hs
        rw [if_pos rfl] at hs
        split at hs <;> (rw [← (ok1 hs)]; exact fin _ _ rfl rfl)

/-- Deviation. In a build without CUDA a consumer on another device is refused
by an exception, but the field is then read-only for good: `remove_consumers`
does nothing. -/
theorem C18_refused_consumer_freezes_forever (w : FieldWorld) (h : Nat) (f : FieldObj) (mt : MemType)
    (dev fresh : Nat) (hf : w.fields[h]? = some (some f)) (hne : ¬ (mt = f.memType ∧ dev = f.dev)) :
    ∃ w', w.step false (.addConsumer h mt dev fresh) = .ok (w', true) ∧
      w'.fields[h]? = some (some { f with readOnly := true }) ∧
      w'.step false (.removeConsumers h) = .ok (w', false) := by
  have hlt : h < w.fields.length := (List.getElem?_eq_some_iff.1 hf).1
  have hset : (w.fields.set h (some { f with readOnly := true }))[h]? = some (some { f with readOnly := true }) := by
    rw [List.getElem?_set_self hlt]
  refine ⟨{ w with fields := w.fields.set h (some { f with readOnly := true }) }, ?_, hset, ?_⟩
  · unfold step
    dsimp only
    rw [field_eq hf, Outcome.ok_bind]
    unfold addConsumer
    rw [if_neg hne]
    cases mt <;> rfl
  · unfold step
    dsimp only
    rw [field_eq hset, Outcome.ok_bind]
    unfold removeConsumers
    rw [if_neg (by simp)]

/-- A read-only field reached by a history (non-vacuity for C18). -/
example : ∃ w f, init.run false [.create false exWin exBc exGhost none .localRam 0 100,
      .addConsumer 0 .gpu 0 200] = .ok w ∧ w.fields[0]? = some (some f) ∧ f.readOnly = true ∧
    f.memType = .localRam ∧ f.values = some 100 ∧ f.geo.window.Fits ∧ f.geo.window.Nonempty ∧
    f.geo.interior.Nonempty :=
  ⟨_, _, rfl, rfl, rfl, rfl, rfl, by decide +kernel, by decide +kernel, by decide +kernel⟩

/-! ## C19: assignment -/

/-- C19. Between CPU fields with memory, `f = other` either throws (read-only
destination, or different windows) or copies every element: afterwards each of the
`glob_npts` elements of the destination has the value the source had, and no other
memory changed. -/
theorem C19_assign_all_or_nothing {V : Type} (f other : FieldObj) (m : Mem V) (d s : Nat)
    (hd : f.values = some d) (hs : other.values = some s) (hmf : f.memType = .localRam)
    (hmo : other.memType = .localRam) :
    (f.readOnly = true ∨ f.geo.window ≠ other.geo.window → assignField f other m = .throws) ∧
    (f.readOnly = false → f.geo.window = other.geo.window →
      ∃ m', assignField f other m = .ok m' ∧
        (∀ i, 0 ≤ i → i < f.geo.window.npts.x * f.geo.window.npts.y * f.geo.window.npts.z →
          m' d i = m s i) ∧
        (∀ b i, ¬ (b = d ∧ 0 ≤ i ∧ i < f.geo.window.npts.x * f.geo.window.npts.y * f.geo.window.npts.z) →
          m' b i = m b i)) := by
  have hne : f.geo.window.neOp other.geo.window = true ↔ f.geo.window ≠ other.geo.window := by
    unfold Window.neOp
    obtain ⟨a, b, c⟩ := f.geo.window
    obtain ⟨a', b', c'⟩ := other.geo.window
    simp only [Bool.or_eq_true, decide_eq_true_eq, ne_eq, Window.mk.injEq]
    constructor
    · rintro ((h | h) | h) ⟨h1, h2, h3⟩ <;> contradiction
    · intro h
      by_cases h1 : a = a'
      · by_cases h2 : c = c'
        · right; intro h3; exact h ⟨h1, h3, h2⟩
        · exact Or.inl (Or.inr h2)
      · exact Or.inl (Or.inl h1)
  constructor
  · intro h
    unfold assignField
    by_cases hr : f.readOnly = true
    · rw [Outcome.throwIf_true hr]; rfl
    · rw [Outcome.throwIf_false hr, Outcome.ok_bind,
        Outcome.throwIf_true (hne.2 (h.resolve_left hr))]; rfl
  · intro hr hw
    have e : assignField f other m = (if f.values = other.values then .ok m else
        .ok (fun b i => if b = d ∧ 0 ≤ i ∧ i < other.geo.window.globNpts then m s i else m b i)) := by
      unfold assignField
      rw [Outcome.throwIf_false (by simp [hr]), Outcome.ok_bind,
        Outcome.throwIf_false (fun h => hne.1 h hw), Outcome.ok_bind,
        Outcome.throwIf_false (by simp [hmf, hmo]), Outcome.ok_bind,
        Outcome.throwIf_false (by simp [hs]), Outcome.ok_bind, hd, hs]
      rfl
    rw [e, ← hw]
    by_cases hv : f.values = other.values
    · rw [if_pos hv]
      have : d = s := by rw [hd, hs] at hv; injection hv
      subst this
      exact ⟨m, rfl, fun _ _ _ => rfl, fun _ _ _ => rfl⟩
    · rw [if_neg hv]
      refine ⟨_, rfl, fun i h0 h1 => ?_, fun b i h => ?_⟩
      · exact if_pos ⟨rfl, h0, h1⟩
      · exact if_neg h

/-- Non-vacuity of C19 (both cases): two fields of a history. -/
example : ∃ w f g, init.run false [.create false exWin exBc exGhost none .localRam 0 100,
      .create false exWin exBc exGhost none .localRam 0 101] = .ok w ∧
    w.fields[0]? = some (some f) ∧ w.fields[1]? = some (some g) ∧ f.values = some 100 ∧
    g.values = some 101 ∧ f.readOnly = false ∧ f.geo.window = g.geo.window ∧
    f.memType = .localRam ∧ g.memType = .localRam :=
  ⟨_, _, _, rfl, rfl, rfl, rfl, rfl, rfl, rfl, rfl, rfl⟩

/-! ## C20: f(i,j,k) -/

/-- C20. For a cell `ijk` of the window that is not smaller than the window's
offset in any direction (in particular for every cell when the offset is zero),
`f(ijk)`, const or not, refers to the memory of the `ijk`-th cell of the window:
the cell `offset + ijk` of the block, the same element an iterator standing at
`ijk` refers to. The full property asks this of every cell of the window; see
`C20_valid_index_aborts`. -/
theorem C20_call_partial (f : FieldObj) (b : Nat) (hv : f.values = some b) (hw : f.geo.window.Fits)
    (ijk : IntVec) (hin : InBlock f.geo.window.extent ijk) (ho : IntVec.Le f.geo.window.offset ijk) :
    ∃ a, f.callC ijk = .ok (b, a) ∧ ijkToFlat f.geo.window.npts (f.geo.window.offset + ijk) = .ok a ∧
      0 ≤ a ∧ a < f.geo.window.globNpts ∧
      (f.readOnly = false → f.memType = .localRam → f.callM ijk = .ok (b, a)) ∧
      ∃ k : Nat, (It.nth 0 f.geo.window k).location = ijk ∧ (It.nth 0 f.geo.window k).deref = .ok a := by
  obtain ⟨a, h1, h2, h3, h4⟩ := (C02_flatIndex_injective_inbounds f.geo.window hw).1 ijk hin
  have hc : f.callAsserts ijk := by unfold FieldObj.callAsserts; iv_omega
  have he : f.geo.window.Nonempty := by iv_omega
  refine ⟨a, ?_, h4, h2, h3, fun hr hm => ?_, ?_⟩
  · unfold FieldObj.callC
    rw [Outcome.throwIf_false (by simp [hv]), Outcome.ok_bind, Outcome.assert_true hc, Outcome.ok_bind,
      h1, Outcome.ok_bind, hv]
    rfl
  · unfold FieldObj.callM
    rw [Outcome.throwIf_false (by simp [hr]), Outcome.ok_bind, Outcome.throwIf_false (by simp [hm]),
      Outcome.ok_bind, Outcome.assert_true hc, Outcome.ok_bind, h1, Outcome.ok_bind, hv]
    rfl
  · obtain ⟨k, ⟨hk, it, e1, e2⟩, _⟩ := C04_each_cell_once f.geo.window hw he 0 ijk hin
    rw [It.run_inc_eq_nth] at e1
    injection e1 with e1
    subst e1
    obtain ⟨loc, a', _, g2, g3, g4⟩ := It.nth_spec hw he 0 hk
    refine ⟨k, e2, ?_⟩
    rw [e2] at g2
    rw [← g2, h1] at g3
    injection g3 with g3
    rw [g4, ← g3, zero_add]

/-- C20 for whole-block fields: every cell of the window. -/
theorem C20_call_full_window (f : FieldObj) (b : Nat) (hv : f.values = some b) (hw : f.geo.window.Fits)
    (h0 : f.geo.window.offset = 0) (ijk : IntVec) (hin : InBlock f.geo.window.extent ijk) :
    ∃ a, f.callC ijk = .ok (b, a) ∧ ijkToFlat f.geo.window.npts ijk = .ok a := by
  obtain ⟨a, h1, h2, _⟩ := C20_call_partial f b hv hw ijk hin (by rw [h0]; exact hin.1)
  refine ⟨a, h1, ?_⟩
  rw [h0] at h2
  rw [← h2]
  congr 1
  ext <;> simp

/-- Violation. A cell of the window below the window's offset in some direction
fails an assertion (debug build) although it is a valid index. -/
theorem C20_valid_index_aborts (f : FieldObj) (b : Nat) (hv : f.values = some b) (ijk : IntVec)
    (ho : ¬ IntVec.Le f.geo.window.offset ijk) : f.callC ijk = .abort := by
  unfold FieldObj.callC
  rw [Outcome.throwIf_false (by simp [hv]), Outcome.ok_bind, Outcome.assert_false]
  · rfl
  · unfold FieldObj.callAsserts
    intro h
    exact ho ⟨h.1.2.2, h.2.1.2.2, h.2.2.2.2⟩

/-- Outside the window in any direction the call never returns a reference. -/
theorem C20_outside_refused (f : FieldObj) (ijk : IntVec) (h : ¬ InBlock f.geo.window.extent ijk) :
    (∀ r, f.callC ijk ≠ .ok r) ∧ ∀ r, f.callM ijk ≠ .ok r := by
  have hc : ¬ f.callAsserts ijk := by
    unfold FieldObj.callAsserts
    intro hc
    exact h ⟨⟨hc.1.1, hc.2.1.1, hc.2.2.1⟩, ⟨hc.1.2.1, hc.2.1.2.1, hc.2.2.2.1⟩⟩
  constructor
  · intro r hr
    unfold FieldObj.callC at hr
    simp only [Outcome.bind_eq_ok] at hr
    obtain ⟨_, _, _, h2, _⟩ := hr
    rw [Outcome.assert_false hc] at h2
    cases h2
  · intro r hr
    unfold FieldObj.callM at hr
    simp only [Outcome.bind_eq_ok] at hr
    obtain ⟨_, _, _, _, _, h2, _⟩ := hr
    rw [Outcome.assert_false hc] at h2
    cases h2

/-- Both cases occur: a windowed view with offset (1,0,0) accepts (1,2,1), the
cell (2,2,1) of the block, and aborts on its own first cell. -/
example : ∃ w f, init.run false [.create false exWin exBc exGhost none .localRam 0 100,
      .view false ⟨⟨4, 3, 2⟩, ⟨1, 0, 0⟩, ⟨2, 3, 2⟩⟩ 0] = .ok w ∧ w.fields[1]? = some (some f) ∧
    f.callC ⟨1, 2, 1⟩ = .ok (100, 22) ∧ f.callC ⟨0, 0, 0⟩ = .abort :=
  ⟨_, _, rfl, rfl, rfl, rfl⟩

/-! ## C53: initial contents -/

theorem foldO_write {V : Type} (b : Nat) (addr : Nat → Int) (val : Nat → V) (n : Nat)
    (hinj : ∀ i j, i < n → j < n → addr i = addr j → i = j) (m : Mem V) (t : Int) (inc : Int) :
    ∃ m' : Mem V, foldO (fun k (s : Mem V × Int) => .ok (s.1.write b (addr k) (val k), s.2 + inc))
        (List.range n) (m, t) = .ok (m', t + inc * n) ∧
      (∀ k, k < n → m' b (addr k) = val k) ∧
      (∀ b' i, (b' ≠ b ∨ ∀ k, k < n → addr k ≠ i) → m' b' i = m b' i) := by
  induction n with
  | zero => exact ⟨m, by simp [foldO], by simp, by simp⟩
  | succ n ih =>
    obtain ⟨m', h1, h2, h3⟩ := ih (fun i j hi hj => hinj i j (by omega) (by omega))
    refine ⟨m'.write b (addr n) (val n), ?_, ?_, ?_⟩
    · rw [List.range_succ, foldO_append, h1]
      simp only [Outcome.ok_bind, foldO]
      congr 2
      push_cast; ring
    · intro k hk
      unfold Mem.write
      by_cases hkn : k = n
      · subst hkn; rw [if_pos ⟨rfl, rfl⟩]
      · rw [if_neg (fun h => hkn (hinj k n hk (by omega) h.2)), h2 k (by omega)]
    · intro b' i h
      unfold Mem.write
      rw [if_neg, h3]
      · rcases h with h | h
        · exact Or.inl h
        · exact Or.inr (fun k hk => h k (by omega))
      · rintro ⟨q1, q2⟩
        rcases h with h | h
        · exact h q1
        · exact h n (by omega) q2.symm

/-- C53. `reset_values` (run by the constructor on internal storage) sets the
`k`-th cell of the window in fortran order to the `k`-th value of the array given,
or to zero if none is given, and changes nothing else. -/
theorem C53_reset_values {V : Type} (zero : V) (f : FieldObj) (b : Nat) (src : Option (Int → V)) (m : Mem V)
    (hr : f.readOnly = false) (hm : f.memType = .localRam) (hv : f.values = some b)
    (hw : f.geo.window.Fits) (he : f.geo.window.Nonempty) :
    ∃ m', resetValues zero f src m = .ok m' ∧
      (∀ loc a, InBlock f.geo.window.extent loc → f.geo.window.flatIndex loc = .ok a →
        m' b a = match src with
          | none => zero
          | some v => v (fortranPos f.geo.window.extent loc)) ∧
      (∀ b' i, (b' ≠ b ∨ ∀ loc, InBlock f.geo.window.extent loc → f.geo.window.flatIndex loc ≠ .ok i) →
        m' b' i = m b' i) := by
  have hN := It.localNpts_nonneg he
  -- address of the k-th cell
  have hex : ∀ k : Nat, ∃ a : Int, k < f.geo.window.localNpts.toNat →
      (It.nth 0 f.geo.window k).deref = .ok a ∧
      ∃ loc, IsNthCell f.geo.window.extent k loc ∧ f.geo.window.flatIndex loc = .ok a := by
    intro k
    by_cases hk : k < f.geo.window.localNpts.toNat
    · obtain ⟨loc, a, h1, h2, h3, h4⟩ := It.nth_spec hw he 0 (k := k) (by omega)
      exact ⟨a, fun _ => ⟨by rw [h4, zero_add], loc, h1, h3⟩⟩
    · exact ⟨0, fun h => absurd h hk⟩
  choose addr haddr using hex
  have hinj : ∀ i j, i < f.geo.window.localNpts.toNat → j < f.geo.window.localNpts.toNat →
      addr i = addr j → i = j := by
    intro i j hi hj e
    obtain ⟨_, l1, ⟨p1, p2⟩, p3⟩ := haddr i hi
    obtain ⟨_, l2, ⟨q1, q2⟩, q3⟩ := haddr j hj
    rw [← e] at q3
    have := (C02_flatIndex_injective_inbounds f.geo.window hw).2.1 l1 l2 _ p1 q1 p3 q3
    subst this
    omega
  have hcell : ∀ loc a, InBlock f.geo.window.extent loc → f.geo.window.flatIndex loc = .ok a →
      ∃ k : Nat, k < f.geo.window.localNpts.toNat ∧ (k : Int) = fortranPos f.geo.window.extent loc ∧
        addr k = a := by
    intro loc a hl ha
    have hb := fortranPos_bound hl
    refine ⟨(fortranPos f.geo.window.extent loc).toNat, ?_, by omega, ?_⟩
    · unfold Window.localNpts; omega
    · obtain ⟨_, l1, ⟨p1, p2⟩, p3⟩ := haddr (fortranPos f.geo.window.extent loc).toNat
        (by unfold Window.localNpts; omega)
      have : l1 = loc := fortranPos_inj p1 hl (by omega)
      subst this
      rw [ha] at p3; injection p3 with p3; exact p3.symm
  have hbeg : f.beginM = .ok ⟨some b, It.start 0 f.geo.window⟩ := by
    unfold FieldObj.beginM
    rw [Outcome.throwIf_false (by simp [hm]), Outcome.ok_bind, Outcome.throwIf_false (by simp [hr]),
      Outcome.ok_bind, hv]
    rfl
  have hend : f.endM = .ok ⟨some b, It.nth 0 f.geo.window f.geo.window.localNpts.toNat⟩ := by
    unfold FieldObj.endM
    rw [Outcome.throwIf_false (by simp [hm]), Outcome.ok_bind, It.finish_eq_nth he, hv]
    rfl
  have main : ∀ (val : Nat → V) (inc : Int) (body : It → Mem V × Int → Outcome (Mem V × Int)),
      (∀ k, k < f.geo.window.localNpts.toNat → ∀ m', body (It.nth 0 f.geo.window k) (m', inc * k) =
        .ok (m'.write b (addr k) (val k), inc * k + inc)) →
      ∃ m' t, forIt body f.geo.window.localNpts.toNat (It.start 0 f.geo.window)
          (It.nth 0 f.geo.window f.geo.window.localNpts.toNat) (m, 0) = .ok (m', t) ∧
        (∀ k, k < f.geo.window.localNpts.toNat → m' b (addr k) = val k) ∧
        (∀ b' i, (b' ≠ b ∨ ∀ k, k < f.geo.window.localNpts.toNat → addr k ≠ i) → m' b' i = m b' i) := by
    intro val inc body hbody
    obtain ⟨m', h1, h2, h3⟩ := foldO_write b addr val f.geo.window.localNpts.toNat hinj m 0 inc
    refine ⟨m', 0 + inc * f.geo.window.localNpts.toNat, ?_, h2, h3⟩
    rw [It.forIt_eq hw he, ← h1]
    have gen : ∀ n, n ≤ f.geo.window.localNpts.toNat →
        foldO (fun k => body (It.nth 0 f.geo.window k)) (List.range n) (m, 0) =
        foldO (fun k (s : Mem V × Int) => .ok (s.1.write b (addr k) (val k), s.2 + inc)) (List.range n) (m, 0) := by
      intro n
      induction n with
      | zero => intro _; rfl
      | succ n ih =>
        intro hn
        obtain ⟨m1, g1, _, _⟩ := foldO_write b addr val n
          (fun i j hi hj => hinj i j (by omega) (by omega)) m 0 inc
        rw [List.range_succ, foldO_append, foldO_append, ih (by omega), g1]
        simp only [Outcome.ok_bind, foldO, zero_add]
        rw [hbody n (by omega)]
        rfl
    exact gen _ (le_refl _)
  unfold resetValues
  rw [hbeg, Outcome.ok_bind, hend, Outcome.ok_bind]
  dsimp only
  cases src with
  | none =>
    obtain ⟨m', t, h1, h2, h3⟩ := main (fun _ => zero) 0
      (fun i (s : Mem V × Int) => do
        let a ← i.deref
        return (s.1.write b a zero, s.2)) (by
        intro k hk m'
        rw [(haddr k hk).1]; simp)
    dsimp only
    rw [h1]
    refine ⟨m', rfl, ?_, ?_⟩
    · intro loc a hl ha
      obtain ⟨k, k1, _, k3⟩ := hcell loc a hl ha
      rw [← k3]; exact h2 k k1
    · intro b' i h
      apply h3
      rcases h with h | h
      · exact Or.inl h
      · right; intro k hk e
        obtain ⟨_, l1, ⟨p1, p2⟩, p3⟩ := haddr k hk
        exact h l1 p1 (by rw [p3, e])
  | some v =>
    obtain ⟨m', t, h1, h2, h3⟩ := main (fun k => v k) 1
      (fun i (s : Mem V × Int) => do
        let a ← i.deref
        return (s.1.write b a (v s.2), s.2 + 1)) (by
        intro k hk m'
        rw [(haddr k hk).1]; simp)
    dsimp only
    rw [h1]
    refine ⟨m', rfl, ?_, ?_⟩
    · intro loc a hl ha
      obtain ⟨k, k1, k2, k3⟩ := hcell loc a hl ha
      rw [← k3, h2 k k1, k2]
    · intro b' i h
      apply h3
      rcases h with h | h
      · exact Or.inl h
      · right; intro k hk e
        obtain ⟨_, l1, ⟨p1, p2⟩, p3⟩ := haddr k hk
        exact h l1 p1 (by rw [p3, e])

/-- Non-vacuity of C53: a freshly constructed field of a history. -/
example : ∃ w f, init.run false [.create false exWin exBc exGhost none .localRam 0 100] = .ok w ∧
    w.fields[0]? = some (some f) ∧ f.readOnly = false ∧ f.memType = .localRam ∧ f.values = some 100 ∧
    f.geo.window.Fits ∧ f.geo.window.Nonempty :=
  ⟨_, _, rfl, rfl, rfl, rfl, rfl, by decide, by decide⟩

end SpatialOps
