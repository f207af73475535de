import Verif.Ptr.Spec
import Mathlib.Data.List.Nodup

/-!
# Invariant of the reference counting
-/

namespace SpatialOps.PtrWorld

/-- Handle variable `o` refers to counter `c`. -/
def refs (c : Nat) (o : Option FPtr) : Bool :=
  match o with
  | some p => decide (p.count = some c)
  | none => false

/-- Number of handles referring to counter `c`. -/
def nrefs (w : PtrWorld) (c : Nat) : Nat := w.handles.countP (refs c)

/-- Handle contents consistent with the log. -/
def POk (w : PtrWorld) (p : FPtr) : Prop :=
  (p.count = none → p.f = none) ∧
  ∀ c, p.count = some c → ∃ f v, w.wrapped[c]? = some (f, p.built) ∧ p.f = some f ∧
    w.counters[c]? = some (some v)

structure Inv (w : PtrWorld) : Prop where
  len : w.counters.length = w.wrapped.length
  nodup : (w.wrapped.map Prod.fst).Nodup
  hok : ∀ p, some p ∈ w.handles → w.POk p
  live : ∀ (c : Nat) (f : Nat) (b : Bool) (v : Int), w.wrapped[c]? = some (f, b) → w.counters[c]? = some (some v) →
    v = (w.nrefs c : Int) ∧ 0 < w.nrefs c ∧ f ∉ w.deleted ∧ f ∉ w.restored
  dead : ∀ (c : Nat) (f : Nat) (b : Bool), w.wrapped[c]? = some (f, b) → w.counters[c]? = some none →
    w.deleted.count f = 1 ∧ w.restored.count f = if b then 1 else 0
  sub : ∀ f, (f ∈ w.deleted ∨ f ∈ w.restored) → f ∈ w.wrapped.map Prod.fst

theorem inv_init : Inv init :=
  ⟨rfl, by simp [init], by simp [init], by simp [init], by simp [init], by simp [init]⟩

theorem nrefs_set {w : PtrWorld} {h : Nat} {o o' : Option FPtr} (hh : w.handles[h]? = some o) (c : Nat) :
    ((w.setHandle h o').nrefs c : Int) = (w.nrefs c : Int) - (if refs c o then 1 else 0) +
      (if refs c o' then 1 else 0) := by
  obtain ⟨hlt, he⟩ := List.getElem?_eq_some_iff.1 hh
  unfold nrefs setHandle
  simp only
  rw [List.countP_set hlt, he]
  have : refs c o = true → 0 < w.handles.countP (refs c) := by
    intro hr
    rw [List.countP_pos_iff]
    exact ⟨o, he ▸ List.getElem_mem hlt, hr⟩
  cases hr : refs c o with
  | false => cases hr' : refs c o' <;> simp
  | true =>
    have := this hr
    cases hr' : refs c o' <;> simp <;> omega

theorem wrapped_unique {w : PtrWorld} (hi : Inv w) {c c' f : Nat} {b b' : Bool}
    (h : w.wrapped[c]? = some (f, b)) (h' : w.wrapped[c']? = some (f, b')) : c = c' := by
  have e1 : (w.wrapped.map Prod.fst)[c]? = some f := by simp [h]
  have e2 : (w.wrapped.map Prod.fst)[c']? = some f := by simp [h']
  obtain ⟨h1, e1⟩ := List.getElem?_eq_some_iff.1 e1
  obtain ⟨h2, e2⟩ := List.getElem?_eq_some_iff.1 e2
  exact (List.Nodup.getElem_inj_iff hi.nodup).1 (by rw [e1, e2])

/-- A handle value that refers to nothing. -/
def Blank (o : Option FPtr) : Prop := ∀ p, o = some p → p.count = none ∧ p.f = none

theorem blank_refs {o : Option FPtr} (h : Blank o) (c : Nat) : refs c o = false := by
  cases o with
  | none => rfl
  | some p => simp [refs, (h p rfl).1]

theorem mem_setHandle {w : PtrWorld} {h : Nat} {o : Option FPtr} {p : FPtr}
    (hm : some p ∈ (w.setHandle h o).handles) : some p ∈ w.handles ∨ o = some p := by
  unfold setHandle at hm
  rcases List.mem_or_eq_of_mem_set hm with h | h
  · exact Or.inl h
  · exact Or.inr h.symm

/-- Putting a blank value into a handle that was already blank. -/
theorem inv_set_blank {w : PtrWorld} (hi : Inv w) {h : Nat} {o o' : Option FPtr}
    (hh : w.handles[h]? = some o) (hb : Blank o) (hb' : Blank o') : Inv (w.setHandle h o') := by
  refine ⟨hi.len, hi.nodup, ?_, ?_, hi.dead, hi.sub⟩
  · intro p hp
    rcases mem_setHandle hp with h1 | h1
    · exact hi.hok p h1
    · have := hb' p h1
      exact ⟨fun _ => this.2, fun c hc => by rw [this.1] at hc; cases hc⟩
  · intro c f b v h1 h2
    have := hi.live c f b v h1 h2
    have hn := nrefs_set (w := w) (o' := o') hh c
    rw [blank_refs hb, blank_refs hb'] at hn
    simp only [Bool.false_eq_true, if_false] at hn
    refine ⟨by omega, by omega, this.2.2⟩

/-- Releasing the reference held by handle `h` and blanking it. -/
theorem drop_spec {w : PtrWorld} (hi : Inv w) {h : Nat} {p : FPtr}
    (hh : w.handles[h]? = some (some p)) :
    ∃ w' p', w.dropRef p = .ok (w', p') ∧ w'.handles = w.handles ∧ w'.wrapped = w.wrapped ∧
      (∀ o, Blank o → Inv (w'.setHandle h o)) ∧
      (p.count = none → w' = w ∧ p' = p) ∧
      (∀ c, p.count = some c → w.nrefs c = 1 → Blank (some p')) ∧
      (∀ c, p.count = some c → w.nrefs c ≠ 1 → p' = p ∧ ∃ v, w'.counters[c]? = some (some v)) ∧
      (∀ c c', p.count = some c → c ≠ c' → w'.counters[c']? = w.counters[c']?) := by
  have hpm : some p ∈ w.handles := List.mem_of_getElem? hh
  have hpok := hi.hok p hpm
  unfold dropRef
  cases hc : p.count with
  | none =>
    refine ⟨w, p, rfl, rfl, rfl, ?_, fun _ => ⟨rfl, rfl⟩, by simp, by simp, by simp⟩
    intro o ho
    refine inv_set_blank hi hh ?_ ho
    intro q hq
    injection hq with hq
    subst hq
    exact ⟨hc, hpok.1 hc⟩
  | some c =>
    obtain ⟨f, v, hw1, hf, hcv⟩ := hpok.2 c hc
    obtain ⟨hv, hpos, hnd, hnr⟩ := hi.live c f p.built v hw1 hcv
    have hrefs : refs c (some p) = true := by simp [refs, hc]
    have hclt : c < w.counters.length := (List.getElem?_eq_some_iff.1 hcv).1
    have hrefs' : ∀ c', c' ≠ c → refs c' (some p) = false := by
      intro c' hne; simp [refs, hc]; exact fun h => hne h.symm
    simp only [hcv]
    by_cases hz : v - 1 = 0
    · rw [if_pos hz]
      have hone : w.nrefs c = 1 := by omega
      have hrest : (if p.built = true then w.restore p.f else .ok w) =
          .ok { w with restored := if p.built then f :: w.restored else w.restored } := by
        cases hb : p.built with
        | true => simp [restore, hf, hnd]
        | false => simp
      rw [hrest]
      simp only [Outcome.ok_bind, delete, hf, hnd, if_false, Outcome.pure_eq]
      refine ⟨_, _, rfl, rfl, rfl, ?_, by simp, ?_, ?_, ?_⟩
      · intro o ho
        refine ⟨by simp [setHandle, hi.len], hi.nodup, ?_, ?_, ?_, ?_⟩
        · -- remaining handles do not refer to c
          intro q hq
          have hq' : some q ∈ (w.setHandle h o).handles := hq
          have hn := nrefs_set (w := w) (o' := o) hh c
          rw [hrefs, blank_refs ho] at hn
          simp only [Bool.false_eq_true, if_false, if_true] at hn
          have hzero : (w.setHandle h o).nrefs c = 0 := by omega
          have hqc : q.count ≠ some c := by
            intro hqc
            unfold nrefs at hzero
            rw [List.countP_eq_zero] at hzero
            exact hzero _ hq' (by simp [refs, hqc])
          rcases mem_setHandle hq' with h1 | h1
          · have hk := hi.hok q h1
            refine ⟨hk.1, fun c' hc' => ?_⟩
            obtain ⟨f', v', e1, e2, e3⟩ := hk.2 c' hc'
            refine ⟨f', v', e1, e2, ?_⟩
            have hne : c ≠ c' := fun h => hqc (h ▸ hc')
            simp only [setHandle]
            rw [List.getElem?_set_ne hne]; exact e3
          · have := ho q h1
            exact ⟨fun _ => this.2, fun c' hc' => by rw [this.1] at hc'; cases hc'⟩
        · intro c' f' b' v' e1 e2
          simp only [setHandle] at e1 e2
          have hne : c ≠ c' := by
            intro h; subst h
            rw [List.getElem?_set_self (by exact hclt)] at e2
            cases e2
          rw [List.getElem?_set_ne hne] at e2
          have hl := hi.live c' f' b' v' e1 e2
          have hn := nrefs_set (w := w) (o' := o) hh c'
          rw [hrefs' c' (fun h => hne h.symm), blank_refs ho] at hn
          simp only [Bool.false_eq_true, if_false] at hn
          have hff : f ≠ f' := by
            intro h; subst h
            exact hne (wrapped_unique hi hw1 e1)
          have hnn : (w.setHandle h o).nrefs c' = w.nrefs c' := by omega
          refine ⟨?_, ?_, ?_, ?_⟩
          · rw [hl.1]; unfold nrefs setHandle at hnn ⊢; simp only at hnn ⊢; rw [hnn]
          · unfold nrefs setHandle at hnn ⊢; simp only at hnn ⊢; rw [hnn]; exact hl.2.1
          · simp only [setHandle, List.mem_cons, not_or]
            exact ⟨fun h => hff h.symm, hl.2.2.1⟩
          · simp only [setHandle]
            split
            · simp only [List.mem_cons, not_or]; exact ⟨fun h => hff h.symm, hl.2.2.2⟩
            · exact hl.2.2.2
        · intro c' f' b' e1 e2
          simp only [setHandle] at e1 e2
          by_cases hne : c = c'
          · subst hne
            rw [hw1] at e1
            injection e1 with e1
            injection e1 with e1 e1'
            subst e1; subst e1'
            simp only [setHandle]
            refine ⟨by simp [List.count_eq_zero_of_not_mem hnd], ?_⟩
            cases hb : p.built with
            | true => simp [List.count_eq_zero_of_not_mem hnr]
            | false => simp [List.count_eq_zero_of_not_mem hnr]
          · rw [List.getElem?_set_ne hne] at e2
            have hd := hi.dead c' f' b' e1 e2
            have hff : f ≠ f' := by
              intro h; subst h
              exact hne (wrapped_unique hi hw1 e1)
            simp only [setHandle]
            refine ⟨?_, ?_⟩
            · rw [List.count_cons_of_ne hff]; exact hd.1
            · split
              · rw [List.count_cons_of_ne hff]; exact hd.2
              · exact hd.2
        · intro f' hf'
          have hfw : f ∈ w.wrapped.map Prod.fst :=
            List.mem_map.2 ⟨(f, p.built), List.mem_of_getElem? hw1, rfl⟩
          simp only [setHandle, List.mem_cons] at hf' ⊢
          rcases hf' with (h1 | h1) | h1
          · rw [h1]; exact hfw
          · exact hi.sub f' (Or.inl h1)
          · split at h1
            · rcases List.mem_cons.1 h1 with h1 | h1
              · rw [h1]; exact hfw
              · exact hi.sub f' (Or.inr h1)
            · exact hi.sub f' (Or.inr h1)
      · intro c' _ _ q hq
        injection hq with hq
        subst hq; exact ⟨rfl, rfl⟩
      · intro c' hc' hne
        injection hc' with hc'
        subst hc'
        exact absurd hone hne
      · intro c' c'' hc' hne
        injection hc' with hc'
        subst hc'
        exact List.getElem?_set_ne hne
    · rw [if_neg hz]
      refine ⟨_, _, rfl, rfl, rfl, ?_, by simp, ?_, ?_, ?_⟩
      · intro o ho
        refine ⟨by simp [setHandle, hi.len], hi.nodup, ?_, ?_, ?_, hi.sub⟩
        · intro q hq
          rcases mem_setHandle (w := w) hq with h1 | h1
          · have hk := hi.hok q h1
            refine ⟨hk.1, fun c' hc' => ?_⟩
            obtain ⟨f', v', e1, e2, e3⟩ := hk.2 c' hc'
            simp only [setHandle]
            by_cases hne : c = c'
            · subst hne
              exact ⟨f', v - 1, e1, e2, List.getElem?_set_self hclt⟩
            · exact ⟨f', v', e1, e2, by rw [List.getElem?_set_ne hne]; exact e3⟩
          · have := ho q h1
            exact ⟨fun _ => this.2, fun c' hc' => by rw [this.1] at hc'; cases hc'⟩
        · intro c' f' b' v' e1 e2
          simp only [setHandle] at e1 e2
          have hn := nrefs_set (w := w) (o' := o) hh c'
          rw [blank_refs ho] at hn
          by_cases hne : c = c'
          · subst hne
            rw [List.getElem?_set_self hclt] at e2
            injection e2 with e2; injection e2 with e2
            rw [hw1] at e1
            injection e1 with e1
            injection e1 with e1 e1'
            subst e1
            rw [hrefs] at hn
            simp only [Bool.false_eq_true, if_false, if_true] at hn
            unfold nrefs setHandle at hn ⊢
            simp only at hn ⊢
            unfold nrefs at hv
            refine ⟨by omega, by omega, hnd, hnr⟩
          · rw [List.getElem?_set_ne hne] at e2
            have hl := hi.live c' f' b' v' e1 e2
            rw [hrefs' c' (fun h => hne h.symm)] at hn
            simp only [Bool.false_eq_true, if_false] at hn
            unfold nrefs setHandle at hn ⊢
            simp only at hn ⊢
            unfold nrefs at hl
            refine ⟨by omega, by omega, hl.2.2⟩
        · intro c' f' b' e1 e2
          simp only [setHandle] at e1 e2
          have hne : c ≠ c' := by
            intro h; subst h
            rw [List.getElem?_set_self hclt] at e2; cases e2
          rw [List.getElem?_set_ne hne] at e2
          exact hi.dead c' f' b' e1 e2
      · intro c' hc' hone
        injection hc' with hc'
        subst hc'
        omega
      · intro c' hc' _
        injection hc' with hc'
        subst hc'
        exact ⟨rfl, v - 1, List.getElem?_set_self hclt⟩
      · intro c' c'' hc' hne
        injection hc' with hc'
        subst hc'
        exact List.getElem?_set_ne hne

/-- Filling a blank handle with a copy of `q` and incrementing its counter. -/
theorem fill_spec {w : PtrWorld} (hi : Inv w) {h : Nat} {o : Option FPtr} (hh : w.handles[h]? = some o)
    (hb : Blank o) {q : FPtr} {c : Nat} (hq : w.POk q) (hc : q.count = some c) :
    ∃ w', (w.setHandle h (some q)).incr (some c) = .ok w' ∧ Inv w' ∧
      w'.handles = w.handles.set h (some q) ∧ w'.wrapped = w.wrapped := by
  obtain ⟨f, v, hw1, hf, hcv⟩ := hq.2 c hc
  have hclt : c < w.counters.length := (List.getElem?_eq_some_iff.1 hcv).1
  unfold incr
  have hcv' : (w.setHandle h (some q)).counters[c]? = some (some v) := hcv
  simp only [hcv']
  refine ⟨_, rfl, ?_, rfl, rfl⟩
  refine ⟨by simp [setHandle, hi.len], hi.nodup, ?_, ?_, ?_, hi.sub⟩
  · intro r hr
    have key : ∀ r : FPtr, w.POk r → PtrWorld.POk
        { (w.setHandle h (some q)) with
          counters := (w.setHandle h (some q)).counters.set c (some (v + 1)) } r := by
      intro r hk
      refine ⟨hk.1, fun c' hc' => ?_⟩
      obtain ⟨f', v', e1, e2, e3⟩ := hk.2 c' hc'
      by_cases hne : c = c'
      · subst hne
        exact ⟨f', v + 1, e1, e2, List.getElem?_set_self hclt⟩
      · exact ⟨f', v', e1, e2, by simp only; rw [List.getElem?_set_ne hne]; exact e3⟩
    rcases mem_setHandle (w := w) hr with h1 | h1
    · exact key r (hi.hok r h1)
    · injection h1 with h1; subst h1; exact key _ hq
  · intro c' f' b' v' e1 e2
    simp only [setHandle] at e1 e2
    have hn := nrefs_set (w := w) (o' := some q) hh c'
    rw [blank_refs hb] at hn
    by_cases hne : c = c'
    · subst hne
      rw [List.getElem?_set_self hclt] at e2
      injection e2 with e2; injection e2 with e2
      have hl := hi.live c f' b' v e1 hcv
      have hr : refs c (some q) = true := by simp [refs, hc]
      rw [hr] at hn
      simp only [Bool.false_eq_true, if_false, if_true] at hn
      unfold nrefs setHandle at hn ⊢
      simp only at hn ⊢
      unfold nrefs at hl
      refine ⟨by omega, by omega, hl.2.2⟩
    · rw [List.getElem?_set_ne hne] at e2
      have hl := hi.live c' f' b' v' e1 e2
      have hr : refs c' (some q) = false := by simp [refs, hc]; exact fun h => hne h
      rw [hr] at hn
      simp only [Bool.false_eq_true, if_false] at hn
      unfold nrefs setHandle at hn ⊢
      simp only at hn ⊢
      unfold nrefs at hl
      refine ⟨by omega, by omega, hl.2.2⟩
  · intro c' f' b' e1 e2
    simp only [setHandle] at e1 e2
    have hne : c ≠ c' := by
      intro h; subst h
      rw [List.getElem?_set_self hclt] at e2; cases e2
    rw [List.getElem?_set_ne hne] at e2
    exact hi.dead c' f' b' e1 e2

/-- Appending a blank handle. -/
theorem inv_append_blank {w : PtrWorld} (hi : Inv w) {o : Option FPtr} (ho : Blank o) :
    Inv { w with handles := w.handles ++ [o] } := by
  refine ⟨hi.len, hi.nodup, ?_, ?_, hi.dead, hi.sub⟩
  · intro p hp
    rcases List.mem_append.1 hp with h1 | h1
    · exact hi.hok p h1
    · have := ho p (List.mem_singleton.1 h1).symm
      exact ⟨fun _ => this.2, fun c hc => by rw [this.1] at hc; cases hc⟩
  · intro c f b v h1 h2
    have hl := hi.live c f b v h1 h2
    have hn : nrefs { w with handles := w.handles ++ [o] } c = w.nrefs c := by
      unfold nrefs; simp [List.countP_append, blank_refs ho]
    rw [hn]; exact hl

/-- Filling a blank handle with a newly wrapped field. -/
theorem wrap_spec {w : PtrWorld} (hi : Inv w) {h : Nat} {o : Option FPtr} (hh : w.handles[h]? = some o)
    (hb : Blank o) {f : Nat} {b : Bool} (hf : f ∉ w.wrapped.map Prod.fst) :
    Inv { w with
      handles := w.handles.set h (some ⟨some f, some w.counters.length, b⟩)
      counters := w.counters ++ [some 1]
      wrapped := w.wrapped ++ [(f, b)] } := by
  have hlen := hi.len
  have hout : ∀ p, some p ∈ w.handles → p.count ≠ some w.counters.length := by
    intro p hp hc
    obtain ⟨_, v, _, _, e⟩ := (hi.hok p hp).2 _ hc
    have := (List.getElem?_eq_some_iff.1 e).1
    omega
  have hzero : w.nrefs w.counters.length = 0 := by
    unfold nrefs
    rw [List.countP_eq_zero]
    intro o ho
    cases o with
    | none => simp [refs]
    | some p => simp [refs, hout p ho]
  refine ⟨by simp [hlen], ?_, ?_, ?_, ?_, ?_⟩
  · simp only [List.map_append, List.map_cons, List.map_nil]
    rw [List.nodup_append]
    refine ⟨hi.nodup, by simp, ?_⟩
    intro a ha b' hb' hab
    rw [List.mem_singleton.1 hb'] at hab
    exact hf (hab ▸ ha)
  · intro p hp
    rcases List.mem_or_eq_of_mem_set hp with h1 | h1
    · have hk := hi.hok p h1
      refine ⟨hk.1, fun c hc => ?_⟩
      obtain ⟨f', v', e1, e2, e3⟩ := hk.2 c hc
      have hclt := (List.getElem?_eq_some_iff.1 e3).1
      refine ⟨f', v', ?_, e2, ?_⟩
      · simp only; rw [List.getElem?_append_left (by omega)]; exact e1
      · simp only; rw [List.getElem?_append_left hclt]; exact e3
    · injection h1 with h1
      subst h1
      refine ⟨(fun h => by cases h), fun c hc => ?_⟩
      injection hc with hc
      subst hc
      refine ⟨f, 1, ?_, rfl, by simp⟩
      rw [hlen]; simp
  · intro c f' b' v' e1 e2
    simp only at e1 e2
    have hn := nrefs_set (w := w) (o' := some ⟨some f, some w.counters.length, b⟩) hh c
    rw [blank_refs hb] at hn
    simp only [Bool.false_eq_true, if_false] at hn
    by_cases hc : c < w.counters.length
    · rw [List.getElem?_append_left (by omega)] at e1
      rw [List.getElem?_append_left hc] at e2
      have hl := hi.live c f' b' v' e1 e2
      have hr : refs c (some ⟨some f, some w.counters.length, b⟩) = false := by
        simp [refs]; omega
      rw [hr] at hn
      simp only [Bool.false_eq_true, if_false] at hn
      unfold nrefs at hn ⊢; unfold setHandle at hn
      simp only at hn ⊢
      unfold nrefs at hl
      exact ⟨by omega, by omega, hl.2.2⟩
    · have hceq : c = w.counters.length := by
        have := (List.getElem?_eq_some_iff.1 e2).1
        simp at this; omega
      subst hceq
      have hr : refs w.counters.length (some ⟨some f, some w.counters.length, b⟩) = true := by
        simp [refs]
      rw [hr] at hn
      simp only [if_true] at hn
      have e1' : f' = f ∧ b' = b := by
        rw [hlen] at e1; simp at e1; exact ⟨e1.1.symm, e1.2.symm⟩
      have e2' : v' = 1 := by simp at e2; omega
      rw [e1'.1, e2']
      unfold nrefs at hn ⊢; unfold setHandle at hn
      simp only at hn ⊢
      unfold nrefs at hzero
      refine ⟨by omega, by omega, fun h => hf (hi.sub f (Or.inl h)), fun h => hf (hi.sub f (Or.inr h))⟩
  · intro c f' b' e1 e2
    simp only at e1 e2
    by_cases hc : c < w.counters.length
    · rw [List.getElem?_append_left (by omega)] at e1
      rw [List.getElem?_append_left hc] at e2
      exact hi.dead c f' b' e1 e2
    · exfalso
      have hceq : c = w.counters.length := by
        have := (List.getElem?_eq_some_iff.1 e2).1
        simp at this; omega
      subst hceq
      simp at e2
  · intro f' hf'
    have := hi.sub f' hf'
    simp only [List.map_append, List.mem_append]
    exact Or.inl this

/-- The observer's count of handles referring to a field is the code's count. -/
theorem sole_nrefs {w : PtrWorld} (hi : Inv w) {h : Nat} {p : FPtr} {c : Nat}
    (hh : w.handles[h]? = some (some p)) (hc : p.count = some c) : w.Sole h ↔ w.nrefs c = 1 := by
  have hpm : some p ∈ w.handles := List.mem_of_getElem? hh
  obtain ⟨f, v, hw1, hf, hcv⟩ := (hi.hok p hpm).2 c hc
  have hcong : w.handles.countP (fun o => decide (∃ q, o = some q ∧ q.f = some f)) = w.nrefs c := by
    unfold nrefs
    apply List.countP_congr
    intro o ho
    cases o with
    | none => simp [refs]
    | some q =>
      have hk := hi.hok q ho
      simp only [refs, decide_eq_true_eq]
      constructor
      · rintro ⟨r, hr, hrf⟩
        injection hr with hr
        subst hr
        cases hqc : q.count with
        | none => rw [hk.1 hqc] at hrf; cases hrf
        | some c' =>
          obtain ⟨f', v', e1, e2, e3⟩ := hk.2 c' hqc
          rw [hrf] at e2
          injection e2 with e2
          subst e2
          rw [wrapped_unique hi hw1 e1]
      · intro hqc
        obtain ⟨f', v', e1, e2, e3⟩ := hk.2 c hqc
        rw [hw1] at e1
        injection e1 with e1
        injection e1 with e1 _
        subst e1
        exact ⟨q, rfl, e2⟩
  constructor
  · rintro ⟨p', f', h1, h2, h3⟩
    rw [hh] at h1
    injection h1 with h1; injection h1 with h1
    subst h1
    rw [hf] at h2
    injection h2 with h2
    subst h2
    rw [← hcong]; exact h3
  · intro h1
    exact ⟨p, f, hh, hf, by rw [hcong]; exact h1⟩

theorem handle_eq {w : PtrWorld} {h : Nat} {p : FPtr} (hh : w.handles[h]? = some (some p)) :
    w.handle h = .ok p := by
  unfold handle; rw [hh]

theorem getElem?_set_self' {α : Type} {l : List α} {h : Nat} {o a : α} (hh : l[h]? = some o) :
    (l.set h a)[h]? = some a :=
  List.getElem?_set_self (List.getElem?_eq_some_iff.1 hh).1

/-- Every legal step succeeds and keeps the invariant. -/
theorem step_inv {w : PtrWorld} (hi : Inv w) (o : Op) (hl : w.Legal o) :
    ∃ w', w.step o = .ok w' ∧ Inv w' := by
  cases o with
  | new f b =>
    refine ⟨_, rfl, ?_⟩
    have h1 := inv_append_blank hi (o := none) (fun p hp => by cases hp)
    have h2 := wrap_spec h1 (h := w.handles.length) (o := none) (by simp)
      (fun p hp => by cases hp) (f := f) (b := b) hl
    simpa using h2
  | dflt =>
    refine ⟨_, rfl, inv_append_blank hi ?_⟩
    intro p hp; injection hp with hp; subst hp; exact ⟨rfl, rfl⟩
  | copy g =>
    obtain ⟨q, c, hq, hc⟩ := hl
    have hqok := hi.hok q (List.mem_of_getElem? hq)
    have h1 := inv_append_blank hi (o := none) (fun p hp => by cases hp)
    obtain ⟨w', e, hinv, hhd, _⟩ := fill_spec h1 (h := w.handles.length) (o := none) (by simp)
      (fun p hp => by cases hp) (q := q) (c := c) hqok hc
    unfold step
    simp only
    rw [handle_eq hq, Outcome.ok_bind, hc]
    unfold incr at e ⊢
    obtain ⟨f, v, _, _, hcv⟩ := hqok.2 c hc
    simp only [hcv, Outcome.ok_bind, Outcome.pure_eq]
    refine ⟨_, rfl, ?_⟩
    simp only [setHandle, hcv] at e
    injection e with e
    subst e
    simpa using hinv
  | assign h g =>
    obtain ⟨⟨p, hp⟩, ⟨q, c, hq, hc⟩, hself⟩ := hl
    have hqok := hi.hok q (List.mem_of_getElem? hq)
    obtain ⟨w1, p1, e1, hh1, hw1, hblank, hnone, hone, hmany, hother⟩ := drop_spec hi hp
    unfold step
    simp only
    rw [handle_eq hp, Outcome.ok_bind, e1, Outcome.ok_bind]
    simp only
    have hb0 : Blank (none : Option FPtr) := fun p hp => by cases hp
    have hinv1 := hblank none hb0
    have hset : (w1.setHandle h none).handles[h]? = some none := by
      simp only [setHandle, hh1]; exact getElem?_set_self' hp
    -- the source as read after the release
    have hread : (w1.setHandle h (some p1)).handle g = .ok q := by
      by_cases hgh : h = g
      · subst hgh
        rw [hp] at hq
        injection hq with hq; injection hq with hq
        subst hq
        have hns : w.nrefs c ≠ 1 := fun hn => hself ⟨rfl, (sole_nrefs hi hp hc).2 hn⟩
        rw [(hmany c hc hns).1]
        apply handle_eq
        simp only [setHandle, hh1]
        exact getElem?_set_self' hp
      · apply handle_eq
        simp only [setHandle, hh1]
        rw [List.getElem?_set_ne hgh]; exact hq
    rw [hread, Outcome.ok_bind]
    -- q is still consistent
    have hqok1 : (w1.setHandle h none).POk q := by
      refine ⟨hqok.1, fun c' hc' => ?_⟩
      rw [hc] at hc'
      injection hc' with hc'
      subst hc'
      obtain ⟨f, v, a1, a2, a3⟩ := hqok.2 c hc
      by_cases hgh : h = g
      · subst hgh
        rw [hp] at hq
        injection hq with hq; injection hq with hq
        subst hq
        have hns : w.nrefs c ≠ 1 := fun hn => hself ⟨rfl, (sole_nrefs hi hp hc).2 hn⟩
        obtain ⟨v', hv'⟩ := (hmany c hc hns).2
        exact ⟨f, v', by simp only [setHandle, hw1]; exact a1, a2, hv'⟩
      · have hmem : some q ∈ (w1.setHandle h none).handles := by
          simp only [setHandle, hh1]
          have : (w.handles.set h none)[g]? = some (some q) := by
            rw [List.getElem?_set_ne hgh]; exact hq
          exact List.mem_of_getElem? this
        exact (hinv1.hok q hmem).2 c hc
    obtain ⟨w', e, hinv, _, _⟩ := fill_spec hinv1 hset hb0 hqok1 hc
    refine ⟨w', ?_, hinv⟩
    rw [hc]
    rw [← e]
    simp [setHandle]
  | assignField h f =>
    obtain ⟨⟨p, hp⟩, hf⟩ := hl
    obtain ⟨w1, p1, e1, hh1, hw1, hblank, _⟩ := drop_spec hi hp
    unfold step
    simp only
    rw [handle_eq hp, Outcome.ok_bind, e1, Outcome.ok_bind]
    refine ⟨_, rfl, ?_⟩
    have hb0 : Blank (none : Option FPtr) := fun p hp => by cases hp
    have hinv1 := hblank none hb0
    have hset : (w1.setHandle h none).handles[h]? = some none := by
      simp only [setHandle, hh1]; exact getElem?_set_self' hp
    have := wrap_spec hinv1 hset hb0 (f := f) (b := false) (by simp only [setHandle, hw1]; exact hf)
    simpa [setHandle] using this
  | detach h =>
    obtain ⟨⟨p, hp⟩, hs⟩ := hl
    obtain ⟨w1, p1, e1, hh1, hw1, hblank, hnone, hone, hmany, _⟩ := drop_spec hi hp
    unfold step
    simp only
    rw [handle_eq hp, Outcome.ok_bind, e1, Outcome.ok_bind]
    refine ⟨_, rfl, hblank _ ?_⟩
    cases hc : p.count with
    | none =>
      intro q hq
      injection hq with hq
      rw [(hnone hc).2] at hq
      subst hq
      exact ⟨hc, (hi.hok p (List.mem_of_getElem? hp)).1 hc⟩
    | some c => exact hone c hc ((sole_nrefs hi hp hc).1 (hs ⟨p, c, hp, hc⟩))
  | destroy h =>
    obtain ⟨p, hp⟩ := hl
    obtain ⟨w1, p1, e1, hh1, hw1, hblank, _⟩ := drop_spec hi hp
    unfold step
    simp only
    rw [handle_eq hp, Outcome.ok_bind, e1, Outcome.ok_bind]
    exact ⟨_, rfl, hblank none (fun p hp => by cases hp)⟩

theorem run_inv (os : List Op) : ∀ {w : PtrWorld}, Inv w → w.LegalRun os →
    ∃ w', w.run os = .ok w' ∧ Inv w' := by
  induction os with
  | nil => intro w hi _; exact ⟨w, rfl, hi⟩
  | cons o os ih =>
    intro w hi hl
    obtain ⟨w1, e1, h1⟩ := step_inv hi o hl.1
    have hl2 := hl.2
    rw [e1] at hl2
    obtain ⟨w2, e2, h2⟩ := ih h1 hl2
    exact ⟨w2, by unfold run; rw [e1, Outcome.ok_bind, e2], h2⟩

theorem released_of_inv {w : PtrWorld} (hi : Inv w) : w.ReleasedExactlyOnce := by
  intro f b hfb
  obtain ⟨c, hclt, hcw⟩ := List.getElem_of_mem hfb
  have hw : w.wrapped[c]? = some (f, b) := by rw [List.getElem?_eq_getElem hclt, hcw]
  have hcl : c < w.counters.length := by rw [hi.len]; exact hclt
  have href : w.Referenced f ↔ ∃ v, w.counters[c]? = some (some v) := by
    constructor
    · rintro ⟨p, hp, hpf⟩
      have hk := hi.hok p hp
      cases hpc : p.count with
      | none => rw [hk.1 hpc] at hpf; cases hpf
      | some c' =>
        obtain ⟨f', v, e1, e2, e3⟩ := hk.2 c' hpc
        rw [hpf] at e2
        injection e2 with e2
        subst e2
        rw [wrapped_unique hi hw e1]; exact ⟨v, e3⟩
    · rintro ⟨v, hv⟩
      have hl := hi.live c f b v hw hv
      have := hl.2.1
      unfold nrefs at this
      rw [List.countP_pos_iff] at this
      obtain ⟨o, ho, hr⟩ := this
      cases o with
      | none => simp [refs] at hr
      | some p =>
        simp only [refs, decide_eq_true_eq] at hr
        obtain ⟨f', v', e1, e2, e3⟩ := (hi.hok p ho).2 c hr
        rw [hw] at e1
        injection e1 with e1
        injection e1 with e1 _
        subst e1
        exact ⟨p, ho, e2⟩
  constructor
  · intro hr
    obtain ⟨v, hv⟩ := href.1 hr
    have hl := hi.live c f b v hw hv
    exact ⟨List.count_eq_zero_of_not_mem hl.2.2.1, List.count_eq_zero_of_not_mem hl.2.2.2⟩
  · intro hr
    apply hi.dead c f b hw
    cases hcc : w.counters[c]? with
    | none => rw [List.getElem?_eq_none_iff] at hcc; omega
    | some o =>
      cases o with
      | none => rfl
      | some v => exact absurd (href.2 ⟨v, hcc⟩) hr

end SpatialOps.PtrWorld
