import Verif.PtrMT.Lemmas

/-!
# C69: field pointers used by several threads
-/

namespace SpatialOps
namespace PtrMT

open World

/-- If no operation on a handle is started while another thread is in an operation on a handle to the same field, then under every
schedule of any number of threads nothing undefined happens, no field is released while a handle to it is alive, and every
field without handles has been released exactly once. Operations on handles to different fields may overlap in any way. -/
theorem _root_.SpatialOps.C69_apart (N : Nat) (es : List Ev) (h : Respects Apart (init N) es) :
    ∃ w, (init N).run es = .ok w ∧ ReleasedExactlyOnce w := by
  obtain ⟨w, hr, H⟩ := (Inv.init N).run h
  refine ⟨w, hr, fun f b hfb => ?_⟩
  obtain ⟨c, hc⟩ := List.mem_iff_getElem?.1 hfb
  have same : ∀ p : Hdl, Known w p → p.f = f → p.c = c ∧ p.built = b := by
    intro p hp e
    have hp' := hp
    rw [Known, e] at hp'
    have := wrapped_inj H.nodup hp' hc
    rw [this, hc] at hp'
    simp at hp'
    exact ⟨this, hp'.symm⟩
  have field : ∀ p : Hdl, Known w p → p.c = c → p.f = f ∧ p.built = b := by
    intro p hp e
    rw [Known, e, hc] at hp
    simp at hp
    exact ⟨hp.1.symm, hp.2.symm⟩
  constructor
  · rintro ⟨p, hp, e⟩
    obtain ⟨g, hg⟩ := List.mem_iff_getElem?.1 hp
    have hA : Alive w g p := hg
    have hK := hA.known H.known
    have hc' := same p hK e
    by_cases hq : ∀ (t : Nat) pc, w.threads[t]? = some pc → active pc ≠ some c
    · exact ((H.quiet c f b hc hq).1 (hc'.1 ▸ alive_pos hA)).2
    · simp only [ne_eq, Classical.not_forall, Classical.not_not, exists_prop] at hq
      obtain ⟨t, pc, ht, ha⟩ := hq
      have hG := H.good t pc ht
      have pos : 0 < alive w c := hc'.1 ▸ alive_pos hA
      cases pc with
      | idle => simp [active] at ha
      | incRead g q d =>
        have e1 : q.c = c := by simpa [active] using ha
        rw [← (field q (hG.1.known H.known) e1).1]
        exact hG.2.2.2
      | incWrite g q v d =>
        have e1 : q.c = c := by simpa [active] using ha
        rw [← (field q (hG.1.known H.known) e1).1]
        exact hG.2.2.2.1
      | decRead q n | test q n =>
        have e1 : q.c = c := by simpa [active] using ha
        rw [← (field q hG.1 e1).1]
        exact hG.2.2.2
      | decWrite q v n =>
        have e1 : q.c = c := by simpa [active] using ha
        rw [← (field q hG.1 e1).1]
        exact hG.2.2.2.1
      | restore q n | delete q n =>
        have e1 : q.c = c := by simpa [active] using ha
        have := hG.2.2.2.1
        rw [e1] at this
        omega
  · intro hn hs
    have hq : ∀ (t : Nat) pc, w.threads[t]? = some pc → active pc ≠ some c := fun t pc ht ha =>
      hs pc (List.mem_of_getElem? ht) c (active_uses ha) b hc
    refine (H.quiet c f b hc hq).2 ?_
    unfold alive
    rw [List.countP_eq_zero]
    intro o ho
    cases o with
    | none => simp
    | some p =>
      intro e
      exact hn ⟨p, ho, (field p (H.known p ho) (by simpa using e)).1⟩

/-! ### What goes wrong when operations on handles to the same field overlap -/

instance (w : World) (h : Nat) (p : Hdl) : Decidable (Alive w h p) := inferInstanceAs (Decidable (_ = _))
instance (w : World) (t : Nat) : Decidable (Idle w t) := inferInstanceAs (Decidable (_ = _))
instance (w : World) (c : Nat) : Decidable (Busy w c) := inferInstanceAs (Decidable (∃ pc ∈ w.threads, c ∈ uses pc))

instance (w : World) (g : Nat) (P : Hdl → Prop) [DecidablePred P] : Decidable (∃ q, Alive w g q ∧ P q) :=
  match h : w.handles[g]? with
  | some (some q) => decidable_of_iff (P q) ⟨fun hp => ⟨q, h, hp⟩, fun ⟨q', h', hp⟩ => by
      rw [Alive, h] at h'; cases h'; exact hp⟩
  | some none => isFalse fun ⟨q', h', _⟩ => by rw [Alive, h] at h'; cases h'
  | none => isFalse fun ⟨q', h', _⟩ => by rw [Alive, h] at h'; cases h'

/-- Checks `Sane` or `Apart` (`a = true`). -/
def check (a : Bool) (w : World) : Ev → Bool
  | .new f _ => decide (f ∉ w.wrapped.map Prod.fst)
  | .copy t g => decide (Idle w t) && decide (∃ q, Alive w g q ∧ (a = true → ¬ Busy w q.c))
  | .destroy t h => decide (Idle w t) && decide (∃ q, Alive w h q ∧ (a = true → ¬ Busy w q.c))
  | .assign t h g => decide (Idle w t) && decide (h ≠ g) && decide (∃ q, Alive w h q ∧ (a = true → ¬ Busy w q.c)) &&
      decide (∃ q, Alive w g q ∧ (a = true → ¬ Busy w q.c))
  | .go _ => true

def checkAll (a : Bool) (w : World) : List Ev → Bool
  | [] => true
  | e :: es => check a w e && match w.step e with
    | .ok w' => checkAll a w' es
    | _ => true

theorem respects_of_checkAll {ok : World → Ev → Prop} {a : Bool} (hok : ∀ w e, check a w e = true → ok w e) :
    ∀ (w : World) (es : List Ev), checkAll a w es = true → Respects ok w es
  | _, [], _ => trivial
  | w, e :: es, h => by
    simp only [checkAll, Bool.and_eq_true] at h
    refine ⟨hok w e h.1, ?_⟩
    revert h
    cases w.step e with
    | ok w' => exact fun h => respects_of_checkAll hok w' es h.2
    | _ => exact fun _ => trivial

theorem sane_of_check (w : World) (e : Ev) (h : check false w e = true) : Sane w e := by
  cases e with
  | new f b =>
    simp only [check, decide_eq_true_eq] at h
    exact h
  | copy t g =>
    simp only [check, Bool.and_eq_true, decide_eq_true_eq] at h
    exact ⟨h.1, h.2.imp fun _ x => x.1⟩
  | destroy t g =>
    simp only [check, Bool.and_eq_true, decide_eq_true_eq] at h
    exact ⟨h.1, h.2.imp fun _ x => x.1⟩
  | assign t a b =>
    simp only [check, Bool.and_eq_true, decide_eq_true_eq] at h
    obtain ⟨⟨⟨h1, h2⟩, p, h3⟩, q, h4⟩ := h
    exact ⟨h1, h2, p, q, h3.1, h4.1⟩
  | go t => trivial

theorem apart_of_check (w : World) (e : Ev) (h : check true w e = true) : Apart w e := by
  cases e with
  | new f b =>
    simp only [check, decide_eq_true_eq] at h
    exact h
  | copy t g =>
    simp only [check, Bool.and_eq_true, decide_eq_true_eq] at h
    exact ⟨h.1, h.2.imp fun _ x => ⟨x.1, x.2 trivial⟩⟩
  | destroy t g =>
    simp only [check, Bool.and_eq_true, decide_eq_true_eq] at h
    exact ⟨h.1, h.2.imp fun _ x => ⟨x.1, x.2 trivial⟩⟩
  | assign t a b =>
    simp only [check, Bool.and_eq_true, decide_eq_true_eq] at h
    obtain ⟨⟨⟨h1, h2⟩, p, h3⟩, q, h4⟩ := h
    exact ⟨h1, h2, p, q, h3.1, h4.1, h3.2 trivial, h4.2 trivial⟩
  | go t => trivial

/-- Two threads copy a handle at the same time and one increment is lost. -/
def twoCopies : List Ev :=
  [.new 7 true, .copy 0 0, .copy 1 0, .go 0, .go 1, .go 0, .go 1]

/-- Then, one after the other, two of the three handles are destroyed. -/
def twoDestroyed : List Ev :=
  [.destroy 0 0, .go 0, .go 0, .go 0, .destroy 1 1, .go 1, .go 1, .go 1, .go 1, .go 1]

/-- Two threads destroy the two handles to a field at the same time, and one decrement is lost. -/
def lostDrop : List Ev :=
  [.new 7 true, .copy 0 0, .go 0, .go 0, .destroy 0 0, .destroy 1 1, .go 0, .go 1, .go 0, .go 1, .go 0, .go 1]

/-- Two threads destroy the two handles to a field, and both see the counter at zero. -/
def bothZero : List Ev :=
  [.new 7 true, .copy 0 0, .go 0, .go 0, .destroy 0 0, .destroy 1 1, .go 0, .go 0, .go 1, .go 1, .go 0, .go 1,
   .go 0, .go 1]

/-- Handles to the same field may not be copied by two threads at once: a schedule in which every handle used is alive releases
the field while a handle to it is still alive, and destroying that handle is undefined. -/
theorem _root_.SpatialOps.C69_overlapping_copies_release_early :
    ∃ es w, Respects Sane (init 2) es ∧ (init 2).run es = .ok w ∧ Alive w 2 ⟨7, 0, true⟩ ∧ Referenced w 7 ∧
      w.deleted = [7] ∧ w.restored = [7] ∧ Sane w (.destroy 0 2) ∧ w.run [.destroy 0 2, .go 0] = .ub := by
  refine ⟨twoCopies ++ twoDestroyed, _, respects_of_checkAll sane_of_check _ _ (by decide +kernel), rfl, rfl,
    ⟨⟨7, 0, true⟩, by decide, rfl⟩, rfl, rfl, sane_of_check _ _ (by decide +kernel), by decide +kernel⟩

/-- Handles to the same field may not be destroyed by two threads at once: the field can stay unreleased for good. -/
theorem _root_.SpatialOps.C69_overlapping_drops_leak :
    ∃ es w, Respects Sane (init 2) es ∧ (init 2).run es = .ok w ∧ ¬ Referenced w 7 ∧ (∀ pc ∈ w.threads, pc = .idle) ∧
      (7, true) ∈ w.wrapped ∧ w.deleted = [] ∧ w.restored = [] := by
  refine ⟨lostDrop, _, respects_of_checkAll sane_of_check _ _ (by decide +kernel), rfl, ?_, by decide, by decide, rfl, rfl⟩
  rintro ⟨p, hp, -⟩
  change some p ∈ [none, none] at hp
  simp at hp

/-- … or its memory is given to the store twice, and the field is deleted twice. -/
theorem _root_.SpatialOps.C69_overlapping_drops_release_twice :
    ∃ es w, Respects Sane (init 2) es ∧ (init 2).run es = .ok w ∧ w.restored = [7, 7] ∧
      w.run [.go 0, .go 1] = .ub := by
  exact ⟨bothZero, _, respects_of_checkAll sane_of_check _ _ (by decide +kernel), rfl, rfl, by decide +kernel⟩

/-! ### Examples -/

/-- Two threads work at the same time on handles to two fields: each copies its handle, destroys the first and
then the copy; the first then assigns across fields. -/
def mixed : List Ev :=
  [.new 7 true, .new 8 false, .copy 0 0, .copy 1 1, .go 0, .go 1, .go 1, .go 0,
   .destroy 0 0, .destroy 1 1, .go 1, .go 0, .go 0, .go 1, .go 0, .go 1,
   .new 9 true, .assign 0 4 2, .go 0, .go 0, .go 0, .go 0, .go 0, .go 0, .go 0, .destroy 1 3, .go 1]

example : ∃ w, (init 2).run mixed = .ok w ∧ ReleasedExactlyOnce w :=
  C69_apart 2 mixed (respects_of_checkAll apart_of_check _ _ (by decide +kernel))

example : ∃ w, (init 2).run mixed = .ok w ∧ w.deleted = [9] ∧ w.restored = [9] ∧ Referenced w 8 := by
  refine ⟨_, rfl, rfl, rfl, ⟨8, 1, false⟩, by decide, rfl⟩

end PtrMT
end SpatialOps
