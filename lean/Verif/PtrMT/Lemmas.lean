import Verif.PtrMT.Spec

/-!
# Invariant for field pointers used by several threads
-/

namespace SpatialOps
namespace PtrMT

open World

/-- The number of handles with counter `c`. -/
def alive (w : World) (c : Nat) : Nat := w.handles.countP fun o => match o with
  | some p => p.c == c
  | none => false

/-- The counter an operation is changing now. -/
def active : Pc → Option Nat
  | .idle => none
  | .incRead _ q _ | .incWrite _ q _ _ => some q.c
  | .decRead p _ | .decWrite p _ _ | .test p _ | .restore p _ | .delete p _ => some p.c

/-- The variable an assignment in progress writes to. -/
def dsts : Pc → List Nat
  | .idle => []
  | .incRead _ _ d | .incWrite _ _ _ d => d.toList
  | .decRead _ n | .decWrite _ _ n | .test _ n | .restore _ n | .delete _ n => n.toList.map (·.h)

def Known (w : World) (p : Hdl) : Prop := w.wrapped[p.c]? = some (p.f, p.built)

def Clean (w : World) (f : Nat) : Prop := w.deleted.count f = 0 ∧ w.restored.count f = 0

def Cnt (w : World) (c : Nat) (v : Int) : Prop := w.counters[c]? = some (some v)

def Rest (w : World) (c f : Nat) (b : Bool) : Prop :=
  (0 < alive w c → Cnt w c (alive w c) ∧ Clean w f) ∧
  (alive w c = 0 → w.deleted.count f = 1 ∧ w.restored.count f = if b then 1 else 0)

def NextOk (w : World) : Option Next → Prop
  | none => True
  | some n => Alive w n.g n.q ∧ w.handles[n.h]? = some none

def DstOk (w : World) : Option Nat → Prop
  | none => True
  | some h => w.handles[h]? = some none

def Good (w : World) : Pc → Prop
  | .idle => True
  | .incRead g q d => Alive w g q ∧ DstOk w d ∧ Cnt w q.c (alive w q.c) ∧ Clean w q.f
  | .incWrite g q v d => Alive w g q ∧ DstOk w d ∧ Cnt w q.c (alive w q.c) ∧ Clean w q.f ∧ v = alive w q.c
  | .decRead p n => Known w p ∧ NextOk w n ∧ Cnt w p.c (alive w p.c + 1) ∧ Clean w p.f
  | .decWrite p v n => Known w p ∧ NextOk w n ∧ Cnt w p.c (alive w p.c + 1) ∧ Clean w p.f ∧ v = alive w p.c + 1
  | .test p n => Known w p ∧ NextOk w n ∧ Cnt w p.c (alive w p.c) ∧ Clean w p.f
  | .restore p n => Known w p ∧ NextOk w n ∧ Cnt w p.c 0 ∧ alive w p.c = 0 ∧ Clean w p.f ∧ p.built = true
  | .delete p n => Known w p ∧ NextOk w n ∧ Cnt w p.c 0 ∧ alive w p.c = 0 ∧ w.deleted.count p.f = 0 ∧
      w.restored.count p.f = if p.built then 1 else 0

structure Inv (w : World) : Prop where
  len : w.counters.length = w.wrapped.length
  nodup : (w.wrapped.map Prod.fst).Nodup
  known : ∀ p, some p ∈ w.handles → Known w p
  excl : ∀ (t t' : Nat) pc pc', w.threads[t]? = some pc → w.threads[t']? = some pc' → t ≠ t' →
    (∀ c ∈ uses pc, c ∉ uses pc') ∧ (∀ h ∈ dsts pc, h ∉ dsts pc')
  good : ∀ (t : Nat) pc, w.threads[t]? = some pc → Good w pc
  quiet : ∀ c f b, w.wrapped[c]? = some (f, b) → (∀ (t : Nat) pc, w.threads[t]? = some pc → active pc ≠ some c) →
    Rest w c f b
  fresh : ∀ f, f ∉ w.wrapped.map Prod.fst → Clean w f

/-- What a step on counter `c` leaves alone; it may fill the variables in `S`. -/
structure Frame (w w' : World) (c : Nat) (S : List Nat) : Prop where
  len : w'.counters.length = w.counters.length
  cnt : ∀ c', c' ≠ c → w'.counters[c']? = w.counters[c']?
  ali : ∀ c', c' ≠ c → alive w' c' = alive w c'
  rel : ∀ f, (∀ b, w.wrapped[c]? ≠ some (f, b)) → w'.deleted.count f = w.deleted.count f ∧
    w'.restored.count f = w.restored.count f
  src : ∀ (i : Nat) q, q.c ≠ c → w.handles[i]? = some (some q) → w'.handles[i]? = some (some q)
  dst : ∀ (i : Nat), i ∉ S → w.handles[i]? = some none → w'.handles[i]? = some none
  wra : w'.wrapped = w.wrapped
  thr : w'.threads = w.threads

theorem wrapped_inj {w : World} (hn : (w.wrapped.map Prod.fst).Nodup) {i j f : Nat} {b b' : Bool}
    (h : w.wrapped[i]? = some (f, b)) (h' : w.wrapped[j]? = some (f, b')) : i = j := by
  have e : (w.wrapped.map Prod.fst)[i]? = some f := by simp [h]
  have e' : (w.wrapped.map Prod.fst)[j]? = some f := by simp [h']
  obtain ⟨hi, _⟩ := List.getElem?_eq_some_iff.1 e
  exact (List.getElem?_inj hi hn).1 (e.trans e'.symm)

theorem Frame.clean {w w' : World} {c : Nat} {S : List Nat} (F : Frame w w' c S)
    (hn : (w.wrapped.map Prod.fst).Nodup) {c' f : Nat} {b : Bool} (hc : c' ≠ c) (hk : w.wrapped[c']? = some (f, b)) :
    w'.deleted.count f = w.deleted.count f ∧ w'.restored.count f = w.restored.count f :=
  F.rel f fun _ e => hc (wrapped_inj hn hk e)

theorem Frame.rest {w w' : World} {c : Nat} {S : List Nat} (F : Frame w w' c S)
    (hn : (w.wrapped.map Prod.fst).Nodup) {c' f : Nat} {b : Bool} (hc : c' ≠ c) (hk : w.wrapped[c']? = some (f, b))
    (h : Rest w c' f b) : Rest w' c' f b := by
  have hr := F.clean hn hc hk
  have := F.ali c' hc
  have := F.cnt c' hc
  simp_all [Rest, Cnt, Clean]

theorem Alive.known {w : World} (hk : ∀ p, some p ∈ w.handles → Known w p) {g : Nat} {q : Hdl} (h : Alive w g q) :
    Known w q := hk q (List.mem_of_getElem? h)

theorem Frame.next {w w' : World} {c : Nat} {S : List Nat} (F : Frame w w' c S) {n : Option Next}
    (hu : ∀ x, n = some x → x.q.c ≠ c) (hd : ∀ x, n = some x → x.h ∉ S) (h : NextOk w n) : NextOk w' n := by
  cases n with
  | none => trivial
  | some x => exact ⟨F.src _ _ (hu x rfl) h.1, F.dst _ (hd x rfl) h.2⟩

theorem Frame.dstOk {w w' : World} {c : Nat} {S : List Nat} (F : Frame w w' c S) {n : Option Nat}
    (hd : ∀ x, n = some x → x ∉ S) (h : DstOk w n) : DstOk w' n := by
  cases n with
  | none => trivial
  | some x => exact F.dst _ (hd x rfl) h

theorem Frame.good {w w' : World} {c : Nat} {S : List Nat} (F : Frame w w' c S)
    (hn : (w.wrapped.map Prod.fst).Nodup) (hk : ∀ p, some p ∈ w.handles → Known w p) {pc : Pc}
    (hu : c ∉ uses pc) (hd : ∀ h ∈ dsts pc, h ∉ S) (h : Good w pc) : Good w' pc := by
  have K : ∀ p : Hdl, Known w p → Known w' p := fun p hp => by simpa [Known, F.wra] using hp
  cases pc with
  | idle => trivial
  | incRead g q d =>
    have hc : q.c ≠ c := fun e => hu (by simp [uses, e])
    have hr := F.clean hn hc (h.1.known hk)
    refine ⟨F.src _ _ hc h.1, F.dstOk (fun x e => hd x (by simp [dsts, e])) h.2.1, ?_⟩
    have := h.2.2; have := F.ali _ hc; have := F.cnt _ hc
    simp_all [Cnt, Clean]
  | incWrite g q v d =>
    have hc : q.c ≠ c := fun e => hu (by simp [uses, e])
    have hr := F.clean hn hc (h.1.known hk)
    refine ⟨F.src _ _ hc h.1, F.dstOk (fun x e => hd x (by simp [dsts, e])) h.2.1, ?_⟩
    have := h.2.2; have := F.ali _ hc; have := F.cnt _ hc
    simp_all [Cnt, Clean]
  | decRead p n | decWrite p v n | test p n | restore p n | delete p n =>
    have hc : p.c ≠ c := fun e => hu (by simp [uses, e])
    have hr := F.clean hn hc h.1
    refine ⟨K _ h.1, F.next (fun x e e' => hu (by simp [uses, e, e'])) (fun x e => hd _ (by simp [dsts, e])) h.2.1, ?_⟩
    have := h.2.2; have := F.ali _ hc; have := F.cnt _ hc
    simp_all [Cnt, Clean]

/-- `Good` and the rest do not look at the other threads. -/
theorem good_setPc (w : World) (t : Nat) (pc pc' : Pc) : Good (w.setPc t pc') pc ↔ Good w pc := by
  have hn : ∀ n, NextOk (w.setPc t pc') n ↔ NextOk w n := fun n => by cases n <;> exact Iff.rfl
  have hd : ∀ n, DstOk (w.setPc t pc') n ↔ DstOk w n := fun n => by cases n <;> exact Iff.rfl
  cases pc <;> simp only [Good, hn, hd] <;> exact Iff.rfl

theorem rest_setPc (w : World) (t : Nat) (pc : Pc) (c f : Nat) (b : Bool) :
    Rest (w.setPc t pc) c f b ↔ Rest w c f b := by
  simp [Rest, setPc, Cnt, Clean, alive]

/-- Thread `t` moves from `pc` to `pc'`, working on counter `c`. -/
theorem Inv.move {w w' : World} (H : Inv w) {t c : Nat} {S : List Nat} {pc pc' : Pc} (ht : w.threads[t]? = some pc)
    (F : Frame w w' c S)
    (hc : ∀ (t' : Nat) pc'', w.threads[t']? = some pc'' → t' ≠ t → c ∉ uses pc'')
    (hS : ∀ (t' : Nat) pc'', w.threads[t']? = some pc'' → t' ≠ t → ∀ h ∈ dsts pc'', h ∉ S)
    (hk : ∀ p, some p ∈ w'.handles → Known w p)
    (ha : active pc = none ∨ active pc = some c)
    (hx : ∀ (t' : Nat) pc'', w.threads[t']? = some pc'' → t' ≠ t →
      (∀ c ∈ uses pc', c ∉ uses pc'') ∧ (∀ h ∈ dsts pc', h ∉ dsts pc''))
    (hg : Good w' pc')
    (hr : active pc' ≠ some c → ∀ f b, w.wrapped[c]? = some (f, b) → Rest w' c f b)
    (hw : ∃ f b, w.wrapped[c]? = some (f, b)) :
    Inv (w'.setPc t pc') := by
  have htl : t < w.threads.length := (List.getElem?_eq_some_iff.1 ht).1
  have other : ∀ (t' : Nat) pc'', (w'.setPc t pc').threads[t']? = some pc'' → t' ≠ t → w.threads[t']? = some pc'' := by
    intro t' pc'' h hne
    simpa [setPc, F.thr, List.getElem?_set_ne (Ne.symm hne)] using h
  have self : ∀ pc'', (w'.setPc t pc').threads[t]? = some pc'' → pc'' = pc' := by
    intro pc'' h
    simpa [setPc, F.thr, List.getElem?_set_self htl, eq_comm] using h
  constructor
  · simpa [setPc, F.wra] using F.len.trans H.len
  · simpa [setPc, F.wra] using H.nodup
  · intro p hp
    have := hk p hp
    simpa [setPc, Known, F.wra] using this
  · intro t1 t2 p1 p2 h1 h2 hne
    by_cases e1 : t1 = t
    · subst e1
      cases self _ h1
      exact hx t2 p2 (other _ _ h2 (Ne.symm hne)) (Ne.symm hne)
    · by_cases e2 : t2 = t
      · subst e2
        cases self _ h2
        have := hx t1 p1 (other _ _ h1 e1) e1
        exact ⟨fun c a b => this.1 c b a, fun c a b => this.2 c b a⟩
      · exact H.excl t1 t2 p1 p2 (other _ _ h1 e1) (other _ _ h2 e2) hne
  · intro t1 p1 h1
    rw [good_setPc]
    by_cases e1 : t1 = t
    · subst e1
      cases self _ h1
      exact hg
    · have h1' := other _ _ h1 e1
      exact F.good H.nodup H.known (hc _ _ h1' e1) (hS _ _ h1' e1) (H.good _ _ h1')
  · intro c' f b hwr hq
    rw [rest_setPc]
    have hwr' : w.wrapped[c']? = some (f, b) := by simpa [setPc, F.wra] using hwr
    by_cases e : c' = c
    · subst e
      refine hr (hq t pc' ?_) f b hwr'
      simp [setPc, F.thr, List.getElem?_set_self htl]
    · refine F.rest H.nodup e hwr' (H.quiet c' f b hwr' fun t1 p1 h1 => ?_)
      by_cases e1 : t1 = t
      · subst e1
        rw [ht] at h1; cases h1
        rcases ha with ha | ha
        · simp [ha]
        · simpa [ha] using Ne.symm e
      · exact hq t1 p1 (by simpa [setPc, F.thr, List.getElem?_set_ne (Ne.symm e1)] using h1)
  · intro f hf
    have hf' : f ∉ w.wrapped.map Prod.fst := by simpa [setPc, F.wra] using hf
    have h0 := H.fresh f hf'
    have := F.rel f fun b e => hf' (List.mem_map.2 ⟨_, List.mem_of_getElem? e, rfl⟩)
    simp_all [Clean, setPc]

/-- Nothing changed but the place of the thread. -/
theorem Frame.refl (w : World) (c : Nat) : Frame w w c [] :=
  ⟨rfl, fun _ _ => rfl, fun _ _ => rfl, fun _ _ => ⟨rfl, rfl⟩, fun _ _ _ h => h, fun _ _ h => h, rfl, rfl⟩

theorem alive_pos {w : World} {g : Nat} {q : Hdl} (h : Alive w g q) : 0 < alive w q.c := by
  unfold alive
  rw [List.countP_pos_iff]
  exact ⟨_, List.mem_of_getElem? h, by simp⟩

theorem alive_take {w : World} {h : Nat} {p : Hdl} (hp : Alive w h p) (c : Nat) :
    alive { w with handles := w.handles.set h none } c + (if p.c = c then 1 else 0) = alive w c := by
  obtain ⟨hl, e⟩ := List.getElem?_eq_some_iff.1 hp
  have pos : p.c = c → 0 < alive w c := fun e => e ▸ alive_pos hp
  unfold alive at *
  simp only [List.countP_set hl, e]
  by_cases hc : p.c = c
  · have := pos hc
    simp [hc]; omega
  · simp [hc]

theorem alive_fill {w : World} {h : Nat} (hp : w.handles[h]? = some none) (q : Hdl) (c : Nat) :
    alive { w with handles := w.handles.set h (some q) } c = alive w c + (if q.c = c then 1 else 0) := by
  obtain ⟨hl, e⟩ := List.getElem?_eq_some_iff.1 hp
  unfold alive
  simp only [List.countP_set hl, e]
  by_cases hc : q.c = c <;> simp [hc]

theorem alive_push (w : World) (q : Hdl) (c : Nat) :
    alive { w with handles := w.handles ++ [some q] } c = alive w c + (if q.c = c then 1 else 0) := by
  unfold alive
  by_cases hc : q.c = c <;> simp [hc]

theorem known_take {w : World} (H : Inv w) (h : Nat) : ∀ p, some p ∈ w.handles.set h none → Known w p := by
  intro p hp
  rcases List.mem_or_eq_of_mem_set hp with hp | hp
  · exact H.known p hp
  · cases hp

/-- Starting to drop the handle `h`: its variable is emptied. -/
theorem Frame.take {w : World} {h : Nat} {p : Hdl} (hp : Alive w h p) :
    Frame w { w with handles := w.handles.set h none } p.c [] where
  len := rfl
  cnt _ _ := rfl
  ali c' hc := by have := alive_take hp c'; simpa [Ne.symm hc] using this
  rel _ _ := ⟨rfl, rfl⟩
  src i q hq hi := by
    have : h ≠ i := by
      rintro rfl
      rw [Alive, hi] at hp
      simp at hp
      exact hq (by rw [hp])
    simpa [List.getElem?_set_ne this] using hi
  dst i _ hi := by
    have : h ≠ i := by
      rintro rfl
      rw [Alive, hi] at hp
      simp at hp
    simpa [List.getElem?_set_ne this] using hi
  wra := rfl
  thr := rfl

theorem not_busy {w : World} {c : Nat} (h : ¬ Busy w c) {t : Nat} {pc : Pc} (ht : w.threads[t]? = some pc) :
    c ∉ uses pc := fun e => h ⟨pc, List.mem_of_getElem? ht, e⟩

theorem active_uses {pc : Pc} {c : Nat} (h : active pc = some c) : c ∈ uses pc := by
  cases pc <;> simp_all [active, uses]

/-- A handle whose counter no operation works on. -/
theorem Inv.rest {w : World} (H : Inv w) {g : Nat} {q : Hdl} (hq : Alive w g q)
    (hb : ∀ (t : Nat) pc, w.threads[t]? = some pc → active pc ≠ some q.c) :
    Cnt w q.c (alive w q.c) ∧ Clean w q.f :=
  (H.quiet _ _ _ (hq.known H.known) hb).1 (alive_pos hq)

theorem dsts_empty {w : World} {pc : Pc} (h : Good w pc) {x : Nat} (hx : x ∈ dsts pc) : w.handles[x]? = some none := by
  cases pc with
  | idle => simp [dsts] at hx
  | incRead g q d | incWrite g q v d =>
    cases d with
    | none => simp [dsts] at hx
    | some y =>
      simp [dsts] at hx; subst hx
      exact h.2.1
  | decRead p n | decWrite p v n | test p n | restore p n | delete p n =>
    cases n with
    | none => simp [dsts] at hx
    | some y =>
      simp [dsts] at hx; subst hx
      exact h.2.1.2

theorem handle_alive {w : World} {h : Nat} {p : Hdl} (hp : Alive w h p) : w.handle h = .ok p := by
  unfold handle
  rw [Alive] at hp
  rw [hp]

theorem load_ok {w : World} {c : Nat} {v : Int} (h : Cnt w c v) : w.load c = .ok v := by
  unfold load
  rw [Cnt] at h
  rw [h]

theorem store_ok {w : World} {c : Nat} {v : Int} (h : Cnt w c v) (v' : Int) :
    w.store c v' = .ok { w with counters := w.counters.set c (some v') } := by
  unfold store
  rw [Cnt] at h
  rw [h]

/-- Writing the counter and filling handle variables. -/
theorem Frame.write (w : World) (c : Nat) (o : Option Int) : Frame w { w with counters := w.counters.set c o } c [] where
  len := by simp
  cnt c' hc := by simp [List.getElem?_set_ne (Ne.symm hc)]
  ali _ _ := rfl
  rel _ _ := ⟨rfl, rfl⟩
  src _ _ _ h := h
  dst _ _ h := h
  wra := rfl
  thr := rfl

theorem cnt_write {w : World} {c : Nat} {v : Int} (h : Cnt w c v) (v' : Int) :
    Cnt { w with counters := w.counters.set c (some v') } c v' := by
  obtain ⟨hl, _⟩ := List.getElem?_eq_some_iff.1 h
  simp [Cnt, List.getElem?_set_self hl]

/-- Going on after the old reference was dropped. -/
theorem Inv.after {w w' : World} (H : Inv w) {t : Nat} {pc : Pc} {p : Hdl} {n : Option Next}
    (ht : w.threads[t]? = some pc) (hu : uses pc = p.c :: n.toList.map (·.q.c)) (hds : dsts pc = n.toList.map (·.h))
    (ha : active pc = some p.c) (hp : Known w p) (hn : NextOk w n)
    (F : Frame w w' p.c []) (hh : w'.handles = w.handles) (hr : Rest w' p.c p.f p.built) :
    Inv (w'.setPc t (after n)) := by
  have hx := fun (t' : Nat) pc'' h (hne : t' ≠ t) => H.excl t t' pc pc'' ht h (Ne.symm hne)
  refine H.move (c := p.c) (S := []) (pc := pc) ht F ?_ ?_ ?_ (Or.inr ha) ?_ ?_ ?_ ⟨_, _, hp⟩
  · intro t' pc'' h hne
    exact (hx t' pc'' h hne).1 _ (by simp [hu])
  · simp
  · rw [hh]; exact H.known
  · intro t' pc'' h hne
    have := hx t' pc'' h hne
    rw [hu, hds] at this
    cases n with
    | none => simp [World.after, uses, dsts]
    | some n =>
      exact ⟨fun c hc => this.1 c (List.mem_cons_of_mem _ hc), fun x hx => this.2 x hx⟩
  · cases n with
    | none => trivial
    | some n =>
      have hA : Alive w' n.g n.q := by
        have := hn.1
        simpa [Alive, hh] using this
      refine ⟨hA, by simpa [DstOk, hh] using hn.2, ?_⟩
      by_cases e : n.q.c = p.c
      · have hK := hn.1.known H.known
        rw [Known, e, hp] at hK
        simp at hK
        rw [e, ← hK.1]
        exact hr.1 (e ▸ alive_pos hA)
      · refine (F.rest H.nodup e (hn.1.known H.known) (H.quiet _ _ _ (hn.1.known H.known) ?_)).1 (alive_pos hA)
        intro t1 p1 h1 h2
        by_cases e1 : t1 = t
        · subst e1
          rw [ht] at h1; cases h1
          rw [ha] at h2
          exact e (by simpa using h2.symm)
        · exact (hx t1 p1 h1 e1).1 n.q.c (by simp [hu]) (active_uses h2)
  · intro _ f b hw
    rw [Known, hw] at hp
    simp at hp
    rw [hp.1, hp.2]
    exact hr

/-- The step of a thread in an operation. -/
theorem Inv.go {w : World} (H : Inv w) (t : Nat) : ∃ w', w.step (.go t) = .ok w' ∧ Inv w' := by
  simp only [step]
  cases ht : w.threads[t]? with
  | none => exact ⟨w, rfl, H⟩
  | some pc =>
  have hg := H.good t pc ht
  have hx := fun (t' : Nat) pc'' h (hne : t' ≠ t) => H.excl t t' pc pc'' ht h (Ne.symm hne)
  cases pc with
  | idle => exact ⟨w, rfl, H⟩
  | incRead g q d =>
    refine ⟨_, by simp only [load_ok hg.2.2.1, Outcome.ok_bind]; rfl, ?_⟩
    refine H.move (c := q.c) (S := []) ht (Frame.refl w q.c) ?_ (by simp) H.known (Or.inr rfl) ?_ ?_ ?_
      ⟨_, _, hg.1.known H.known⟩
    · exact fun t' pc'' h hne => (hx t' pc'' h hne).1 _ (by simp [uses])
    · exact fun t' pc'' h hne => hx t' pc'' h hne
    · exact ⟨hg.1, hg.2.1, hg.2.2.1, hg.2.2.2, rfl⟩
    · simp [active]
  | incWrite g q v d =>
    obtain ⟨hA, hD, hC, hcl, hv⟩ := hg
    have hK := hA.known H.known
    have hex : ∀ (t' : Nat) pc'', w.threads[t']? = some pc'' → t' ≠ t → q.c ∉ uses pc'' :=
      fun t' pc'' h hne => (hx t' pc'' h hne).1 _ (by simp [uses])
    have F0 := Frame.write w q.c (some (v + 1))
    have hC' := cnt_write hC (v + 1)
    have hrest : ∀ w' : World, alive w' q.c = alive w q.c + 1 → w'.counters = w.counters.set q.c (some (v + 1)) →
        w'.deleted = w.deleted → w'.restored = w.restored → ∀ f b, w.wrapped[q.c]? = some (f, b) → Rest w' q.c f b := by
      intro w' h1 h2 h3 h4 f b hw
      rw [Known, hw] at hK
      simp at hK
      refine ⟨fun _ => ⟨?_, ?_⟩, fun h => by omega⟩
      · have : (alive w' q.c : Int) = v + 1 := by omega
        rw [this, Cnt, h2]
        exact hC'
      · rw [hK.1]
        simpa [Clean, h3, h4] using hcl
    cases d with
    | none =>
      refine ⟨_, by simp only [store_ok hC, Outcome.ok_bind]; rfl, ?_⟩
      refine H.move (c := q.c) (S := []) ht ?_ hex (by simp) ?_ (Or.inr rfl) ?_ ?_ ?_ ⟨_, _, hK⟩
      · refine ⟨F0.len, F0.cnt, ?_, F0.rel, ?_, ?_, rfl, rfl⟩
        · intro c' hc
          have := alive_push w q c'
          simp only [Ne.symm hc, if_false] at this
          exact this
        · intro i x _ h
          obtain ⟨hl, _⟩ := List.getElem?_eq_some_iff.1 h
          simpa [List.getElem?_append_left hl] using h
        · intro i _ h
          obtain ⟨hl, _⟩ := List.getElem?_eq_some_iff.1 h
          simpa [List.getElem?_append_left hl] using h
      · intro x hx
        simp at hx
        rcases hx with hx | hx
        · exact H.known x hx
        · rw [hx]; exact hK
      · simp [uses, dsts]
      · trivial
      · intro _
        refine hrest _ ?_ rfl rfl rfl
        have := alive_push w q q.c
        simp only [if_true] at this
        exact this
    | some h0 =>
      refine ⟨_, by simp only [store_ok hC, Outcome.ok_bind]; rfl, ?_⟩
      refine H.move (c := q.c) (S := [h0]) ht ?_ hex ?_ ?_ (Or.inr rfl) ?_ ?_ ?_ ⟨_, _, hK⟩
      · refine ⟨F0.len, F0.cnt, ?_, F0.rel, ?_, ?_, rfl, rfl⟩
        · intro c' hc
          have := alive_fill hD q c'
          simp only [Ne.symm hc, if_false] at this
          exact this
        · intro i x _ h
          have hne : h0 ≠ i := by
            rintro rfl
            rw [DstOk, h] at hD
            simp at hD
          simpa [List.getElem?_set_ne hne] using h
        · intro i hi h
          have hne : h0 ≠ i := by
            rintro rfl
            exact hi (by simp)
          simpa [List.getElem?_set_ne hne] using h
      · intro t' pc'' h hne x hx1 hx2
        simp at hx2
        subst hx2
        exact (hx t' pc'' h hne).2 x (by simp [dsts]) hx1
      · intro x hx
        rcases List.mem_or_eq_of_mem_set hx with hx | hx
        · exact H.known x hx
        · cases hx; exact hK
      · simp [uses, dsts]
      · trivial
      · intro _
        refine hrest _ ?_ rfl rfl rfl
        have := alive_fill hD q q.c
        simp only [if_true] at this
        exact this
  | decRead p n =>
    refine ⟨_, by simp only [load_ok hg.2.2.1, Outcome.ok_bind]; rfl, ?_⟩
    refine H.move (c := p.c) (S := []) ht (Frame.refl w p.c) ?_ (by simp) H.known (Or.inr rfl) ?_ ?_ ?_
      ⟨_, _, hg.1⟩
    · exact fun t' pc'' h hne => (hx t' pc'' h hne).1 _ (by simp [uses])
    · exact fun t' pc'' h hne => hx t' pc'' h hne
    · exact ⟨hg.1, hg.2.1, hg.2.2.1, hg.2.2.2, rfl⟩
    · simp [active]
  | decWrite p v n =>
    obtain ⟨hK, hN, hC, hcl, hv⟩ := hg
    refine ⟨_, by simp only [store_ok hC, Outcome.ok_bind]; rfl, ?_⟩
    refine H.move (c := p.c) (S := []) ht (Frame.write w p.c _) ?_ (by simp) H.known (Or.inr rfl) ?_ ?_ ?_
      ⟨_, _, hK⟩
    · exact fun t' pc'' h hne => (hx t' pc'' h hne).1 _ (by simp [uses])
    · exact fun t' pc'' h hne => hx t' pc'' h hne
    · refine ⟨hK, ?_, ?_, hcl⟩
      · cases n
        · trivial
        · exact hN
      · have e : v - 1 = (alive w p.c : Int) := by omega
        have := cnt_write hC (v - 1)
        rw [e] at this ⊢
        exact this
    · simp [active]
  | test p n =>
    obtain ⟨hK, hN, hC, hcl⟩ := hg
    refine ⟨_, by simp only [load_ok hC, Outcome.ok_bind]; rfl, ?_⟩
    by_cases h0 : alive w p.c = 0
    · have hC0 : Cnt w p.c 0 := by simpa [h0] using hC
      simp only [h0, Int.natCast_zero, if_true]
      by_cases hb : p.built
      · simp only [hb, if_true]
        refine H.move (c := p.c) (S := []) ht (Frame.refl w p.c) ?_ (by simp) H.known (Or.inr rfl) ?_ ?_ ?_
          ⟨_, _, hK⟩
        · exact fun t' pc'' h hne => (hx t' pc'' h hne).1 _ (by simp [uses])
        · exact fun t' pc'' h hne => hx t' pc'' h hne
        · exact ⟨hK, hN, hC0, h0, hcl, hb⟩
        · simp [active]
      · simp only [hb]
        refine H.move (c := p.c) (S := []) ht (Frame.refl w p.c) ?_ (by simp) H.known (Or.inr rfl) ?_ ?_ ?_
          ⟨_, _, hK⟩
        · exact fun t' pc'' h hne => (hx t' pc'' h hne).1 _ (by simp [uses])
        · exact fun t' pc'' h hne => hx t' pc'' h hne
        · exact ⟨hK, hN, hC0, h0, hcl.1, by simpa [hb] using hcl.2⟩
        · simp [active]
    · have h1 : ¬ (alive w p.c : Int) = 0 := by omega
      simp only [h1, if_false]
      exact H.after (pc := .test p n) ht rfl rfl rfl hK hN (Frame.refl w p.c) rfl
        ⟨fun _ => ⟨hC, hcl⟩, fun h => absurd h h0⟩
  | restore p n =>
    obtain ⟨hK, hN, hC, h0, hcl, hb⟩ := hg
    have hd : p.f ∉ w.deleted := List.count_eq_zero.1 hcl.1
    refine ⟨_, by simp only [Outcome.ubUnless_true hd, Outcome.ok_bind]; rfl, ?_⟩
    refine H.move (c := p.c) (S := []) ht ?_ ?_ (by simp) H.known (Or.inr rfl) ?_ ?_ ?_
      ⟨_, _, hK⟩
    · refine ⟨rfl, fun _ _ => rfl, fun _ _ => rfl, fun f hf => ⟨rfl, ?_⟩, fun _ _ _ h => h, fun _ _ h => h, rfl, rfl⟩
      have : p.f ≠ f := fun e => hf p.built (e ▸ hK)
      simp [List.count_cons_of_ne this]
    · exact fun t' pc'' h hne => (hx t' pc'' h hne).1 _ (by simp [uses])
    · exact fun t' pc'' h hne => hx t' pc'' h hne
    · refine ⟨hK, ?_, hC, h0, hcl.1, ?_⟩
      · cases n
        · trivial
        · exact hN
      · have := hcl.2
        simp [hb, this]
    · simp [active]
  | delete p n =>
    obtain ⟨hK, hN, hC, h0, hcl, hr⟩ := hg
    have hd : p.f ∉ w.deleted := List.count_eq_zero.1 hcl
    refine ⟨_, by simp only [Outcome.ubUnless_true hd, load_ok hC, Outcome.ok_bind]; rfl, ?_⟩
    refine H.after (pc := .delete p n) ht rfl rfl rfl hK hN ?_ rfl ?_
    · refine ⟨by simp, (Frame.write w p.c none).cnt, fun _ _ => rfl, fun f hf => ⟨?_, rfl⟩, fun _ _ _ h => h,
        fun _ _ h => h, rfl, rfl⟩
      have : p.f ≠ f := fun e => hf p.built (e ▸ hK)
      simp [List.count_cons_of_ne this]
    · refine ⟨fun h => ?_, fun _ => ⟨?_, hr⟩⟩
      · have : alive w p.c = 0 := h0
        exact absurd h (by show ¬ 0 < alive w p.c; omega)
      · simp [hcl]

theorem Inv.init (N : Nat) : Inv (World.init N) := by
  have hi : ∀ (t : Nat) pc, (World.init N).threads[t]? = some pc → pc = .idle := by
    intro t pc h
    exact List.eq_of_mem_replicate (List.mem_of_getElem? h)
  refine ⟨rfl, by simp [World.init], by simp [World.init], ?_, ?_, by simp [World.init], ?_⟩
  · intro t t' pc pc' h h' _
    cases hi _ _ h
    simp [uses, dsts]
  · intro t pc h
    cases hi _ _ h
    trivial
  · intro f _
    simp [World.init, Clean]

theorem Inv.step {w : World} (H : Inv w) {e : Ev} (h : Apart w e) : ∃ w', w.step e = .ok w' ∧ Inv w' := by
  cases e with
  | go t => exact H.go t
  | copy t g =>
    obtain ⟨ht, q, hA, hb⟩ := h
    refine ⟨_, by simp only [World.step, handle_alive hA, Outcome.ok_bind]; rfl, ?_⟩
    have hR := H.rest hA fun t' pc h e => not_busy hb h (active_uses e)
    refine H.move (c := q.c) (S := []) ht (Frame.refl w q.c) (fun t' pc h _ => not_busy hb h) (by simp) H.known
      (Or.inl rfl) ?_ ⟨hA, trivial, hR⟩ (by simp [active]) ⟨_, _, hA.known H.known⟩
    intro t' pc h _
    exact ⟨fun c hc => by
      have e : c = q.c := by simpa [uses] using hc
      rw [e]; exact not_busy hb h, by simp [dsts]⟩
  | destroy t h =>
    obtain ⟨ht, p, hA, hb⟩ := h
    refine ⟨_, by simp only [World.step, handle_alive hA, Outcome.ok_bind]; rfl, ?_⟩
    have hR := H.rest hA fun t' pc h e => not_busy hb h (active_uses e)
    have hal := alive_take hA p.c
    refine H.move (c := p.c) (S := []) ht (Frame.take hA) (fun t' pc h _ => not_busy hb h) (by simp) (known_take H h)
      (Or.inl rfl) ?_ ⟨hA.known H.known, trivial, ?_, hR.2⟩ (by simp [active]) ⟨_, _, hA.known H.known⟩
    · intro t' pc h _
      exact ⟨fun c hc => by
        have e : c = p.c := by simpa [uses] using hc
        rw [e]; exact not_busy hb h, by simp [dsts]⟩
    · simp only [if_true] at hal
      have := hR.1
      rw [← hal] at this
      simpa [Cnt] using this
  | assign t h g =>
    obtain ⟨ht, hne, p, q, hA, hB, hb, hb'⟩ := h
    refine ⟨_, by simp only [World.step, handle_alive hA, handle_alive hB, Outcome.ok_bind]; rfl, ?_⟩
    have hR := H.rest hA fun t' pc h e => not_busy hb h (active_uses e)
    have hal := alive_take hA p.c
    refine H.move (c := p.c) (S := []) ht (Frame.take hA) (fun t' pc h _ => not_busy hb h) (by simp) (known_take H h)
      (Or.inl rfl) ?_ ⟨hA.known H.known, ?_, ?_, hR.2⟩ (by simp [active]) ⟨_, _, hA.known H.known⟩
    · intro t' pc h' _
      refine ⟨fun c hc => ?_, fun x hx => ?_⟩
      · have e : c = p.c ∨ c = q.c := by simpa [uses] using hc
        rcases e with e | e
        · rw [e]; exact not_busy hb h'
        · rw [e]; exact not_busy hb' h'
      · have e : x = h := by simpa [dsts] using hx
        subst e
        intro hd
        have := dsts_empty (H.good _ _ h') hd
        rw [Alive, this] at hA
        simp at hA
    · obtain ⟨hl, _⟩ := List.getElem?_eq_some_iff.1 hA
      exact ⟨by simpa [Alive, List.getElem?_set_ne hne] using hB, by simp [List.getElem?_set_self hl]⟩
    · simp only [if_true] at hal
      have := hR.1
      rw [← hal] at this
      simpa [Cnt] using this
  | new f b =>
    refine ⟨_, rfl, ?_⟩
    have hw : ∀ (c : Nat) x, w.wrapped[c]? = some x → (w.wrapped ++ [(f, b)])[c]? = some x := by
      intro c x h
      obtain ⟨hl, _⟩ := List.getElem?_eq_some_iff.1 h
      simpa [List.getElem?_append_left hl] using h
    have hc : ∀ (c : Nat), c < w.wrapped.length → (w.counters ++ [some 1])[c]? = w.counters[c]? := by
      intro c h
      rw [← H.len] at h
      simp [List.getElem?_append_left h]
    have hlt : ∀ {c : Nat} {x}, w.wrapped[c]? = some x → c < w.wrapped.length := fun h =>
      (List.getElem?_eq_some_iff.1 h).1
    have hha : ∀ (i : Nat) o, w.handles[i]? = some o → (w.handles ++ [some ⟨f, w.counters.length, b⟩])[i]? = some o := by
      intro i o h
      obtain ⟨hl, _⟩ := List.getElem?_eq_some_iff.1 h
      simpa [List.getElem?_append_left hl] using h
    generalize hw' : ({ w with
      handles := w.handles ++ [some ⟨f, w.counters.length, b⟩]
      counters := w.counters ++ [some 1]
      wrapped := w.wrapped ++ [(f, b)] } : World) = w'
    have hal : ∀ c, c < w.wrapped.length → alive w' c = alive w c := by
      intro c h
      subst hw'
      have := alive_push w ⟨f, w.counters.length, b⟩ c
      have hne : ¬ w.counters.length = c := by rw [H.len]; omega
      simp only [hne, if_false] at this
      exact this
    have hnx : ∀ n, NextOk w n → NextOk w' n := by
      intro n h
      cases n with
      | none => trivial
      | some n => subst hw'; exact ⟨hha _ _ h.1, hha _ _ h.2⟩
    have hdx : ∀ n, DstOk w n → DstOk w' n := by
      intro n h
      cases n with
      | none => trivial
      | some n => subst hw'; exact hha _ _ h
    have hkn : ∀ p, Known w p → Known w' p := fun p h => by subst hw'; exact hw _ _ h
    have hali : ∀ g q, Alive w g q → Alive w' g q := fun g q h => by subst hw'; exact hha _ _ h
    have hcn : ∀ c v, c < w.wrapped.length → Cnt w c v → Cnt w' c v := by
      intro c v h h'
      subst hw'
      show (w.counters ++ [some 1])[c]? = _
      rw [hc c h]
      exact h'
    have hth : w'.threads = w.threads := by subst hw'; rfl
    have hdel : w'.deleted = w.deleted := by subst hw'; rfl
    have hres : w'.restored = w.restored := by subst hw'; rfl
    constructor
    · subst hw'; simp [H.len]
    · subst hw'
      simp only [List.map_append, List.nodup_append]
      refine ⟨H.nodup, by simp, ?_⟩
      intro a ha b' hb' e
      simp at hb'
      subst e
      subst hb'
      exact h ha
    · intro p hp
      subst hw'
      simp at hp
      rcases hp with hp | hp
      · exact hkn p (H.known p hp)
      · rw [hp]
        simp [Known, H.len]
    · rw [hth]; exact H.excl
    · intro t pc ht
      rw [hth] at ht
      have hg := H.good t pc ht
      cases pc with
      | idle => trivial
      | incRead g q d =>
        have hk := hg.1.known H.known
        refine ⟨hali _ _ hg.1, hdx _ hg.2.1, ?_, ?_⟩
        · rw [hal _ (hlt hk)]; exact hcn _ _ (hlt hk) hg.2.2.1
        · simpa [Clean, hdel, hres] using hg.2.2.2
      | incWrite g q v d =>
        have hk := hg.1.known H.known
        refine ⟨hali _ _ hg.1, hdx _ hg.2.1, ?_, ?_, ?_⟩
        · rw [hal _ (hlt hk)]; exact hcn _ _ (hlt hk) hg.2.2.1
        · simpa [Clean, hdel, hres] using hg.2.2.2.1
        · rw [hal _ (hlt hk)]; exact hg.2.2.2.2
      | decRead p n =>
        refine ⟨hkn _ hg.1, hnx _ hg.2.1, ?_, ?_⟩
        · rw [hal _ (hlt hg.1)]; exact hcn _ _ (hlt hg.1) hg.2.2.1
        · simpa [Clean, hdel, hres] using hg.2.2.2
      | decWrite p v n =>
        refine ⟨hkn _ hg.1, hnx _ hg.2.1, ?_, ?_, ?_⟩
        · rw [hal _ (hlt hg.1)]; exact hcn _ _ (hlt hg.1) hg.2.2.1
        · simpa [Clean, hdel, hres] using hg.2.2.2.1
        · rw [hal _ (hlt hg.1)]; exact hg.2.2.2.2
      | test p n =>
        refine ⟨hkn _ hg.1, hnx _ hg.2.1, ?_, ?_⟩
        · rw [hal _ (hlt hg.1)]; exact hcn _ _ (hlt hg.1) hg.2.2.1
        · simpa [Clean, hdel, hres] using hg.2.2.2
      | restore p n =>
        refine ⟨hkn _ hg.1, hnx _ hg.2.1, hcn _ _ (hlt hg.1) hg.2.2.1, ?_, ?_, hg.2.2.2.2.2⟩
        · rw [hal _ (hlt hg.1)]; exact hg.2.2.2.1
        · simpa [Clean, hdel, hres] using hg.2.2.2.2.1
      | delete p n =>
        refine ⟨hkn _ hg.1, hnx _ hg.2.1, hcn _ _ (hlt hg.1) hg.2.2.1, ?_, ?_⟩
        · rw [hal _ (hlt hg.1)]; exact hg.2.2.2.1
        · simpa [Clean, hdel, hres] using hg.2.2.2.2
    · intro c f' b' hwr hq
      rw [hth] at hq
      by_cases hcl : c < w.wrapped.length
      · have hwr' : w.wrapped[c]? = some (f', b') := by
          subst hw'
          simpa [List.getElem?_append_left hcl] using hwr
        have hR := H.quiet c f' b' hwr' hq
        refine ⟨?_, ?_⟩
        · rw [hal c hcl]
          intro hp
          exact ⟨hcn _ _ hcl (hR.1 hp).1, by simpa [Clean, hdel, hres] using (hR.1 hp).2⟩
        · rw [hal c hcl, hdel, hres]
          exact hR.2
      · have hl' : c < w'.wrapped.length := (List.getElem?_eq_some_iff.1 hwr).1
        have ec : c = w.wrapped.length := by
          subst hw'; simp at hl'; omega
        have ef : f' = f := by
          subst hw'; subst ec; simp at hwr; exact hwr.1.symm
        have a0 : alive w c = 0 := by
          unfold alive
          rw [List.countP_eq_zero]
          intro o ho
          cases o with
          | none => simp
          | some p =>
            have := hlt (H.known p ho)
            simp; omega
        have a1 : alive w' c = 1 := by
          have := alive_push w ⟨f, w.counters.length, b⟩ c
          subst hw'
          rw [a0] at this
          simpa [alive, ec, H.len] using this
        refine ⟨fun _ => ⟨?_, ?_⟩, fun h => by omega⟩
        · rw [a1]
          subst hw'
          simp [Cnt, ec, ← H.len]
        · rw [ef]
          simpa [Clean, hdel, hres] using H.fresh f h
    · intro f' hf'
      have : f' ∉ w.wrapped.map Prod.fst := by
        subst hw'
        exact fun hm => hf' (by simp only [List.map_append, List.mem_append]; exact Or.inl hm)
      simpa [Clean, hdel, hres] using H.fresh f' this

theorem Inv.run {w : World} (H : Inv w) {es : List Ev} (h : Respects Apart w es) : ∃ w', w.run es = .ok w' ∧ Inv w' := by
  induction es generalizing w with
  | nil => exact ⟨w, rfl, H⟩
  | cons e es ih =>
    obtain ⟨w1, h1, H1⟩ := H.step h.1
    have h2 := h.2
    rw [h1] at h2
    obtain ⟨w2, h3, H2⟩ := ih H1 h2
    exact ⟨w2, by simp only [World.run, h1, Outcome.ok_bind, h3], H2⟩

end PtrMT
end SpatialOps
