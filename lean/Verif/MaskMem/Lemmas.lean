import Verif.MaskMem.Spec
import Verif.Mask.Props
import Verif.DevPool.Props

/-! # Lemmas about mask memory -/

namespace SpatialOps
namespace MaskWorld

/-- Blocks a mask gives back when it is destroyed. -/
def owned : MemKind → BitMask → List Nat
  | .cpu, m => if (m.built = true ∧ m.memType = .localRam) ∨ m.builtCpu = true then m.bits.toList else []
  | .gpu, m => m.mine.map Prod.snd ++ (if m.built = true ∧ m.memType = .gpu then m.ext.toList else [])

structure MOk (cuda : Bool) (m : BitMask) : Prop where
  nodup : ∀ k, (owned k m).Nodup
  prim : (m.memType = .localRam ∧ m.bits.isSome = true) ∨ (cuda = true ∧ m.memType = .gpu ∧ m.ext.isSome = true)
  cpuc : m.builtCpu = true → cuda = true ∧ m.memType = .gpu ∧ m.bits.isSome = true
  mine : cuda = false → m.mine = []
  cons : cuda = false → m.consumers = []
  good : ∃ bf, BitField.build m.points m.window m.ghosts = .ok bf ∧ bf.size = m.size
  gv : m.ghosts.Valid
  gf : GhostedFits m.window m.ghosts
  pin : ∀ p ∈ m.points, InGhosted m.window m.ghosts p
  orig : m.built = true → m.consumers = m.mine ∧ (m.memType = .localRam → m.ext = none) ∧
    (m.memType = .gpu → m.bits ≠ none → m.builtCpu = true)

/-- Block `b` holds the mask `m`: its words are those of a mask built from the points of `m`. -/
def Holds (w : MaskWorld) (m : BitMask) (b : Nat) : Prop :=
  ∃ bf, BitField.build m.points m.window m.ghosts = .ok bf ∧ bf.size = m.size ∧
    ∀ i, 0 ≤ i → i < m.size → w.mem b i = bf.words i

structure Base (w : MaskWorld) : Prop where
  reach : DWorld.Reach w.pool
  perm : ∀ k, (w.pool.held k).Perm ((w.own k).map Prod.fst)
  mis : w.misput = []

theorem Base.nodup {w : MaskWorld} (hb : Base w) (k : MemKind) : ((w.own k).map Prod.fst).Nodup := by
  have hi := (DWorld.dInv_reach hb.reach).side k
  refine (hb.perm k).nodup_iff.1 ?_
  exact ((hi.perm.nodup_iff.2 hi.nodup).of_append_right)

theorem Base.nodup' {w : MaskWorld} (hb : Base w) (k : MemKind) : (w.own k).Nodup := (hb.nodup k).of_map

theorem Base.unique {w : MaskWorld} (hb : Base w) {k : MemKind} {a h h' : Nat} (h1 : (a, h) ∈ w.own k)
    (h2 : (a, h') ∈ w.own k) : h = h' := by
  have := List.inj_on_of_nodup_map (hb.nodup k) h1 h2 rfl
  injection this

theorem poolGet_spec {w : MaskWorld} (hb : Base w) (h : Nat) (k : MemKind) (n fresh : Nat)
    (hf : ∀ k, fresh ∉ w.pool.addrs k) :
    ∃ w' a, w.poolGet h k n fresh = .ok (w', a) ∧ Base w' ∧ w'.masks = w.masks ∧ w'.mem = w.mem ∧
      w'.own = (fun k' => if k' = k then (a, h) :: w.own k else w.own k') ∧ ∀ k' h', (a, h') ∉ w.own k' := by
  obtain ⟨p, a, s, mm, e1, e2, e3, e4, _⟩ := C55_get w.pool hb.reach k n fresh true hf
  have e1' := e1
  unfold DWorld.step at e1
  simp only [Outcome.bind_eq_ok] at e1
  obtain ⟨r, hr, e1⟩ := e1
  have hra : r.addr = a := by
    injection e1 with e1
    rw [← e1] at e2
    simp only [if_true] at e2
    injection e2
  refine ⟨{ w with pool := p, own := fun k' => if k' = k then (a, h) :: w.own k else w.own k' }, a, ?_, ?_, rfl, rfl, rfl, ?_⟩
  · unfold poolGet
    rw [hr, Outcome.ok_bind, e1', Outcome.ok_bind, hra]; rfl
  · refine ⟨DWorld.Reach.step (e := .get k n fresh true) hb.reach hf e1', fun k' => ?_, hb.mis⟩
    by_cases hk : k' = k
    · subst hk; simp only [if_true, List.map_cons]; rw [e2]; exact (hb.perm _).cons _
    · simp only [if_neg hk]; rw [e3 _ hk]; exact hb.perm _
  · intro k' h' hm
    exact e4 k' ((hb.perm k').mem_iff.2 (List.mem_map.2 ⟨_, hm, rfl⟩))

theorem poolPut_spec {w : MaskWorld} (hb : Base w) {h : Nat} {k : MemKind} {a : Nat} (ha : (a, h) ∈ w.own k) :
    ∃ w', w.poolPut h k (some a) = .ok w' ∧ Base w' ∧ w'.masks = w.masks ∧ w'.mem = w.mem ∧
      w'.own = (fun k' => if k' = k then (w.own k).erase (a, h) else w.own k') := by
  have hheld : a ∈ w.pool.held k := (hb.perm k).mem_iff.2 (List.mem_map.2 ⟨_, ha, rfl⟩)
  obtain ⟨p, e1, e2, e3, e4, _⟩ := C55_put w.pool hb.reach k a hheld
  refine ⟨{ w with pool := p, own := fun k' => if k' = k then (w.own k).erase (a, h) else w.own k' }, ?_, ?_, rfl, rfl, rfl⟩
  · simp only [poolPut]; rw [e1, Outcome.ok_bind, if_pos ha]; rfl
  refine ⟨DWorld.Reach.step (e := .put k a) hb.reach hheld e1, fun k' => ?_, hb.mis⟩
  by_cases hk : k' = k
  · subst hk
    simp only [if_true]
    rw [e2]
    have h1 : ((w.pool.held k').erase a).Perm (((w.own k').map Prod.fst).erase a) := (hb.perm k').erase a
    refine h1.trans (List.Perm.of_eq ?_)
    have hn := hb.nodup k'
    clear h1 e1 e2 hheld e4
    generalize w.own k' = l at ha hn
    induction l with
    | nil => simp at ha
    | cons x xs ih =>
      by_cases hx : x = (a, h)
      · subst hx; simp
      · have hxa : x.1 ≠ a := by
          intro hc
          apply hx
          exact List.inj_on_of_nodup_map hn List.mem_cons_self ha hc
        simp only [List.map_cons] at hn ⊢
        rw [List.erase_cons_tail (by simpa using hxa), List.erase_cons_tail (by simpa using hx), List.map_cons,
          ih ((List.mem_cons.1 ha).resolve_left (Ne.symm hx)) hn.of_cons]
  · simp only [if_neg hk]; rw [(e4 _ hk).1]; exact hb.perm _

theorem putAll_spec (h : Nat) : ∀ (l : List (Nat × Nat)) {w : MaskWorld}, Base w → (l.map Prod.snd).Nodup →
    (∀ c ∈ l, (c.2, h) ∈ w.own .gpu) →
    ∃ w', w.putAll h l = .ok w' ∧ Base w' ∧ w'.masks = w.masks ∧ w'.mem = w.mem ∧ w'.own .cpu = w.own .cpu ∧
      ∀ x, x ∈ w'.own .gpu ↔ x ∈ w.own .gpu ∧ ¬ (x.2 = h ∧ x.1 ∈ l.map Prod.snd)
  | [], w, hb, _, _ => ⟨w, rfl, hb, rfl, rfl, rfl, by simp⟩
  | c :: l, w, hb, hn, hm => by
    obtain ⟨w1, e1, b1, m1, m1', o1⟩ := poolPut_spec hb (hm c List.mem_cons_self)
    simp only [List.map_cons, List.nodup_cons] at hn
    have hmem : ∀ x, x ∈ w1.own .gpu ↔ x ≠ (c.2, h) ∧ x ∈ w.own .gpu := by
      intro x; rw [o1]; simp only [if_true]; exact (hb.nodup' .gpu).mem_erase_iff
    obtain ⟨w2, e2, b2, m2, m2', o2, o3⟩ := putAll_spec h l b1 hn.2 (by
      intro d hd
      rw [hmem]
      refine ⟨?_, hm d (List.mem_cons_of_mem _ hd)⟩
      intro hc
      injection hc with hc
      exact hn.1 (List.mem_map.2 ⟨d, hd, hc⟩))
    refine ⟨w2, by unfold putAll; rw [e1, Outcome.ok_bind, e2], b2, m2.trans m1, m2'.trans m1', ?_, ?_⟩
    · rw [o2, o1]; simp
    · intro x
      rw [o3, hmem]
      obtain ⟨x1, x2⟩ := x
      simp only [ne_eq, Prod.mk.injEq, List.map_cons, List.mem_cons]
      tauto

structure OInv (cuda : Bool) (w : MaskWorld) : Prop where
  base : Base w
  cown : ∀ (k : MemKind) (a h : Nat), (a, h) ∈ w.own k ↔ ∃ m, w.masks[h]? = some (some m) ∧ a ∈ owned k m
  mok : ∀ (h : Nat) (m : BitMask), w.masks[h]? = some (some m) → MOk cuda m

def CInv (w : MaskWorld) : Prop :=
  ∀ (k : MemKind) (a h : Nat) (m : BitMask), (a, h) ∈ w.own k → w.masks[h]? = some (some m) → w.Holds m a

theorem oInv_init (cuda : Bool) (mem) : OInv cuda (init mem) := by
  refine ⟨⟨DWorld.Reach.init, fun k => ?_, rfl⟩, ?_, ?_⟩
  · simp [init, DWorld.init]
  · intro k a h; simp [init]
  · intro h m hm; simp [init] at hm

theorem cInv_init (mem) : CInv (init mem) := by
  intro k a h m hm; simp [init] at hm

theorem lt_of_get {w : MaskWorld} {h : Nat} {o : Option BitMask} (hm : w.masks[h]? = some o) : h < w.masks.length := by
  by_contra hc
  rw [List.getElem?_eq_none (by omega)] at hm
  cases hm

theorem own_lt {cuda : Bool} {w : MaskWorld} (hi : OInv cuda w) {k : MemKind} {a h : Nat} (hm : (a, h) ∈ w.own k) :
    h < w.masks.length := by
  obtain ⟨m, hm, _⟩ := (hi.cown k a h).1 hm
  exact lt_of_get hm

theorem get_append {l : List (Option BitMask)} {o : Option BitMask} {h : Nat} :
    (l ++ [o])[h]? = if h = l.length then some o else l[h]? := by
  rcases Nat.lt_trichotomy h l.length with hc | hc | hc
  · rw [List.getElem?_append_left hc, if_neg (by omega)]
  · subst hc; simp
  · rw [if_neg (by omega), List.getElem?_eq_none (by simp; omega), List.getElem?_eq_none (by omega)]

/-- Appending a mask that holds the blocks added to `own`. -/
theorem oInv_append {cuda : Bool} {w w' : MaskWorld} (hi : OInv cuda w) {m : BitMask} (hb : Base w')
    (hms : w'.masks = w.masks ++ [some m]) (hm : MOk cuda m)
    (ho : ∀ k a h, (a, h) ∈ w'.own k ↔ (a, h) ∈ w.own k ∨ (h = w.masks.length ∧ a ∈ owned k m)) : OInv cuda w' := by
  refine ⟨hb, fun k a h => ?_, fun h m' hm' => ?_⟩
  · rw [ho, hms, get_append]
    by_cases hc : h = w.masks.length
    · subst hc
      simp only [if_true, true_and]
      constructor
      · rintro (h1 | h1)
        · exact absurd (own_lt hi h1) (by omega)
        · exact ⟨m, rfl, h1⟩
      · rintro ⟨m', h1, h2⟩
        injection h1 with h1; injection h1 with h1; subst h1
        exact Or.inr h2
    · simp only [hc, if_false, false_and, or_false]
      exact hi.cown k a h
  · rw [hms, get_append] at hm'
    by_cases hc : h = w.masks.length
    · rw [if_pos hc] at hm'; injection hm' with hm'; injection hm' with hm'; subst hm'; exact hm
    · rw [if_neg hc] at hm'; exact hi.mok h m' hm'

theorem get_set {l : List (Option BitMask)} {o : Option BitMask} {h h' : Nat} (hl : h < l.length) :
    (l.set h o)[h']? = if h' = h then some o else l[h']? := by
  rw [List.getElem?_set]
  by_cases hc : h = h'
  · subst hc; simp [hl]
  · rw [if_neg hc, if_neg (Ne.symm hc)]

/-- Replacing mask `h`. -/
theorem oInv_set {cuda : Bool} {w w' : MaskWorld} (hi : OInv cuda w) {h : Nat} (hl : h < w.masks.length) {o : Option BitMask}
    (hb : Base w') (hms : w'.masks = w.masks.set h o) (hm : ∀ m, o = some m → MOk cuda m)
    (ho : ∀ k a h', (a, h') ∈ w'.own k ↔
      (if h' = h then ∃ m, o = some m ∧ a ∈ owned k m else (a, h') ∈ w.own k)) : OInv cuda w' := by
  refine ⟨hb, fun k a h' => ?_, fun h' m' hm' => ?_⟩
  · rw [ho, hms, get_set hl]
    by_cases hc : h' = h
    · subst hc; simp
    · simp only [hc, if_false]; exact hi.cown k a h'
  · rw [hms, get_set hl] at hm'
    by_cases hc : h' = h
    · rw [if_pos hc] at hm'; injection hm' with hm'; exact hm m' hm'
    · rw [if_neg hc] at hm'; exact hi.mok h' m' hm'

theorem holds_congr {w w' : MaskWorld} {m m' : BitMask} {b : Nat} (hs : SameMask m m') (hm : w'.mem b = w.mem b)
    (hh : w.Holds m b) : w'.Holds m' b := by
  obtain ⟨bf, e1, e2, e3⟩ := hh
  obtain ⟨s1, s2, s3⟩ := hs
  have hsz : m.size = m'.size := by unfold BitMask.size; rw [s2]
  refine ⟨bf, by rw [← s1, ← s2, ← s3]; exact e1, by rw [← hsz]; exact e2, fun i h0 h1 => ?_⟩
  rw [hm]; exact e3 i h0 (by rw [hsz]; exact h1)

theorem SameMask.refl (m : BitMask) : SameMask m m := ⟨rfl, rfl, rfl⟩
theorem SameMask.symm {m m' : BitMask} (h : SameMask m m') : SameMask m' m := ⟨h.1.symm, h.2.1.symm, h.2.2.symm⟩

theorem holds_fill {w : MaskWorld} {m : BitMask} {s d : Nat} (hh : w.Holds m s) :
    (w.fill d m.size (w.mem s)).Holds m d := by
  obtain ⟨bf, e1, e2, e3⟩ := hh
  refine ⟨bf, e1, e2, fun i h0 h1 => ?_⟩
  simp only [fill, true_and]; rw [if_pos ⟨h0, h1⟩]; exact e3 i h0 h1

theorem fill_other {w : MaskWorld} {b d : Nat} {n : Int} {v : Int → BitVec 32} (h : b ≠ d) :
    (w.fill d n v).mem b = w.mem b := by
  funext i; simp [fill, h]

theorem stillHeld_holds {w : MaskWorld} (hc : CInv w) {m : BitMask} {k : MemKind} {b : Nat} (hs : w.StillHeld m k b) :
    w.Holds m b := by
  obtain ⟨h, m', h1, h2, h3⟩ := hs
  exact holds_congr h3.symm rfl (hc k b h m' h1 h2)

theorem holds_shows {cuda : Bool} {w : MaskWorld} {m : BitMask} {b : Nat} (hk : MOk cuda m) (hh : w.Holds m b) :
    w.Shows m b := by
  obtain ⟨bf, e1, e2, e3⟩ := hh
  obtain ⟨bf', e1', hwf, _⟩ := BitField.build_eq hk.gf m.points hk.pin
  obtain ⟨bf2, e1'', hq, _⟩ := C11_mask_is_point_list m.window m.ghosts hk.gf m.points hk.pin
  rw [e1] at e1' e1''
  injection e1' with e1'; subst e1'
  injection e1'' with e1''; subst e1''
  intro p hp
  have hc := BitField.cell_inBlock hk.gf hp
  have hb := fortranPos_bound hc
  have hr := roundToInt_bound (n := m.window.globNpts) hb.1 hb.2
  rw [← hq p hp, BitField.query_eq hwf hk.gf hp, BitField.query_eq (m := w.readAs m b) (w := m.window) (g := m.ghosts) ⟨rfl, rfl, rfl⟩ hk.gf hp]
  unfold bitAt readAs
  dsimp only
  rw [e3 _ hr.1 hr.2.1]

/-- An original always refers to memory it holds itself. -/
theorem original_current {cuda : Bool} {w : MaskWorld} (hi : OInv cuda w) {h : Nat} {m : BitMask}
    (hm : w.masks[h]? = some (some m)) (hb : m.built = true) : w.Current m := by
  have hk := hi.mok h m hm
  obtain ⟨o1, o2, o3⟩ := hk.orig hb
  have hown : ∀ k a, a ∈ owned k m → w.StillHeld m k a :=
    fun k a ha => ⟨h, m, (hi.cown k a h).2 ⟨m, hm, ha⟩, hm, SameMask.refl m⟩
  refine ⟨fun b hbb => hown .cpu b ?_, fun b hbb => hown .gpu b ?_, fun c hc => hown .gpu c.2 ?_⟩
  · rcases hk.prim with ⟨c, _⟩ | ⟨_, c, _⟩
    · simp [owned, hb, c, hbb]
    · simp [owned, o3 c (by simp [hbb]), hbb]
  · rcases hk.prim with ⟨c, _⟩ | ⟨_, c, _⟩
    · rw [o2 c] at hbb; cases hbb
    · simp [owned, hb, c, hbb]
  · rw [o1] at hc
    exact List.mem_append_left _ (List.mem_map.2 ⟨c, hc, rfl⟩)

end MaskWorld
end SpatialOps
