import Verif.NeboRed.Spec
import Verif.Nebo.Assign

/-!
# Lemmas: the reduction loop
-/

namespace SpatialOps
namespace Nebo

theorem value2_self {V : Type} [Add V] [Mul V] (m : Mem V) : {t : Ty} → (e : Expr V t) → (c : IntVec) →
    e.value2 m m c = e.value m c
  | _, .scalar _, _ | _, .single _, _ | _, .mask _, _ | _, .field _, _ => rfl
  | _, .maskShift p a, c => value2_self m a (c + p)
  | _, .un _ a, c => by simp only [Expr.value2, Expr.value]; rw [value2_self m a c]
  | _, .bin _ a b, c => by simp only [Expr.value2, Expr.value]; rw [value2_self m a c, value2_self m b c]
  | _, .and a b, c => by simp only [Expr.value2, Expr.value]; rw [value2_self m a c, value2_self m b c]
  | _, .or a b, c => by simp only [Expr.value2, Expr.value]; rw [value2_self m a c, value2_self m b c]
  | _, .cond t a b, c => by
    simp only [Expr.value2, Expr.value]; rw [value2_self m t c, value2_self m a c, value2_self m b c]
  | _, .stencil pts a, c => by
    simp only [Expr.value2, Expr.value]
    exact pts_sum_congr pts fun q _ => by dsimp only; rw [value2_self m a (c + q.1)]
  | _, .sumStencil pts a, c => by
    simp only [Expr.value2, Expr.value]
    exact pts_sum_congr pts fun q _ => by dsimp only; rw [value2_self m a (c + q)]

/-- How a walker built by `reduce_init` ends: not before `N` steps, and then at the
latest if `has`. -/
def EndsAt {V : Type} {t : Ty} (N : Int) (has : Prop) (w : Walk V t) : Prop :=
  (∀ k : Nat, (k : Int) < N → (w.nextN k).atEnd = false) ∧ (has → (w.nextN N.toNat).atEnd = true)

theorem endsAt_field {V : Type} {w : Window} (hw : w.Fits) (hn : w.Nonempty) (b : Option Nat) (n : Int) :
    EndsAt w.localNpts True
      (Walk.field (V := V) b n (It.start 0 w) (some (It.nth 0 w w.localNpts.toNat))) := by
  constructor
  · intro k hk
    rw [nextN_field]
    exact It.nth_ne_end hw hn 0 hk
  · intro _
    rw [nextN_field]
    simp [Walk.atEnd, It.eqOp]

theorem endsAt_mask {V : Type} {w : Window} (hw : w.Fits) (hn : w.Nonempty) (b : BitField) {fin : MaskIt}
    (hf : MaskIt.finish w = .ok fin) :
    EndsAt w.localNpts True (Walk.mask (V := V) b (MaskIt.start w) (some fin)) := by
  have hN := It.localNpts_nonneg hn
  have key : ∀ k : Nat, (k : Int) ≤ w.localNpts →
      ((maskNth w k).eqOp fin = true ↔ (k : Int) = w.localNpts) := by
    intro k hk
    obtain ⟨it, fin', h1, -, h3, h4, -⟩ := C12_history_independent w hw hn (List.replicate k It.Op.inc)
      (staysIn_replicate_inc (n := w.localNpts) k (k := 0) (by omega) (by omega))
    rw [mask_run_inc] at h1
    injection h1 with h1
    rw [hf] at h3
    injection h3 with h3
    rw [h1, h3, h4, endPos_replicate_inc]
    omega
  constructor
  · intro k hk
    rw [nextN_mask]
    have := key k (by omega)
    simp only [Walk.atEnd]
    by_contra hc
    have := this.1 (by simpa using hc)
    omega
  · intro _
    rw [nextN_mask]
    exact (key _ (by omega)).2 (by omega)

theorem init_ends {V : Type} [Add V] [Mul V] (m0 : Mem V) {n minus plus : IntVec}
    (hbox : IntVec.Lt 0 (n + minus + plus)) : {t : Ty} → (e : Expr V t) → e.Wf n → e.StencilFree → (s : IntVec) →
    (∀ c, InBox n minus plus c → e.DefinedAt n c ∧ e.DefinedAt n (c + s)) →
    ∀ w, e.init true m0 minus plus s = .ok w →
      EndsAt (Window.localNpts ⟨0, 0, n + minus + plus⟩) e.HasOperand w
  | _, .scalar v, _, _, _, _, w, hw => by
    injection hw with hw
    subst hw
    exact ⟨fun k _ => by rw [nextN_const]; rfl, fun h => h.elim⟩
  | _, .single f, h, _, s, _, w, hw => by
    simp only [Expr.init] at hw
    obtain ⟨v, -, hw⟩ := Outcome.bind_eq_ok.1 hw
    injection hw with hw
    subst hw
    exact ⟨fun k _ => by rw [nextN_const]; rfl, fun h => h.elim⟩
  | _, .field f, h, _, s, hd, w, hw => by
    obtain ⟨g, g1, g2, g3, g4⟩ := leaf_reshape h.1 hbox hd
    obtain ⟨b, hb⟩ := Option.ne_none_iff_exists'.1 h.2
    obtain ⟨e, e1, e2⟩ := fieldWalk_ok (V := V) true { f with geo := g } hb g4
    simp only [Expr.init] at hw
    rw [g1, Outcome.ok_bind, e1] at hw
    injection hw with hw
    subst hw
    rw [if_pos rfl] at e2
    rw [e2]
    dsimp only
    have := endsAt_field (V := V) g3 g4 (some b) g.window.globNpts
    have hl : g.window.localNpts = Window.localNpts ⟨0, 0, n + minus + plus⟩ := by rw [g2]; rfl
    rw [← hl]
    exact this
  | _, .mask k, h, _, s, hd, w, hw => by
    obtain ⟨g, g1, g2, g3, g4⟩ := leaf_reshape h.1 hbox hd
    obtain ⟨fin, hfin⟩ := maskFinish_ok g3 g4
    simp only [Expr.init] at hw
    rw [g1, Outcome.ok_bind] at hw
    unfold maskWalk at hw
    rw [if_pos rfl] at hw
    dsimp only at hw
    rw [hfin] at hw
    injection hw with hw
    subst hw
    have hl : g.window.localNpts = Window.localNpts ⟨0, 0, n + minus + plus⟩ := by rw [g2]; rfl
    rw [← hl]
    exact endsAt_mask g3 g4 _ hfin
  | _, .maskShift p a, h, hs, s, hd, w, hw =>
    init_ends m0 hbox a h hs (s + p) (fun c hc =>
      ⟨(hd c hc).1.1, by rw [← add_assoc_iv]; exact (hd c hc).2.2⟩) w hw
  | _, .un op a, h, hs, s, hd, w, hw => by
    simp only [Expr.init] at hw
    obtain ⟨x, hx, hw⟩ := Outcome.bind_eq_ok.1 hw
    injection hw with hw
    subst hw
    obtain ⟨i1, i2⟩ := init_ends m0 hbox a h hs s hd x hx
    exact ⟨fun k hk => by rw [nextN_un]; exact i1 k hk, fun ho => by rw [nextN_un]; exact i2 ho⟩
  | _, .bin op a b, h, hs, s, hd, w, hw => by
    simp only [Expr.init] at hw
    obtain ⟨x, hx, hw⟩ := Outcome.bind_eq_ok.1 hw
    obtain ⟨y, hy, hw⟩ := Outcome.bind_eq_ok.1 hw
    injection hw with hw
    subst hw
    obtain ⟨i1, i2⟩ := init_ends m0 hbox a h.1 hs.1 s (fun c hc => ⟨(hd c hc).1.1, (hd c hc).2.1⟩) x hx
    obtain ⟨j1, j2⟩ := init_ends m0 hbox b h.2 hs.2 s (fun c hc => ⟨(hd c hc).1.2, (hd c hc).2.2⟩) y hy
    refine ⟨fun k hk => ?_, fun ho => ?_⟩
    · rw [nextN_bin]; simp only [Walk.atEnd, i1 k hk, j1 k hk, Bool.or_false]
    · rw [nextN_bin]; simp only [Walk.atEnd]
      rcases ho with ho | ho
      · rw [i2 ho, Bool.true_or]
      · rw [j2 ho, Bool.or_true]
  | _, .and a b, h, hs, s, hd, w, hw => by
    simp only [Expr.init] at hw
    obtain ⟨x, hx, hw⟩ := Outcome.bind_eq_ok.1 hw
    obtain ⟨y, hy, hw⟩ := Outcome.bind_eq_ok.1 hw
    injection hw with hw
    subst hw
    obtain ⟨i1, i2⟩ := init_ends m0 hbox a h.1 hs.1 s (fun c hc => ⟨(hd c hc).1.1, (hd c hc).2.1⟩) x hx
    obtain ⟨j1, j2⟩ := init_ends m0 hbox b h.2 hs.2 s (fun c hc => ⟨(hd c hc).1.2, (hd c hc).2.2⟩) y hy
    refine ⟨fun k hk => ?_, fun ho => ?_⟩
    · rw [nextN_and]; simp only [Walk.atEnd, i1 k hk, j1 k hk, Bool.or_false]
    · rw [nextN_and]; simp only [Walk.atEnd]
      rcases ho with ho | ho
      · rw [i2 ho, Bool.true_or]
      · rw [j2 ho, Bool.or_true]
  | _, .or a b, h, hs, s, hd, w, hw => by
    simp only [Expr.init] at hw
    obtain ⟨x, hx, hw⟩ := Outcome.bind_eq_ok.1 hw
    obtain ⟨y, hy, hw⟩ := Outcome.bind_eq_ok.1 hw
    injection hw with hw
    subst hw
    obtain ⟨i1, i2⟩ := init_ends m0 hbox a h.1 hs.1 s (fun c hc => ⟨(hd c hc).1.1, (hd c hc).2.1⟩) x hx
    obtain ⟨j1, j2⟩ := init_ends m0 hbox b h.2 hs.2 s (fun c hc => ⟨(hd c hc).1.2, (hd c hc).2.2⟩) y hy
    refine ⟨fun k hk => ?_, fun ho => ?_⟩
    · rw [nextN_or]; simp only [Walk.atEnd, i1 k hk, j1 k hk, Bool.or_false]
    · rw [nextN_or]; simp only [Walk.atEnd]
      rcases ho with ho | ho
      · rw [i2 ho, Bool.true_or]
      · rw [j2 ho, Bool.or_true]
  | _, .cond t a b, h, hs, s, hd, w, hw => by
    simp only [Expr.init] at hw
    obtain ⟨q, hq, hw⟩ := Outcome.bind_eq_ok.1 hw
    obtain ⟨x, hx, hw⟩ := Outcome.bind_eq_ok.1 hw
    obtain ⟨y, hy, hw⟩ := Outcome.bind_eq_ok.1 hw
    injection hw with hw
    subst hw
    obtain ⟨q1, q2⟩ := init_ends m0 hbox t h.1 hs.1 s (fun c hc => ⟨(hd c hc).1.1, (hd c hc).2.1⟩) q hq
    obtain ⟨i1, i2⟩ := init_ends m0 hbox a h.2.1 hs.2.1 s (fun c hc => ⟨(hd c hc).1.2.1, (hd c hc).2.2.1⟩) x hx
    obtain ⟨j1, j2⟩ := init_ends m0 hbox b h.2.2 hs.2.2 s (fun c hc => ⟨(hd c hc).1.2.2, (hd c hc).2.2.2⟩) y hy
    refine ⟨fun k hk => ?_, fun ho => ?_⟩
    · rw [nextN_cond]; simp only [Walk.atEnd, q1 k hk, i1 k hk, j1 k hk, Bool.or_false]
    · rw [nextN_cond]; simp only [Walk.atEnd]
      rcases ho with ho | ho | ho
      · rw [q2 ho]; simp
      · rw [i2 ho]; simp
      · rw [j2 ho]; simp
  | _, .stencil _ _, _, hs, _, _, _, _ => hs.elim
  | _, .sumStencil _ _, _, hs, _, _, _, _ => hs.elim

/-- The loop folds the remaining values and ends. -/
theorem foldLoop_eq {V R : Type} (proc : R → V → R) (m : Mem V) {N : Nat} {w : Walk V .num} {val : Nat → V}
    (hv : ∀ k, k < N → (w.nextN k).eval m = .ok (val k)) (h1 : ∀ k, k < N → (w.nextN k).atEnd = false)
    (h2 : (w.nextN N).atEnd = true) : ∀ (j k : Nat), k + j = N → ∀ (trips : Nat), j ≤ trips → ∀ r,
      foldLoop proc m trips (w.nextN k) r = some (.ok ((List.range' k j).foldl (fun r i => proc r (val i)) r)) := by
  intro j
  induction j with
  | zero =>
    intro k hk trips _ r
    have : k = N := by omega
    subst this
    unfold foldLoop
    rw [if_pos h2]
    rfl
  | succ j ih =>
    intro k hk trips ht r
    obtain ⟨t, rfl⟩ : ∃ t, trips = t + 1 := ⟨trips - 1, by omega⟩
    unfold foldLoop
    rw [if_neg (by rw [h1 k (by omega)]; simp)]
    dsimp only
    rw [hv k (by omega)]
    dsimp only
    have := ih (k + 1) (by omega) t (by omega) (proc r (val k))
    rw [List.range'_succ]
    exact this

/-- The region's cells in fortran order. -/
def regionCells (n minus plus : IntVec) : List IntVec :=
  (List.range (Window.localNpts ⟨0, 0, n + minus + plus⟩).toNat).map fun k =>
    nthLoc ⟨n + minus + plus, 0, n + minus + plus⟩ k - minus

theorem regionCells_lists {n minus plus : IntVec} (hbox : IntVec.Lt 0 (n + minus + plus)) :
    Lists (regionCells n minus plus) (InBox n minus plus) := by
  have hw : Window.Fits ⟨n + minus + plus, 0, n + minus + plus⟩ := by iv_omega
  have hn : Window.Nonempty ⟨n + minus + plus, 0, n + minus + plus⟩ := hbox
  have hN : ∀ k : Nat, k < (Window.localNpts ⟨0, 0, n + minus + plus⟩).toNat →
      (k : Int) < Window.localNpts ⟨n + minus + plus, 0, n + minus + plus⟩ := by
    intro k hk
    have := It.localNpts_nonneg hn
    have e : Window.localNpts ⟨0, 0, n + minus + plus⟩ =
      Window.localNpts ⟨n + minus + plus, 0, n + minus + plus⟩ := rfl
    omega
  constructor
  · unfold regionCells
    rw [List.pairwise_map]
    apply List.Pairwise.imp_of_mem (R := fun a b : Nat => a < b) _ List.pairwise_lt_range
    intro a b ha hb hab
    rw [List.mem_range] at ha hb
    have sa := nthLoc_spec hw hn (hN a ha)
    have sb := nthLoc_spec hw hn (hN b hb)
    have : FortranLt (nthLoc ⟨n + minus + plus, 0, n + minus + plus⟩ a)
        (nthLoc ⟨n + minus + plus, 0, n + minus + plus⟩ b) := by
      rw [← fortranPos_lt_iff sa.1 sb.1, sa.2, sb.2]
      omega
    unfold FortranLt at this ⊢
    simp only [IntVec.sub_x, IntVec.sub_y, IntVec.sub_z]
    omega
  · intro c
    unfold regionCells
    rw [List.mem_map]
    constructor
    · rintro ⟨k, hk, rfl⟩
      rw [List.mem_range] at hk
      have := (nthLoc_spec hw hn (hN k hk)).1
      unfold InBox
      dsimp only at this
      generalize nthLoc ⟨n + minus + plus, 0, n + minus + plus⟩ k = x at *
      iv_omega
    · intro hc
      obtain ⟨k, k1, k2⟩ := nthLoc_surj hw hn (loc := c + minus) (by unfold InBox at hc; dsimp only; iv_omega)
      refine ⟨k, ?_, ?_⟩
      · rw [List.mem_range]
        have e : Window.localNpts ⟨0, 0, n + minus + plus⟩ =
          Window.localNpts ⟨n + minus + plus, 0, n + minus + plus⟩ := rfl
        omega
      · rw [k2]; ext <;> simp

/-- Everything about a walker built by `reduce_init`. -/
theorem red_walk {V : Type} [Add V] [Mul V] {n minus plus : IntVec} (hbox : IntVec.Lt 0 (n + minus + plus))
    {e : Expr V .num} (he : e.Wf n) (hs : e.StencilFree) (ho : e.HasOperand)
    (hd : ∀ c, InBox n minus plus c → e.DefinedAt n c) (m : Mem V) :
    ∃ w N, e.init true m minus plus 0 = .ok w ∧ N = (regionCells n minus plus).length ∧ 0 < N ∧
      (∀ k, k < N → (w.nextN k).eval m = .ok (e.value m ((regionCells n minus plus).getD k 0))) ∧
      (∀ k, k < N → (w.nextN k).atEnd = false) ∧ (w.nextN N).atEnd = true := by
  have h0 : ∀ a : IntVec, a + 0 = a := fun a => by ext <;> simp
  have hd' : ∀ c, InBox n minus plus c → e.DefinedAt n c ∧ e.DefinedAt n (c + 0) :=
    fun c hc => ⟨hd c hc, by rw [h0]; exact hd c hc⟩
  obtain ⟨w, hw, tw⟩ := init_tracks true m hbox e he 0 hd'
  obtain ⟨e1, e2⟩ := init_ends m hbox e he hs 0 hd' w hw
  have hwf : Window.Fits ⟨n + minus + plus, 0, n + minus + plus⟩ := by iv_omega
  have hne : Window.Nonempty ⟨n + minus + plus, 0, n + minus + plus⟩ := hbox
  have e : Window.localNpts ⟨0, 0, n + minus + plus⟩ =
      Window.localNpts ⟨n + minus + plus, 0, n + minus + plus⟩ := rfl
  have hpos : 0 < Window.localNpts ⟨0, 0, n + minus + plus⟩ := by
    obtain ⟨a, b, c⟩ := hbox
    unfold Window.localNpts
    simp only [IntVec.zero_x, IntVec.zero_y, IntVec.zero_z] at a b c
    positivity
  have hlen : (regionCells n minus plus).length = (Window.localNpts ⟨0, 0, n + minus + plus⟩).toNat := by
    unfold regionCells; simp
  refine ⟨w, _, hw, rfl, by omega, ?_, ?_, ?_⟩
  · intro k hk
    rw [hlen] at hk
    have sk := nthLoc_spec hwf hne (k := k) (by omega)
    rw [tw k _ sk m]
    dsimp only
    rw [h0, value2_self]
    congr 2
    unfold regionCells
    rw [List.getD_eq_getElem?_getD, List.getElem?_map, List.getElem?_range hk]
    rfl
  · intro k hk
    exact e1 k (by omega)
  · rw [hlen]; exact e2 ho

theorem foldl_range_getD {R : Type} (f : R → IntVec → R) (cells : List IntVec) (r : R) :
    (List.range' 0 cells.length).foldl (fun r i => f r (cells.getD i 0)) r = cells.foldl f r := by
  have gen : ∀ (pre cells : List IntVec) (r : R), (List.range' pre.length cells.length).foldl
      (fun r i => f r ((pre ++ cells).getD i 0)) r = cells.foldl f r := by
    intro pre cells
    induction cells generalizing pre with
    | nil => intro r; rfl
    | cons c cs ih =>
      intro r
      rw [List.length_cons, List.range'_succ, List.foldl_cons, List.foldl_cons]
      have hc : (pre ++ c :: cs).getD pre.length 0 = c := by simp [List.getD_eq_getElem?_getD]
      rw [hc]
      have := ih (pre ++ [c]) (f r c)
      simpa using this
  exact gen [] cells r

theorem foldl_range_getD' {R : Type} (f : R → IntVec → R) (c : IntVec) (cells : List IntVec) (r : R) :
    (List.range' 1 cells.length).foldl (fun r i => f r ((c :: cells).getD i 0)) r = cells.foldl f r := by
  have h := foldl_range_getD f (c :: cells)
  have : ∀ r, (List.range' 1 cells.length).foldl (fun r i => f r ((c :: cells).getD i 0)) r =
      (List.range' 0 cells.length).foldl (fun r i => f r (cells.getD i 0)) r := by
    intro r
    have e : List.range' 1 cells.length = (List.range' 0 cells.length).map (1 + ·) := by
      rw [List.map_add_range']
    rw [e, List.foldl_map]
    congr 1
    funext r i
    rw [Nat.add_comm, List.getD_cons_succ]
  rw [this, foldl_range_getD]

/-- The two kinds of loop over a region. -/
theorem red_core {V R : Type} [Add V] [Mul V] {n minus plus : IntVec} (hbox : IntVec.Lt 0 (n + minus + plus))
    {e : Expr V .num} (he : e.Wf n) (hs : e.StencilFree) (ho : e.HasOperand)
    (hd : ∀ c, InBox n minus plus c → e.DefinedAt n c) (m : Mem V) :
    ∃ w, e.init true m minus plus 0 = .ok w ∧
      (∀ (proc : R → V → R) r, Returns (fun trips => foldLoop proc m trips w r)
        ((regionCells n minus plus).foldl (fun r c => proc r (e.value m c)) r)) ∧
      (∀ proc : V → V → V, ∃ c cs, regionCells n minus plus = c :: cs ∧
        Returns (fun trips => reduceLoop proc m w trips) (cs.foldl (fun r c => proc r (e.value m c)) (e.value m c))) := by
  obtain ⟨w, N, hw, hN, hpos, hv, h1, h2⟩ := red_walk hbox he hs ho hd m
  refine ⟨w, hw, ?_, ?_⟩
  · intro proc r
    refine ⟨N, fun j hj => ?_⟩
    have := foldLoop_eq proc m hv h1 h2 N 0 (by omega) j hj r
    dsimp only
    rw [show w = w.nextN 0 from rfl, this, hN]
    rw [foldl_range_getD (fun r c => proc r (e.value m c))]
  · intro proc
    obtain ⟨c, cs, hcs⟩ : ∃ c cs, regionCells n minus plus = c :: cs := by
      cases h : regionCells n minus plus with
      | nil => rw [h] at hN; simp at hN; omega
      | cons c cs => exact ⟨c, cs, rfl⟩
    refine ⟨c, cs, hcs, N, fun j hj => ?_⟩
    have ev := hv 0 hpos
    unfold reduceLoop
    rw [hcs] at ev hN
    rw [show w.eval m = .ok (e.value m c) from ev]
    unfold andThen
    dsimp only
    have hlen : N = cs.length + 1 := by rw [hN]; rfl
    have := foldLoop_eq proc m hv h1 h2 cs.length 1 (by omega) j (by omega) (e.value m c)
    rw [show w.next = w.nextN 1 from rfl, this, hcs]
    rw [foldl_range_getD' (fun r c => proc r (e.value m c))]

end Nebo
end SpatialOps
