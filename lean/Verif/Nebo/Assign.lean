import Verif.Nebo.Eval

/-!
# Lemmas: the assignment loop
-/

namespace SpatialOps
namespace Nebo

/-- Element of window cell `loc`. -/
def winAddr (w : Window) (loc : IntVec) : Int := fortranPos w.npts (w.offset + loc)

theorem winAddr_inj {w : Window} (hw : w.Fits) {a b : IntVec} (ha : InBlock w.extent a)
    (hb : InBlock w.extent b) (h : winAddr w a = winAddr w b) : a = b := by
  have := fortranPos_inj (d := w.npts) (a := w.offset + a) (b := w.offset + b) (by iv_omega) (by iv_omega) h
  have h1 := congrArg IntVec.x this
  have h2 := congrArg IntVec.y this
  have h3 := congrArg IntVec.z this
  simp only [IntVec.add_x, IntVec.add_y, IntVec.add_z] at h1 h2 h3
  ext <;> omega

/-- The cell at position `k` of a window. -/
def nthLoc (w : Window) (k : Nat) : IntVec := (It.nth 0 w k).location

theorem nthLoc_spec {w : Window} (hw : w.Fits) (he : w.Nonempty) {k : Nat}
    (hk : (k : Int) < w.localNpts) : IsNthCell w.extent k (nthLoc w k) := by
  obtain ⟨loc, a, h1, h2, -, -⟩ := It.nth_spec hw he 0 hk
  unfold nthLoc; rw [h2]; exact h1

theorem nthLoc_surj {w : Window} (hw : w.Fits) (he : w.Nonempty) {loc : IntVec}
    (h : InBlock w.extent loc) : ∃ k : Nat, (k : Int) < w.localNpts ∧ nthLoc w k = loc := by
  have hb := fortranPos_bound h
  refine ⟨(fortranPos w.extent loc).toNat, ?_, ?_⟩
  · unfold Window.localNpts; omega
  · have hk : (((fortranPos w.extent loc).toNat : Nat) : Int) = fortranPos w.extent loc := by omega
    have := nthLoc_spec hw he (k := (fortranPos w.extent loc).toNat) (by unfold Window.localNpts; omega)
    rw [hk] at this
    exact nthCell_unique this ⟨h, rfl⟩

theorem store_ok {V : Type} {w : Window} (hw : w.Fits) (hn : w.Nonempty) {k : Nat} {loc : IntVec}
    (hk : IsNthCell w.extent k loc) (b : Nat) (v : V) (m : Mem V) :
    store (some b) w.globNpts (It.nth 0 w k) v m = .ok (m.write b (winAddr w loc) v) := by
  unfold store
  obtain ⟨h1, h2⟩ := nth_deref hw hn hk
  rw [h1, Outcome.ok_bind]
  unfold elemAt
  dsimp only
  rw [Outcome.ubUnless_true (p := _ ∧ _ < w.globNpts) (fortranPos_bound h2)]
  rfl

/-- The result of storing `val loc` at every cell of the window. -/
def Stored' {V : Type} (w : Window) (b : Nat) (val : IntVec → V) (m m' : Mem V) : Prop :=
  (∀ loc, InBlock w.extent loc → m' b (winAddr w loc) = val loc) ∧
  (∀ blk a, (blk ≠ b ∨ ∀ loc, InBlock w.extent loc → winAddr w loc ≠ a) → m' blk a = m blk a)

/-- The exact effect of the assignment loop: each cell receives the value of the walker in the
memory as it is when that cell's turn comes. -/
theorem walkAssign_exact {V : Type} {l : FieldObj} {b : Nat} (hv : l.values = some b)
    (hc : l.memType = .localRam) (hr : l.readOnly = false) (hw : l.geo.window.Fits)
    (hn : l.geo.window.Nonempty) {u : Walk V .num} {v : Mem V → IntVec → V}
    (m0 : Mem V) (ht : Tracks (t := .num) l.geo.window.extent u v) :
    ∃ m', walkAssign l u m0 = .ok m' ∧
      (∀ k : Nat, (k : Int) < l.geo.window.localNpts → ∃ mm : Mem V,
        (∀ blk a, ((blk = b ∧ ∃ j < k, winAddr l.geo.window (nthLoc l.geo.window j) = a) → mm blk a = m' blk a) ∧
          (¬ (blk = b ∧ ∃ j < k, winAddr l.geo.window (nthLoc l.geo.window j) = a) → mm blk a = m0 blk a)) ∧
        m' b (winAddr l.geo.window (nthLoc l.geo.window k)) = v mm (nthLoc l.geo.window k)) ∧
      (∀ blk a, (blk ≠ b ∨ ∀ loc, InBlock l.geo.window.extent loc → winAddr l.geo.window loc ≠ a) →
        m' blk a = m0 blk a) := by
  have hN := It.localNpts_nonneg hn
  unfold walkAssign FieldObj.beginM FieldObj.endM
  rw [Outcome.throwIf_false (by simp [hc]), Outcome.ok_bind, Outcome.throwIf_false (by simp [hr]),
    Outcome.ok_bind, Outcome.pure_eq, Outcome.ok_bind, Outcome.throwIf_false (by simp [hc]),
    Outcome.ok_bind, It.finish_eq_nth hn, Outcome.ok_bind, Outcome.pure_eq, Outcome.ok_bind]
  dsimp only
  rw [It.forIt_eq hw hn, hv]
  have key : ∀ N : Nat, (N : Int) ≤ l.geo.window.localNpts →
      ∃ m', foldO (fun k => assignBody (some b) l.geo.window.globNpts (It.nth 0 l.geo.window k))
          (List.range N) (m0, u) = .ok (m', u.nextN N) ∧
        (∀ k < N, ∃ mm : Mem V,
          (∀ blk a, ((blk = b ∧ ∃ j < k, winAddr l.geo.window (nthLoc l.geo.window j) = a) → mm blk a = m' blk a) ∧
            (¬ (blk = b ∧ ∃ j < k, winAddr l.geo.window (nthLoc l.geo.window j) = a) → mm blk a = m0 blk a)) ∧
          m' b (winAddr l.geo.window (nthLoc l.geo.window k)) = v mm (nthLoc l.geo.window k)) ∧
        (∀ blk a, (blk ≠ b ∨ ∀ k < N, winAddr l.geo.window (nthLoc l.geo.window k) ≠ a) →
          m' blk a = m0 blk a) := by
    intro N
    induction N with
    | zero => intro _; exact ⟨m0, rfl, fun k hk => absurd hk (by omega), fun _ _ _ => rfl⟩
    | succ N ih =>
      intro hle
      obtain ⟨m', h1, h2, h3⟩ := ih (by omega)
      have hN' : (N : Int) < l.geo.window.localNpts := by omega
      have hloc := nthLoc_spec hw hn hN'
      have hdist : ∀ k < N, winAddr l.geo.window (nthLoc l.geo.window k) ≠
          winAddr l.geo.window (nthLoc l.geo.window N) := by
        intro k hk he
        have hk' := nthLoc_spec hw hn (k := k) (by omega)
        have := winAddr_inj hw hk'.1 hloc.1 he
        have e1 := hk'.2
        rw [this, hloc.2] at e1
        omega
      have hold : ∀ blk a, ((blk = b ∧ ∃ j < N, winAddr l.geo.window (nthLoc l.geo.window j) = a) →
          (m'.write b (winAddr l.geo.window (nthLoc l.geo.window N)) (v m' (nthLoc l.geo.window N))) blk a =
            m' blk a) := by
        rintro blk a ⟨rfl, j, hj, rfl⟩
        unfold Mem.write
        rw [if_neg fun h => hdist j hj h.2]
      refine ⟨m'.write b (winAddr l.geo.window (nthLoc l.geo.window N)) (v m' (nthLoc l.geo.window N)), ?_, ?_, ?_⟩
      · rw [List.range_succ, foldO_append, h1, Outcome.ok_bind]
        simp only [foldO]
        unfold assignBody
        dsimp only
        rw [ht N _ hloc m', Outcome.ok_bind, store_ok hw hn hloc]
        rfl
      · intro k hk
        by_cases hkN : k = N
        · subst hkN
          refine ⟨m', fun blk a => ⟨fun h => (hold blk a h).symm, fun h => ?_⟩, ?_⟩
          · apply h3
            by_cases hb : blk = b
            · right
              intro j hj hja
              exact h ⟨hb, j, hj, hja⟩
            · exact .inl hb
          · unfold Mem.write; rw [if_pos ⟨rfl, rfl⟩]
        · obtain ⟨mm, hmm, hval⟩ := h2 k (by omega)
          refine ⟨mm, fun blk a => ⟨?_, (hmm blk a).2⟩, ?_⟩
          · rintro ⟨hb, j, hj, hja⟩
            rw [hold blk a ⟨hb, j, by omega, hja⟩]
            exact (hmm blk a).1 ⟨hb, j, hj, hja⟩
          · rw [hold b _ ⟨rfl, k, by omega, rfl⟩, hval]
      · intro blk a ha
        unfold Mem.write
        rw [if_neg, h3 blk a]
        · rcases ha with ha | ha
          · exact .inl ha
          · exact .inr fun k hk => ha k (by omega)
        · rintro ⟨rfl, rfl⟩
          rcases ha with ha | ha
          · exact ha rfl
          · exact ha N (by omega) rfl
  obtain ⟨m', h1, h2, h3⟩ := key l.geo.window.localNpts.toNat (by omega)
  rw [h1]
  refine ⟨m', rfl, fun k hk => h2 k (by omega), ?_⟩
  intro blk a ha
  apply h3
  rcases ha with ha | ha
  · exact .inl ha
  · exact .inr fun k hk => ha _ (nthLoc_spec hw hn (by omega)).1

theorem walkAssign_ok {V : Type} {l : FieldObj} {b : Nat} (hv : l.values = some b)
    (hc : l.memType = .localRam) (hr : l.readOnly = false) (hw : l.geo.window.Fits)
    (hn : l.geo.window.Nonempty) {u : Walk V .num} {v : Mem V → IntVec → V} {val : IntVec → V}
    (m0 : Mem V) (ht : Tracks (t := .num) l.geo.window.extent u v)
    (hval : ∀ loc, InBlock l.geo.window.extent loc → ∀ m : Mem V,
      (∀ blk a, (blk ≠ b ∨ a = winAddr l.geo.window loc) → m blk a = m0 blk a) → v m loc = val loc) :
    ∃ m', walkAssign l u m0 = .ok m' ∧ Stored' l.geo.window b val m0 m' := by
  obtain ⟨m', h1, h2, h3⟩ := walkAssign_exact hv hc hr hw hn m0 ht
  refine ⟨m', h1, fun loc hloc => ?_, h3⟩
  obtain ⟨k, hk, rfl⟩ := nthLoc_surj hw hn hloc
  obtain ⟨mm, hmm, hv⟩ := h2 k hk
  rw [hv]
  refine hval _ hloc mm fun blk a ha => (hmm blk a).2 ?_
  rintro ⟨rfl, j, hj, hja⟩
  rcases ha with ha | ha
  · exact ha rfl
  · rw [ha] at hja
    have hk' := nthLoc_spec hw hn (k := j) (by omega)
    have hk2 := nthLoc_spec hw hn hk
    have := winAddr_inj hw hk'.1 hk2.1 hja
    have e1 := hk'.2
    rw [this, hk2.2] at e1
    omega

/-! ## Ghosts used by an assignment -/

theorem throwIf_three {p q r : Prop} [Decidable p] [Decidable q] [Decidable r] {α : Type}
    (h : ¬ (p ∨ q ∨ r)) (k : Outcome α) :
    (Outcome.throwIf p >>= fun _ => Outcome.throwIf q >>= fun _ => Outcome.throwIf r >>= fun _ => k) = k := by
  rw [Outcome.throwIf_false (fun h' => h (.inl h')), Outcome.ok_bind,
    Outcome.throwIf_false (fun h' => h (.inr (.inl h'))), Outcome.ok_bind,
    Outcome.throwIf_false (fun h' => h (.inr (.inr h'))), Outcome.ok_bind]

/-- The region an assignment covers, in terms of the possible ghosts of the
right-hand side: `rg` are the ghosts used. -/
theorem calc_ok {n : IntVec} {l : FieldGeo} (hl : OnMesh n l) {pg : GhostData} (hp : pg.Valid)
    (hx : IntVec.Le l.bc.hasExtra pg.plus) (useGhost : Bool) :
    ∃ rg lg, calcValidGhost useGhost l.ghosts l.bc pg = .ok rg ∧ rg.Valid ∧
      calcValidLhsGhost rg l.bc = .ok lg ∧ lg.Valid ∧ lg.minus = rg.minus ∧
      lg.plus = rg.plus - l.bc.hasExtra ∧
      (∀ c, InBox n rg.minus rg.plus c ↔
        if useGhost then InBox n l.ghosts.minus (l.ghosts.plus + l.bc.hasExtra) c ∧ InBox n pg.minus pg.plus c
        else InBox n 0 l.bc.hasExtra c) ∧
      IntVec.Le rg.minus l.ghosts.minus ∧ IntVec.Le lg.plus l.ghosts.plus ∧
      IntVec.Le rg.minus pg.minus ∧ IntVec.Le rg.plus pg.plus := by
  obtain ⟨le, h1, h2, h3, h4⟩ := add_extra hl.ghosts hl.ghostsFinite hl.extra
  have hgv := hl.ghosts
  have hxe := hl.extra
  have hlhs : ∀ rg : GhostData, rg.Valid → IntVec.Le l.bc.hasExtra rg.plus →
      ∃ lg, calcValidLhsGhost rg l.bc = .ok lg ∧ lg.Valid ∧ lg.minus = rg.minus ∧
        lg.plus = rg.plus - l.bc.hasExtra := by
    intro rg hv hle
    have hnp := np_of_nonneg hl.extra
    refine ⟨{ rg with minus := rg.minus - np l.bc.hasExtra, plus := rg.plus - pp l.bc.hasExtra }, ?_, ?_, ?_, ?_⟩
    · unfold calcValidLhsGhost
      rw [ptg_eq, Outcome.ok_bind]
      refine (sub_ok_iff hv rfl).2 ⟨?_, rfl⟩
      dsimp only
      rw [hnp.1, hnp.2]
      unfold GhostData.Valid at hv; iv_omega
    · unfold GhostData.Valid at hv ⊢
      dsimp only
      rw [hnp.1, hnp.2]; iv_omega
    · dsimp only; rw [hnp.1]; ext <;> simp
    · dsimp only; rw [hnp.2]
  unfold calcValidGhost
  have hthrow : ¬ ((l.bc.isbc.x ≠ 0 ∧ pg.plus.x < l.bc.hasExtra.x) ∨
      (l.bc.isbc.y ≠ 0 ∧ pg.plus.y < l.bc.hasExtra.y) ∨ (l.bc.isbc.z ≠ 0 ∧ pg.plus.z < l.bc.hasExtra.z)) := by
    unfold IntVec.Le at hx; omega
  have hcalc : ∀ k : GhostData → Outcome GhostData,
      (GhostData.pointToGhost l.bc.hasExtra >>= fun e => l.ghosts.add e >>= k) = k le := by
    intro k
    have : (GhostData.pointToGhost l.bc.hasExtra >>= fun e => l.ghosts.add e >>= k) =
        ((GhostData.pointToGhost l.bc.hasExtra >>= fun e => l.ghosts.add e) >>= k) := by
      cases GhostData.pointToGhost l.bc.hasExtra <;> rfl
    rw [this, h1]; rfl
  rw [throwIf_three hthrow, hcalc]
  cases useGhost with
  | true =>
    obtain ⟨rg, r1, r2, r3, r4⟩ := min_ok h2 hp
    have hplus : IntVec.Le l.bc.hasExtra rg.plus := by
      rw [r4, h4]; unfold IntVec.min; unfold GhostData.Valid at hgv; iv_omega
    obtain ⟨lg, l1, l2, l3, l4⟩ := hlhs rg r2 hplus
    refine ⟨rg, lg, r1, r2, l1, l2, l3, l4, ?_, ?_, ?_, ?_, ?_⟩
    · intro c
      rw [if_pos rfl, r3, r4, inBox_min, h3, h4]
    · rw [r3, h3]; unfold IntVec.min; iv_omega
    · rw [l4, r4, h4]; unfold IntVec.min; iv_omega
    · rw [r3]; unfold IntVec.min; iv_omega
    · rw [r4]; unfold IntVec.min; iv_omega
  | false =>
    have hv0 : IntVec.Le 0 (0 : IntVec) ∧ IntVec.Le 0 l.bc.hasExtra := ⟨by iv_omega, hxe⟩
    have hm := GhostData.make_ok hv0
    obtain ⟨lg, l1, l2, l3, l4⟩ := hlhs ⟨0, l.bc.hasExtra, _⟩ hv0
      (by dsimp only; iv_omega)
    refine ⟨_, lg, hm, hv0, l1, l2, l3, l4, ?_, ?_, ?_, ?_, ?_⟩
    · intro c; simp
    · dsimp only; exact hgv.1
    · rw [l4]; dsimp only; unfold GhostData.Valid at hgv; iv_omega
    · exact hp.1
    · exact hx

/-- The window of the destination cut to the region assigned. -/
theorem reset_ok' {n : IntVec} {l : FieldObj} (hl : OnMesh n l.geo)
    (hroom : IntVec.Le 0 (origin l.geo - l.geo.ghosts.minus) ∧
      IntVec.Le (origin l.geo + n + l.geo.bc.hasExtra + l.geo.ghosts.plus) l.geo.window.npts)
    {rg lg : GhostData} (hv : lg.Valid) (hm : lg.minus = rg.minus) (hp : lg.plus = rg.plus - l.geo.bc.hasExtra)
    (h1 : IntVec.Le rg.minus l.geo.ghosts.minus) (h2 : IntVec.Le lg.plus l.geo.ghosts.plus)
    (hbox : IntVec.Lt 0 (n + rg.minus + rg.plus)) :
    ∃ g geo, GhostData.make lg.minus lg.plus = .ok g ∧ l.geo.resetValidGhosts g = .ok geo ∧
      geo = { l.geo with window := ⟨l.geo.window.npts, origin l.geo - rg.minus, n + rg.minus + rg.plus⟩, validGhosts := g } ∧
      Window.Fits ⟨l.geo.window.npts, origin l.geo - rg.minus, n + rg.minus + rg.plus⟩ := by
  have hfit : Window.Fits ⟨l.geo.window.npts, origin l.geo - rg.minus, n + rg.minus + rg.plus⟩ := by
    have hr := hroom
    have hF := hl.fits
    have hP : IntVec.Le (rg.plus) (l.geo.ghosts.plus + l.geo.bc.hasExtra) := by rw [hp] at h2; iv_omega
    refine ⟨hF.1, ?_, ?_, ?_⟩ <;> iv_omega
  have hs := hl.size
  have eo : l.geo.window.offset + (l.geo.validGhosts.minus - lg.minus) = origin l.geo - rg.minus := by
    unfold origin; rw [hm]; ext <;> simp <;> omega
  have ee : l.geo.window.extent - (l.geo.validGhosts.minus - lg.minus) - l.geo.validGhosts.plus + lg.plus =
      n + rg.minus + rg.plus := by
    rw [hs, hm, hp]; ext <;> simp <;> omega
  refine ⟨⟨lg.minus, lg.plus, _⟩, _, GhostData.make_ok hv, ?_, rfl, hfit⟩
  unfold FieldGeo.resetValidGhosts
  dsimp only
  rw [eo, ee, Window.make_ok (by unfold Window.sanityCheck; iv_omega), Outcome.ok_bind,
    GhostData.copy_ok (g := ⟨lg.minus, lg.plus, GhostData.ghostInfinite lg.minus lg.plus⟩) hv]
  rfl

/-- Sequential assignment, in terms of possible ghosts; the expression may read the
destination. -/
theorem sequentialAssign_exact {V : Type} [Add V] [Mul V] {n : IntVec} {l : FieldObj} {b : Nat}
    (ht : Target n l b) {e : Expr V .num} (he : e.Wf n) {pg : GhostData}
    (hpg : e.possibleGhosts = .ok pg) (hx : IntVec.Le l.geo.bc.hasExtra pg.plus) (useGhost : Bool)
    (hne : ∃ c, if useGhost then Stored n l c ∧ e.DefinedAt n c else Interior n l c)
    (m : Mem V) :
    ∃ m', sequentialAssign useGhost l e m = .ok m' ∧
      AssignedInTurn l b e (fun c => if useGhost then Stored n l c ∧ e.DefinedAt n c else Interior n l c) m m' := by
  obtain ⟨pv, pex⟩ := possibleGhosts_exact e he pg hpg
  obtain ⟨rg, lg, c1, c2, c3, c4, c5, c6, c7, c8, c9, c10, c11⟩ := calc_ok ht.mesh pv hx useGhost
  have hreg : ∀ c, (if useGhost = true then Stored n l c ∧ e.DefinedAt n c else Interior n l c) ↔
      InBox n rg.minus rg.plus c := by
    intro c
    rw [c7]
    cases useGhost with
    | true =>
      simp only [if_true]
      rw [pex]
      have : Stored n l c ↔ InBox n l.geo.ghosts.minus (l.geo.ghosts.plus + l.geo.bc.hasExtra) c := by
        unfold Stored InBox; constructor <;> intro h <;> iv_omega
      rw [this]
    | false =>
      simp only [Bool.false_eq_true, if_false]
      unfold Interior InBox
      constructor <;> intro h <;> iv_omega
  have hbox : IntVec.Lt 0 (n + rg.minus + rg.plus) := by
    obtain ⟨c, hc⟩ := hne
    have := (hreg c).1 hc
    unfold InBox at this; iv_omega
  have hdef : ∀ c, InBox n rg.minus rg.plus c → e.DefinedAt n c := by
    intro c hc
    rw [pex]
    unfold InBox at hc ⊢; iv_omega
  obtain ⟨g, geo, g1, g2, g3, g4⟩ := reset_ok' ht.mesh ht.room c4 c5 c6 c8 c9 hbox
  obtain ⟨w, w1, w2⟩ := init_tracks false m hbox e he 0 fun c hc =>
    ⟨hdef c hc, by
      have : c + 0 = c := by ext <;> simp
      rw [this]; exact hdef c hc⟩
  have gw : geo.window = ⟨l.geo.window.npts, origin l.geo - rg.minus, n + rg.minus + rg.plus⟩ := by rw [g3]
  have haddr : ∀ loc, winAddr geo.window loc = cellAddr l.geo (loc - rg.minus) := by
    intro loc
    rw [gw]
    unfold winAddr cellAddr
    congr 1
    ext <;> simp <;> omega
  obtain ⟨m', m1, m2, m3⟩ := walkAssign_exact (l := { l with geo := geo }) (b := b) ht.mem ht.cpu ht.writable
    (by dsimp only; rw [gw]; exact g4) (by dsimp only; rw [gw]; exact hbox) (u := w)
    (v := fun m' loc => e.value2 m m' (loc - rg.minus + 0)) m
    (by dsimp only; rw [gw]; exact w2)
  dsimp only at m2 m3
  have hfit : geo.window.Fits := by rw [gw]; exact g4
  have hnon : geo.window.Nonempty := by rw [gw]; exact hbox
  have hext : geo.window.extent = n + rg.minus + rg.plus := by rw [gw]
  refine ⟨m', ?_, ?_, ?_⟩
  · unfold sequentialAssign
    rw [hpg, Outcome.ok_bind, c1, Outcome.ok_bind, c3, Outcome.ok_bind, g1, Outcome.ok_bind, g2,
      Outcome.ok_bind, w1, Outcome.ok_bind, m1]
  · intro c hc
    have hc' := (hreg c).1 hc
    obtain ⟨k, hk, hkc⟩ := nthLoc_surj hfit hnon (loc := c + rg.minus) (by
      rw [hext]; unfold InBox at hc'; iv_omega)
    obtain ⟨mm, hmm, hval⟩ := m2 k hk
    have ec : c + rg.minus - rg.minus = c := by ext <;> simp
    have h0 : c + 0 = c := by ext <;> simp
    rw [hkc, haddr, ec, h0] at hval
    refine ⟨mm, fun blk a => ?_, hval⟩
    have key : (∃ j < k, winAddr geo.window (nthLoc geo.window j) = a) ↔
        ∃ c', (if useGhost = true then Stored n l c' ∧ e.DefinedAt n c' else Interior n l c') ∧
          FortranLt c' c ∧ cellAddr l.geo c' = a := by
      have hk2 := nthLoc_spec hfit hnon hk
      rw [hkc] at hk2
      constructor
      · rintro ⟨j, hj, hja⟩
        have hj2 := nthLoc_spec hfit hnon (k := j) (by omega)
        rw [haddr] at hja
        refine ⟨_, (hreg _).2 ?_, ?_, hja⟩
        · have := hj2.1
          rw [hext] at this
          generalize nthLoc geo.window j = x at this
          unfold InBox; iv_omega
        · have hlt := (fortranPos_lt_iff hj2.1 hk2.1).1 (by rw [hj2.2, hk2.2]; omega)
          generalize nthLoc geo.window j = x at hlt
          unfold FortranLt at hlt ⊢
          simp only [IntVec.add_x, IntVec.add_y, IntVec.add_z, IntVec.sub_x, IntVec.sub_y, IntVec.sub_z] at hlt ⊢
          omega
      · rintro ⟨c', hr, hlt, hca⟩
        have hr' := (hreg c').1 hr
        obtain ⟨j, hj, hjc⟩ := nthLoc_surj hfit hnon (loc := c' + rg.minus) (by
          rw [hext]; unfold InBox at hr'; iv_omega)
        have hj2 := nthLoc_spec hfit hnon hj
        rw [hjc] at hj2
        refine ⟨j, ?_, by rw [hjc, haddr, show c' + rg.minus - rg.minus = c' by ext <;> simp]; exact hca⟩
        have := (fortranPos_lt_iff hj2.1 hk2.1).2 (by
          unfold FortranLt at hlt ⊢
          simp only [IntVec.add_x, IntVec.add_y, IntVec.add_z] at hlt ⊢
          omega)
        rw [hj2.2, hk2.2] at this
        omega
    rw [← key]
    exact hmm blk a
  · intro blk a ha
    apply m3
    rcases ha with ha | ha
    · exact .inl ha
    · refine .inr fun loc hloc => ?_
      rw [haddr]
      apply ha
      rw [hreg]
      rw [gw] at hloc
      unfold InBox
      dsimp only at hloc
      iv_omega

/-- Different cells of the region assigned have different elements. -/
theorem regionAddr_inj {V : Type} {n : IntVec} {l : FieldObj} {b : Nat}
    (ht : Target n l b) {e : Expr V .num} (_he : e.Wf n) {pg : GhostData}
    (_hpg : e.possibleGhosts = .ok pg) (useGhost : Bool) {c c' : IntVec}
    (hc : if useGhost = true then Stored n l c ∧ e.DefinedAt n c else Interior n l c)
    (hc' : if useGhost = true then Stored n l c' ∧ e.DefinedAt n c' else Interior n l c')
    (h : cellAddr l.geo c = cellAddr l.geo c') : c = c' := by
  have hS : ∀ c, (if useGhost = true then Stored n l c ∧ e.DefinedAt n c else Interior n l c) → Stored n l c := by
    intro c hc
    cases useGhost with
    | true => exact hc.1
    | false =>
      have := ht.mesh.ghosts
      unfold GhostData.Valid at this
      have h2 : Interior n l c := hc
      unfold Interior at h2
      unfold Stored
      iv_omega
  have a1 := hS c hc
  have a2 := hS c' hc'
  have hr := ht.room
  unfold Stored at a1 a2
  unfold cellAddr at h
  have := fortranPos_inj (d := l.geo.window.npts) (a := origin l.geo + c) (b := origin l.geo + c')
    (by iv_omega) (by iv_omega) h
  have h1 := congrArg IntVec.x this
  have h2 := congrArg IntVec.y this
  have h3 := congrArg IntVec.z this
  simp only [IntVec.add_x, IntVec.add_y, IntVec.add_z] at h1 h2 h3
  ext <;> omega

/-- Sequential assignment, in terms of possible ghosts. -/
theorem sequentialAssign_core {V : Type} [Add V] [Mul V] {n : IntVec} {l : FieldObj} {b : Nat}
    (ht : Target n l b) {e : Expr V .num} (he : e.Wf n) (hi : e.Independent l 0) {pg : GhostData}
    (hpg : e.possibleGhosts = .ok pg) (hx : IntVec.Le l.geo.bc.hasExtra pg.plus) (useGhost : Bool)
    (hne : ∃ c, if useGhost then Stored n l c ∧ e.DefinedAt n c else Interior n l c)
    (m : Mem V) :
    ∃ m', sequentialAssign useGhost l e m = .ok m' ∧
      Assigned l b e (fun c => if useGhost then Stored n l c ∧ e.DefinedAt n c else Interior n l c) m m' := by
  obtain ⟨m', h1, h2, h3⟩ := sequentialAssign_exact ht he hpg hx useGhost hne m
  refine ⟨m', h1, fun c hc => ?_, h3⟩
  obtain ⟨mm, hmm, hval⟩ := h2 c hc
  rw [hval]
  have h0 : c + 0 = c := by ext <;> simp
  have := value2_eq (m0 := m) (m := mm) (l := l) (c := c) (n := n) (by
    intro blk a ha
    refine (hmm blk a).2 ?_
    rintro ⟨rfl, c', hr, hlt, hca⟩
    rcases ha with ha | ha
    · exact ha ht.mem.symm
    · have := regionAddr_inj ht he hpg useGhost hr hc (hca.trans ha)
      subst this
      unfold FortranLt at hlt
      omega) e he 0 hi
  rw [h0] at this
  exact this

end Nebo
end SpatialOps
