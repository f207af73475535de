import Verif.Meshes.Spec
import Verif.Nebo.Safe
import Verif.Nebo.Props
import Verif.Flat.Refuse
import Verif.Release.Lemmas

/-!
# Lemmas: operands on another mesh
-/

namespace SpatialOps
namespace Nebo
namespace Meshes

/-- A walker that fails at its `k`-th position. -/
def Stops {V : Type} {t : Ty} (w : Walk V t) (k : Nat) : Prop := ∀ (m : Mem V) (v : t.den V), (w.nextN k).eval m ≠ .ok v

theorem reshape_extent {f r : FieldGeo} {m s : IntVec} (h : f.reshape false m s = .ok r) :
    r.window.extent = f.window.extent + m := by
  unfold FieldGeo.reshape at h
  obtain ⟨w, hw, h⟩ := Outcome.bind_eq_ok.1 h
  obtain ⟨rfl, -⟩ := window_make_inv hw
  rw [(windowCopy_inv h).1]

theorem leaf_extent {n : IntVec} {f r : FieldGeo} (hf : OnMesh n f) {minus plus s : IntVec}
    (h : resizeGhostAndShift f minus (plus - f.bc.hasExtra) s = .ok r) : r.window.extent = n + minus + plus := by
  unfold resizeGhostAndShift resizeGhost shiftWindow at h
  obtain ⟨q, h1, h2⟩ := Outcome.bind_eq_ok.1 h
  rw [reshape_extent h2, reshape_extent h1, hf.size]
  ext <;> simp <;> omega

theorem stops_bin_left {V : Type} {s t : Ty} {op : s.den V → s.den V → t.den V} {a b : Walk V s} {k : Nat} (h : Stops a k) :
    Stops (.bin op a b) k := by
  intro m v hv
  rw [nextN_bin] at hv
  unfold Walk.eval at hv
  obtain ⟨x, hx, -⟩ := Outcome.bind_eq_ok.1 hv
  exact h m x hx

theorem stops_bin_right {V : Type} {s t : Ty} {op : s.den V → s.den V → t.den V} {a b : Walk V s} {k : Nat} (h : Stops b k) :
    Stops (.bin op a b) k := by
  intro m v hv
  rw [nextN_bin] at hv
  unfold Walk.eval at hv
  obtain ⟨x, -, hv⟩ := Outcome.bind_eq_ok.1 hv
  obtain ⟨y, hy, -⟩ := Outcome.bind_eq_ok.1 hv
  exact h m y hy

theorem construct_stops {V α : Type} [Add V] {f : α → Outcome (Walk V .num)} {k : Nat} (hf : ∀ a w, f a = .ok w → Stops w k) :
    (pts : Pts α) → (w : Walk V .num) → pts.construct f = .ok w → Stops w k
  | .one a, w, h => hf a w h
  | .more e a, w, h => by
    simp only [Pts.construct] at h
    obtain ⟨x, hx, h⟩ := Outcome.bind_eq_ok.1 h
    obtain ⟨y, hy, h⟩ := Outcome.bind_eq_ok.1 h
    injection h with h
    rw [← h]
    exact stops_bin_left (construct_stops hf e x hx)

/-- Past the last cell of a field that is always read, the walker fails. -/
theorem init_stops {V : Type} [Add V] [Mul V] (m0 : Mem V) {n' minus plus : IntVec} (hbox : IntVec.Lt 0 (n' + minus + plus)) {k : Nat}
    (hk : cells (n' + minus + plus) ≤ k) : {t : Ty} → (e : Expr V t) → e.AlwaysReads n' → (s : IntVec) → (w : Walk V t) →
    e.init false m0 minus plus s = .ok w → Stops w k
  | _, .scalar _, h, _, _, _ => absurd h (by simp [Expr.AlwaysReads])
  | _, .single _, h, _, _, _ => absurd h (by simp [Expr.AlwaysReads])
  | _, .mask _, h, _, _, _ => absurd h (by simp [Expr.AlwaysReads])
  | _, .field f, h, s, w, hw => by
    simp only [Expr.init] at hw
    obtain ⟨g, hg, hw⟩ := Outcome.bind_eq_ok.1 hw
    have hext := leaf_extent h hg
    unfold fieldWalk FieldObj.beginC at hw
    obtain ⟨i, hi, hw⟩ := Outcome.bind_eq_ok.1 hw
    obtain ⟨-, -, hi⟩ := Outcome.bind_eq_ok.1 hi
    injection hi with hi
    subst hi
    simp only [Bool.false_eq_true, if_false] at hw
    injection hw with hw
    rw [← hw]
    intro m v hv
    rw [nextN_field] at hv
    unfold Walk.eval at hv
    rw [It.deref_past (nth_past (w := g.window) (by unfold Window.Nonempty; rw [hext]; exact hbox) (by
      unfold Window.localNpts; rw [hext]; exact hk))] at hv
    cases hv
  | _, .maskShift p a, h, s, w, hw => init_stops m0 hbox hk a h _ w hw
  | _, .un op a, h, s, w, hw => by
    simp only [Expr.init] at hw
    obtain ⟨x, hx, hw⟩ := Outcome.bind_eq_ok.1 hw
    injection hw with hw
    rw [← hw]
    intro m v hv
    rw [nextN_un] at hv
    unfold Walk.eval at hv
    obtain ⟨y, hy, -⟩ := Outcome.bind_eq_ok.1 hv
    exact init_stops m0 hbox hk a h s x hx m y hy
  | _, .bin op a b, h, s, w, hw => by
    simp only [Expr.init] at hw
    obtain ⟨x, hx, hw⟩ := Outcome.bind_eq_ok.1 hw
    obtain ⟨y, hy, hw⟩ := Outcome.bind_eq_ok.1 hw
    injection hw with hw
    rw [← hw]
    rcases h with h | h
    · exact stops_bin_left (init_stops m0 hbox hk a h s x hx)
    · exact stops_bin_right (init_stops m0 hbox hk b h s y hy)
  | _, .and a b, h, s, w, hw => by
    simp only [Expr.init] at hw
    obtain ⟨x, hx, hw⟩ := Outcome.bind_eq_ok.1 hw
    obtain ⟨y, hy, hw⟩ := Outcome.bind_eq_ok.1 hw
    injection hw with hw
    rw [← hw]
    intro m v hv
    rw [nextN_and] at hv
    unfold Walk.eval at hv
    obtain ⟨y, hy, -⟩ := Outcome.bind_eq_ok.1 hv
    exact init_stops m0 hbox hk a h s x hx m y hy
  | _, .or a b, h, s, w, hw => by
    simp only [Expr.init] at hw
    obtain ⟨x, hx, hw⟩ := Outcome.bind_eq_ok.1 hw
    obtain ⟨y, hy, hw⟩ := Outcome.bind_eq_ok.1 hw
    injection hw with hw
    rw [← hw]
    intro m v hv
    rw [nextN_or] at hv
    unfold Walk.eval at hv
    obtain ⟨y, hy, -⟩ := Outcome.bind_eq_ok.1 hv
    exact init_stops m0 hbox hk a h s x hx m y hy
  | _, .cond c a b, h, s, w, hw => by
    simp only [Expr.init] at hw
    obtain ⟨x, hx, hw⟩ := Outcome.bind_eq_ok.1 hw
    obtain ⟨y, hy, hw⟩ := Outcome.bind_eq_ok.1 hw
    obtain ⟨z, hz, hw⟩ := Outcome.bind_eq_ok.1 hw
    injection hw with hw
    rw [← hw]
    intro m v hv
    rw [nextN_cond] at hv
    unfold Walk.eval at hv
    obtain ⟨q, hq, hv⟩ := Outcome.bind_eq_ok.1 hv
    rcases h with h | ⟨h1, h2⟩
    · exact init_stops m0 hbox hk c h s x hx m q hq
    · cases q with
      | true => exact init_stops m0 hbox hk a h1 s y hy m v hv
      | false => exact init_stops m0 hbox hk b h2 s z hz m v hv
  | _, .stencil pts a, h, s, w, hw => by
    simp only [Expr.init] at hw
    refine construct_stops ?_ pts w hw
    intro q w hw
    obtain ⟨x, hx, hw⟩ := Outcome.bind_eq_ok.1 hw
    injection hw with hw
    rw [← hw]
    exact stops_bin_left (init_stops m0 hbox hk a h _ x hx)
  | _, .sumStencil pts a, h, s, w, hw => by
    simp only [Expr.init] at hw
    refine construct_stops ?_ pts w hw
    intro q w hw
    exact init_stops m0 hbox hk a h _ w hw

theorem fold_stops {V : Type} {base : Option Nat} {size : Int} {wn : Window} {u : Walk V .num} {k : Nat} (hs : Stops u k) (m : Mem V) :
    ∀ N, k < N → ∀ r, foldO (fun j => assignBody base size (It.nth 0 wn j)) (List.range N) (m, u) ≠ .ok r := by
  have walk : ∀ N r, foldO (fun j => assignBody base size (It.nth 0 wn j)) (List.range N) (m, u) = .ok r → r.2 = u.nextN N := by
    intro N
    induction N with
    | zero => intro r h; injection h with h; subst h; rfl
    | succ N ih =>
      intro r h
      rw [List.range_succ, foldO_append] at h
      obtain ⟨q, hq, h⟩ := Outcome.bind_eq_ok.1 h
      have := ih q hq
      simp only [foldO] at h
      obtain ⟨p, hp, h⟩ := Outcome.bind_eq_ok.1 h
      injection h with h
      subst h
      unfold assignBody at hp
      obtain ⟨v, hv, hp⟩ := Outcome.bind_eq_ok.1 hp
      obtain ⟨a, ha, hp⟩ := Outcome.bind_eq_ok.1 hp
      injection hp with hp
      subst hp
      dsimp only
      rw [this]
      rfl
  intro N
  induction N with
  | zero => intro h; omega
  | succ N ih =>
    intro hk r h
    rw [List.range_succ, foldO_append] at h
    obtain ⟨q, hq, h⟩ := Outcome.bind_eq_ok.1 h
    by_cases hkN : k < N
    · exact ih hkN q hq
    · have : k = N := by omega
      subst this
      simp only [foldO] at h
      obtain ⟨p, hp, h⟩ := Outcome.bind_eq_ok.1 h
      unfold assignBody at hp
      obtain ⟨v, hv, hp⟩ := Outcome.bind_eq_ok.1 hp
      rw [walk _ q hq] at hv
      exact hs q.1 v hv

theorem prod_lt {a b : IntVec} (h0 : IntVec.Lt 0 a) (h : IntVec.Le a b) (hne : a ≠ b) : cells a < cells b := by
  unfold cells
  obtain ⟨ax, ay, az⟩ := a
  obtain ⟨bx, by', bz⟩ := b
  obtain ⟨x0, y0, z0⟩ := h0
  obtain ⟨hx, hy, hz⟩ := h
  simp only [IntVec.zero_x, IntVec.zero_y, IntVec.zero_z] at *
  have h1 : ax * ay ≤ bx * by' := by nlinarith
  have h2 : 0 < ax * ay := by positivity
  have hd : ax < bx ∨ ay < by' ∨ az < bz := by
    by_contra hc
    apply hne
    simp only [IntVec.mk.injEq]
    omega
  rcases hd with hd | hd | hd
  · have : ax * ay < bx * by' := by nlinarith
    nlinarith
  · have : ax * ay < bx * by' := by nlinarith
    nlinarith
  · nlinarith

theorem small_refused {V : Type} [Add V] [Mul V] {n n' : IntVec} (hn : IntVec.Lt 0 n) {l : FieldObj} {b : Nat} (ht : Target n l b)
    {e : Expr V .num} (he : e.Sane) (hs : Smaller n' n) (hr : e.AlwaysReads n') (u : Bool) (m : Mem V) :
    Refused (sequentialAssign u l e m) := by
  cases ho : sequentialAssign u l e m with
  | abort => exact .inl rfl
  | throws => exact .inr rfl
  | ub => exact absurd ho (sequentialAssign_safe hn ht.mesh ht.mem ht.room he u m).1
  | ok m' =>
    exfalso
    unfold sequentialAssign at ho
    obtain ⟨pg, hpg, ho⟩ := Outcome.bind_eq_ok.1 ho
    have pv := (init_safe (minus := 0) (plus := 0) false m (by iv_omega) (by iv_omega) e he 0 pg hpg).1
    have hx : IntVec.Le l.geo.bc.hasExtra pg.plus := by
      by_contra hx
      rw [calc_refused hx pv u] at ho
      cases ho
    obtain ⟨rg, lg, c1, c2, c3, c4, c5, c6, c7, c8, c9, c10, c11⟩ := calc_ok ht.mesh pv hx u
    obtain ⟨s1, s2, s3⟩ := hs
    have hb' : IntVec.Lt 0 (n' + rg.minus + rg.plus) := by unfold GhostData.Valid at c2; iv_omega
    have hbox : IntVec.Lt 0 (n + rg.minus + rg.plus) := by unfold GhostData.Valid at c2; iv_omega
    obtain ⟨g, geo, g1, g2, g3, g4⟩ := reset_ok' ht.mesh ht.room c4 c5 c6 c8 c9 hbox
    rw [c1, Outcome.ok_bind, c3, Outcome.ok_bind, g1, Outcome.ok_bind, g2, Outcome.ok_bind] at ho
    obtain ⟨w, hw, ho⟩ := Outcome.bind_eq_ok.1 ho
    have hlt : cells (n' + rg.minus + rg.plus) < cells (n + rg.minus + rg.plus) := by
      refine prod_lt hb' (by iv_omega) fun h => s3 ?_
      have := congrArg IntVec.x h
      have := congrArg IntVec.y h
      have := congrArg IntVec.z h
      simp only [IntVec.add_x, IntVec.add_y, IntVec.add_z] at *
      ext <;> omega
    have hpos : 0 ≤ cells (n' + rg.minus + rg.plus) := by
      unfold cells
      obtain ⟨p1, p2, p3⟩ := hb'
      simp only [IntVec.zero_x, IntVec.zero_y, IntVec.zero_z] at p1 p2 p3
      positivity
    have hstop := init_stops m hb' (k := (cells (n' + rg.minus + rg.plus)).toNat) (by omega) e hr 0 w hw
    have gw : geo.window = ⟨l.geo.window.npts, origin l.geo - rg.minus, n + rg.minus + rg.plus⟩ := by rw [g3]
    have hnon : geo.window.Nonempty := by rw [gw]; exact hbox
    have hfit : geo.window.Fits := by rw [gw]; exact g4
    have hloc : geo.window.localNpts = cells (n + rg.minus + rg.plus) := by rw [gw]; rfl
    unfold walkAssign FieldObj.beginM FieldObj.endM at ho
    dsimp only at ho
    rw [Outcome.throwIf_false (by simp [ht.cpu]), Outcome.ok_bind, Outcome.throwIf_false (by simp [ht.writable]),
      Outcome.ok_bind, Outcome.pure_eq, Outcome.ok_bind, Outcome.throwIf_false (by simp [ht.cpu]),
      Outcome.ok_bind, It.finish_eq_nth hnon, Outcome.ok_bind, Outcome.pure_eq, Outcome.ok_bind] at ho
    dsimp only at ho
    rw [It.forIt_eq hfit hnon] at ho
    obtain ⟨r, hr', -⟩ := Outcome.bind_eq_ok.1 ho
    exact fold_stops hstop m _ (by rw [hloc]; omega) r hr'

/-! ## In order -/

/-- The `k`-th cell of a block. -/
def cellNo (e : IntVec) (k : Int) : IntVec := ⟨k % e.x, k / e.x % e.y, k / (e.x * e.y)⟩

theorem cellNo_spec {e : IntVec} (he : IntVec.Lt 0 e) {k : Int} (h0 : 0 ≤ k) (hk : k < cells e) : IsNthCell e k (cellNo e k) := by
  obtain ⟨ex, ey, ez⟩ := e
  obtain ⟨x0, y0, z0⟩ := he
  simp only [IntVec.zero_x, IntVec.zero_y, IntVec.zero_z] at x0 y0 z0
  unfold cells at hk
  dsimp only at hk
  have hq : k / (ex * ey) = k / ex / ey := by rw [Int.ediv_ediv_of_nonneg (by omega)]
  have hz : k / (ex * ey) < ez := Int.ediv_lt_of_lt_mul (by positivity) (by rw [mul_comm]; exact hk)
  refine ⟨⟨⟨?_, ?_, ?_⟩, ⟨?_, ?_, ?_⟩⟩, ?_⟩
  · exact Int.emod_nonneg _ (by simp; omega)
  · exact Int.emod_nonneg _ (by simp; omega)
  · exact Int.ediv_nonneg h0 (by positivity)
  · exact Int.emod_lt_of_pos _ x0
  · exact Int.emod_lt_of_pos _ y0
  · exact hz
  · unfold fortranPos cellNo
    dsimp only
    rw [hq]
    have a := Int.emod_add_mul_ediv k ex
    have b := Int.emod_add_mul_ediv (k / ex) ey
    have c : k / ex % ey = k / ex - ey * (k / ex / ey) := by omega
    rw [c]
    nlinarith

theorem value2_reads {V : Type} [Add V] [Mul V] {n : IntVec} {b : Nat} {m0 m : Mem V} (hm : ∀ blk a, blk ≠ b → m blk a = m0 blk a) :
    {t : Ty} → (e : Expr V t) → e.Wf n → (c : IntVec) → (∀ a, ¬ Rel.Reads e c b a) → e.value2 m0 m c = e.value m0 c
  | _, .scalar _, _, _, _ => rfl
  | _, .single _, _, _, _ => rfl
  | _, .mask _, _, _, _ => rfl
  | _, .field f, hw, c, h => by
    obtain ⟨k, hk⟩ := Option.ne_none_iff_exists'.1 hw.2
    simp only [Expr.value2, Expr.value, hk, Option.getD_some]
    apply hm
    intro hkb
    exact h _ ⟨by rw [hk, hkb], rfl⟩
  | _, .maskShift p a, hw, c, h => value2_reads hm a hw (c + p) h
  | _, .un op a, hw, c, h => by
    simp only [Expr.value2, Expr.value]
    rw [value2_reads hm a hw c h]
  | _, .bin op a b', hw, c, h => by
    simp only [Expr.value2, Expr.value]
    rw [value2_reads hm a hw.1 c fun x hx => h x (.inl hx), value2_reads hm b' hw.2 c fun x hx => h x (.inr hx)]
  | _, .and a b', hw, c, h => by
    simp only [Expr.value2, Expr.value]
    rw [value2_reads hm a hw.1 c fun x hx => h x (.inl hx), value2_reads hm b' hw.2 c fun x hx => h x (.inr hx)]
  | _, .or a b', hw, c, h => by
    simp only [Expr.value2, Expr.value]
    rw [value2_reads hm a hw.1 c fun x hx => h x (.inl hx), value2_reads hm b' hw.2 c fun x hx => h x (.inr hx)]
  | _, .cond t a b', hw, c, h => by
    simp only [Expr.value2, Expr.value]
    rw [value2_reads hm t hw.1 c fun x hx => h x (.inl hx), value2_reads hm a hw.2.1 c fun x hx => h x (.inr (.inl hx)),
      value2_reads hm b' hw.2.2 c fun x hx => h x (.inr (.inr hx))]
  | _, .stencil pts a, hw, c, h => by
    simp only [Expr.value2, Expr.value]
    refine pts_sum_congr pts fun q hq => ?_
    dsimp only
    rw [value2_reads hm a hw (c + q.1) fun x hx => h x ⟨q, hq, hx⟩]
  | _, .sumStencil pts a, hw, c, h => by
    simp only [Expr.value2, Expr.value]
    refine pts_sum_congr pts fun q hq => ?_
    dsimp only
    rw [value2_reads hm a hw (c + q) fun x hx => h x ⟨q, hq, hx⟩]

/-- A cell of one mesh that lies on the same side, as far out, as a cell of another mesh. -/
theorem same_side {n n' : IntVec} (hn : IntVec.Lt 0 n) (hn' : IntVec.Lt 0 n') (c : IntVec) :
    ∃ c', ∀ m p : IntVec, IntVec.Le 0 m → IntVec.Le 0 p → (InBox n m p c' ↔ InBox n' m p c) := by
  have one : ∀ a a' x : Int, 0 < a → 0 < a' → ∃ x', ∀ m p : Int, 0 ≤ m → 0 ≤ p → ((-m ≤ x' ∧ x' < a + p) ↔ (-m ≤ x ∧ x < a' + p)) := by
    intro a a' x ha ha'
    refine ⟨if x < 0 then x else if x < a' then 0 else x + a - a', fun m p hm hp => ?_⟩
    split
    · omega
    · split <;> omega
  obtain ⟨x, hx⟩ := one _ _ c.x hn.1 hn'.1
  obtain ⟨y, hy⟩ := one _ _ c.y hn.2.1 hn'.2.1
  obtain ⟨z, hz⟩ := one _ _ c.z hn.2.2 hn'.2.2
  refine ⟨⟨x, y, z⟩, fun m p hm hp => ?_⟩
  have := hx m.x p.x hm.1 hp.1
  have := hy m.y p.y hm.2.1 hp.2.1
  have := hz m.z p.z hm.2.2 hp.2.2
  unfold InBox
  constructor <;> intro h <;> iv_omega

theorem in_order {V : Type} [Add V] [Mul V] {n n' : IntVec} (hn : IntVec.Lt 0 n) (hn' : IntVec.Lt 0 n') {l : FieldObj} {b : Nat}
    (ht : Target n l b) {e : Expr V .num} (he : e.Wf n') (hd : ∀ c, Interior n' l c → e.DefinedAt n' c)
    (ha : ∀ c a, ¬ Rel.Reads e c b a) (useGhost : Bool) (m : Mem V) :
    ∃ lo hi, IntVec.Le 0 lo ∧ IntVec.Le 0 hi ∧
      (∀ c, Around n' lo hi c ↔ if useGhost then Stored n' l c ∧ e.DefinedAt n' c else Interior n' l c) ∧
      (cells (n + lo + hi) ≤ cells (n' + lo + hi) → ∃ m', sequentialAssign useGhost l e m = .ok m' ∧
        (∀ c c', SameTurn n n' lo hi c c' → m' b (cellAddr l.geo c) = e.value m c') ∧
        ∀ blk a, (blk ≠ b ∨ ∀ c, Around n lo hi c → cellAddr l.geo c ≠ a) → m' blk a = m blk a) := by
  have hxe := ht.mesh.extra
  have hgv := ht.mesh.ghosts
  obtain ⟨pg, hpg⟩ := possibleGhosts_ok hn' e he fun c h0 h1 => hd c ⟨h0, by iv_omega⟩
  obtain ⟨pv, pex⟩ := possibleGhosts_exact e he pg hpg
  have hx : IntVec.Le l.geo.bc.hasExtra pg.plus := by
    have := (pex (n' + l.geo.bc.hasExtra - ⟨1, 1, 1⟩)).1 (hd _ (by unfold Interior; iv_omega))
    unfold InBox at this; iv_omega
  obtain ⟨rg, lg, c1, c2, c3, c4, c5, c6, c7, c8, c9, c10, c11⟩ := calc_ok ht.mesh pv hx useGhost
  have hb' : IntVec.Lt 0 (n' + rg.minus + rg.plus) := by unfold GhostData.Valid at c2; iv_omega
  have hbox : IntVec.Lt 0 (n + rg.minus + rg.plus) := by unfold GhostData.Valid at c2; iv_omega
  have hreg : ∀ c, InBox n' rg.minus rg.plus c ↔
      if useGhost = true then Stored n' l c ∧ e.DefinedAt n' c else Interior n' l c := by
    intro c
    obtain ⟨c', hc'⟩ := same_side hn hn' c
    rw [← hc' _ _ c2.1 c2.2, c7]
    cases useGhost with
    | true =>
      simp only [if_true]
      rw [hc' _ _ pv.1 pv.2, hc' _ _ hgv.1 (by unfold GhostData.Valid at hgv; iv_omega), pex]
      have : Stored n' l c ↔ InBox n' l.geo.ghosts.minus (l.geo.ghosts.plus + l.geo.bc.hasExtra) c := by
        unfold Stored InBox; constructor <;> intro h <;> iv_omega
      rw [this]
    | false =>
      simp only [Bool.false_eq_true, if_false]
      rw [hc' _ _ (by iv_omega) hxe]
      unfold Interior InBox
      constructor <;> intro h <;> iv_omega
  have hdef : ∀ c, InBox n' rg.minus rg.plus c → e.DefinedAt n' c := by
    intro c hc
    rw [pex]
    unfold InBox at hc ⊢; iv_omega
  refine ⟨rg.minus, rg.plus, c2.1, c2.2, hreg, fun hcells => ?_⟩
  obtain ⟨g, geo, g1, g2, g3, g4⟩ := reset_ok' ht.mesh ht.room c4 c5 c6 c8 c9 hbox
  obtain ⟨w, w1, w2⟩ := init_tracks false m hb' e he 0 fun c hc =>
    ⟨hdef c hc, by
      have : c + 0 = c := by ext <;> simp
      rw [this]; exact hdef c hc⟩
  have gw : geo.window = ⟨l.geo.window.npts, origin l.geo - rg.minus, n + rg.minus + rg.plus⟩ := by rw [g3]
  have haddr : ∀ loc, winAddr geo.window loc = cellAddr l.geo (loc - rg.minus) := by
    intro loc
    rw [gw]
    unfold winAddr cellAddr
    congr 1
    ext <;> simp <;> omega
  have h0 : ∀ c : IntVec, c + 0 = c := fun c => by ext <;> simp
  -- the same walker, indexed by the destination's cells
  have w3 : Tracks (t := .num) (n + rg.minus + rg.plus) w fun m' loc =>
      e.value2 m m' (cellNo (n' + rg.minus + rg.plus) (fortranPos (n + rg.minus + rg.plus) loc) - rg.minus + 0) := by
    intro k loc hk mm
    have hlt := isNth_lt hk
    dsimp only
    rw [hk.2]
    exact w2 k _ (cellNo_spec hb' (by omega) (by unfold cells at hcells ⊢; omega)) mm
  obtain ⟨m', m1, m2, m3⟩ := walkAssign_ok (l := { l with geo := geo }) (b := b) ht.mem ht.cpu ht.writable
    (by dsimp only; rw [gw]; exact g4) (by dsimp only; rw [gw]; exact hbox) (u := w)
    (val := fun loc => e.value m (cellNo (n' + rg.minus + rg.plus) (fortranPos (n + rg.minus + rg.plus) loc) - rg.minus)) m
    (by dsimp only; rw [gw]; exact w3)
    (by
      intro loc _ mm hmm
      rw [h0]
      exact value2_reads (fun blk a hb => hmm blk a (.inl hb)) e he _ fun a => ha _ a)
  dsimp only at m2 m3
  have hext : geo.window.extent = n + rg.minus + rg.plus := by rw [gw]
  refine ⟨m', ?_, ?_, ?_⟩
  · unfold sequentialAssign
    rw [hpg, Outcome.ok_bind, c1, Outcome.ok_bind, c3, Outcome.ok_bind, g1, Outcome.ok_bind, g2,
      Outcome.ok_bind, w1, Outcome.ok_bind, m1]
  · rintro c c' ⟨k, hk, hk'⟩
    have hv := m2 (c + rg.minus) (by rw [hext]; exact hk.1)
    have ec : ∀ c : IntVec, c + rg.minus - rg.minus = c := fun c => by ext <;> simp
    have hkb := fortranPos_bound hk'.1
    rw [haddr, ec, hk.2, nthCell_unique (cellNo_spec hb' (by rw [← hk'.2]; exact hkb.1)
      (by unfold cells; rw [← hk'.2]; exact hkb.2)) hk', ec] at hv
    exact hv
  · intro blk a hba
    refine m3 blk a ?_
    rcases hba with h | h
    · exact .inl h
    · refine .inr fun loc hloc => ?_
      rw [haddr]
      rw [hext] at hloc
      refine h _ ?_
      unfold InBlock at hloc
      unfold Around; iv_omega

end Meshes
end Nebo
end SpatialOps
