import Verif.Views.Lemmas
import Mathlib.Tactic.Ring
import Mathlib.Tactic.FieldSimp

/-!
# Lemmas for the kernel written with shifted views
-/

namespace SpatialOps
namespace Views

open Nebo Stencil Study

/-- No boundaries. -/
def F : Dir → Bool := fun _ => false

variable {n : IntVec}

/-- A field of the program. -/
abbrev Fld (n : IntVec) (f : FieldObj) (b : Nat) : Prop := Good n F .sVol f b

theorem extra_F : extra F .sVol = 0 := rfl

theorem newField_ok (hn : IntVec.Lt ⟨1, 1, 1⟩ n) (b : Nat) : ∃ f, newField n b = .ok f ∧ Fld n f b := Study.newField_ok hn F .sVol b

theorem Fld.has {f : FieldObj} {b : Nat} (h : Fld n f b) (c : IntVec) :
    HasCell f.geo c ↔ IntVec.Le ⟨-1, -1, -1⟩ c ∧ IntVec.Lt c (n + ⟨1, 1, 1⟩) := by
  rw [Good.has h, extra_F]
  constructor <;> intro h <;> iv_omega

theorem Fld.inner {f : FieldObj} {b : Nat} (h : Fld n f b) (c : IntVec) :
    Interior n f c ↔ IntVec.Le 0 c ∧ IntVec.Lt c n := by
  rw [Good.interior_iff h, extra_F]
  constructor <;> intro h <;> iv_omega

theorem Fld.alike {f f' : FieldObj} {b b' : Nat} (h : Fld n f b) (h' : Fld n f' b') (c : IntVec) : cellAddr f'.geo c = cellAddr f.geo c := by
  unfold cellAddr
  rw [h.origin_eq, h'.origin_eq, h.npts, h'.npts]

theorem tempField_ok {phi : FieldObj} {b : Nat} (h : Fld n phi b) (hn : IntVec.Lt ⟨1, 1, 1⟩ n) (b' : Nat) :
    ∃ f, tempField phi b' = .ok f ∧ Fld n f b' := by
  obtain ⟨w, c1, c2⟩ := h.built.geo
  have hw : phi.geo.window = w := by
    have w2 := c2
    unfold FieldGeo.ctor at w2
    obtain ⟨g1, -, w2⟩ := Outcome.bind_eq_ok.1 w2
    obtain ⟨-, -, w2⟩ := Outcome.bind_eq_ok.1 w2
    obtain ⟨i, -, w2⟩ := Outcome.bind_eq_ok.1 w2
    injection w2 with w2
    rw [← w2]
  obtain ⟨f, hf, hF⟩ := newField_ok hn b'
  refine ⟨f, ?_, hF⟩
  unfold tempField
  have h2 := h.bcs
  have h1 := h.ghosts
  change FieldGeo.ctor false w (BcInfo.build (F .x) (F .y) (F .z) FieldType.sVol.bcExtra) Study.G1 = _ at c2
  rw [h1, h2, hw, c2, Outcome.ok_bind]
  unfold newField at hf
  rw [makeUniform_eq, Outcome.ok_bind] at hf
  dsimp only at hf
  change getWindowWithGhost n Study.G1 (BcInfo.build (F .x) (F .y) (F .z) FieldType.sVol.bcExtra) >>= _ = _ at hf
  rw [c1, Outcome.ok_bind] at hf
  change FieldGeo.ctor false w (BcInfo.build (F .x) (F .y) (F .z) FieldType.sVol.bcExtra) Study.G1 >>= _ = _ at hf
  rw [c2, Outcome.ok_bind] at hf
  exact hf

section
variable {K : Type} [Field K]

omit [Field K] in
theorem frame {f : FieldObj} {b : Nat} (h : Fld n f b) {m m' : Mem K} (hm : ∀ a, m' b a = m b a) (c : IntVec) :
    valueAt m' f c = valueAt m f c := by
  unfold valueAt
  rw [h.target.mem, Option.getD_some, hm]

/-- A stencil of two points one cell away at most. -/
theorem twoPoint (hn : IntVec.Lt ⟨1, 1, 1⟩ n) {src l : FieldObj} {bs bl : Nat} (hs : Fld n src bs) (hl : Fld n l bl) (hb : bs ≠ bl)
    (p q : IntVec) (hp : IntVec.Le ⟨-1, -1, -1⟩ p ∧ IntVec.Le p ⟨1, 1, 1⟩) (hq : IntVec.Le ⟨-1, -1, -1⟩ q ∧ IntVec.Le q ⟨1, 1, 1⟩)
    (u v : K) (m : Mem K) :
    ∃ m', assign l (.stencil (.more (.one (p, u)) (q, v)) (.field src)) m = .ok m' ∧
      (∀ c, HasCell l.geo c → HasCell src.geo (c + p) → HasCell src.geo (c + q) →
        valueAt m' l c = valueAt m src (c + p) * u + valueAt m src (c + q) * v) ∧
      ∀ blk, blk ≠ bl → ∀ a, m' blk a = m blk a := by
  have hdef : ∀ c, HasCell l.geo c → HasCell src.geo (c + p) → HasCell src.geo (c + q) →
      (Expr.stencil (.more (.one (p, u)) (q, v)) (.field src)).DefinedAt n c := by
    intro c h0 h1 h2 r hr
    simp only [Pts.toList, List.mem_append, List.mem_singleton] at hr
    refine ⟨(Fld.has hs c).2 ((Fld.has hl c).1 h0), ?_⟩
    rcases hr with rfl | rfl
    · exact h1
    · exact h2
  obtain ⟨m', h1, h2, h3⟩ := C22_assign_pointwise n (by iv_omega) l bl hl.target
    (.stencil (.more (.one (p, u)) (q, v)) (.field src)) ⟨hs.target.mesh, by rw [hs.target.mem]; simp⟩
    (fun c hc => by
      rw [hl.inner] at hc
      refine hdef c ?_ ?_ ?_
      · rw [Fld.has hl]; iv_omega
      · rw [Fld.has hs]; iv_omega
      · rw [Fld.has hs]; iv_omega)
    (fun r _ => .inl (by rw [hs.target.mem, hl.target.mem]; exact fun e => hb (Option.some.inj e))) m
  refine ⟨m', h1, fun c c0 c1 c2 => ?_, fun blk hbk a => h3 blk a (.inl hbk)⟩
  have := h2 c ⟨(hl.stored c).2 c0, hdef c c0 c1 c2⟩
  show m' (l.values.getD 0) _ = _
  rw [hl.target.mem, Option.getD_some, this]
  rfl

/-- An expression of fields, cell by cell. -/
theorem pointwise (hn : IntVec.Lt ⟨1, 1, 1⟩ n) {l : FieldObj} {bl : Nat} (hl : Fld n l bl) (e : Expr K .num) (he : e.Wf n)
    (hd : ∀ c, HasCell l.geo c → e.DefinedAt n c) (hi : e.Independent l 0) (m : Mem K) :
    ∃ m', assign l e m = .ok m' ∧ (∀ c, HasCell l.geo c → valueAt m' l c = e.value m c) ∧ ∀ blk, blk ≠ bl → ∀ a, m' blk a = m blk a := by
  obtain ⟨m', h1, h2, h3⟩ := C22_assign_pointwise n (by iv_omega) l bl hl.target e he (fun c hc => hd c (hl.interior_has hc)) hi m
  refine ⟨m', h1, fun c hc => ?_, fun blk hbk a => h3 blk a (.inl hbk)⟩
  show m' (l.values.getD 0) _ = _
  rw [hl.target.mem, Option.getD_some, h2 c ⟨(hl.stored c).2 hc, hd c hc⟩]

omit [Field K] in
theorem fld_wf {f : FieldObj} {b : Nat} (h : Fld n f b) : (Expr.field f : Expr K .num).Wf n := ⟨h.target.mesh, by rw [h.target.mem]; simp⟩

omit [Field K] in
theorem fld_def {f l : FieldObj} {b b' : Nat} (h : Fld n f b) (hl : Fld n l b') {c : IntVec} (hc : HasCell l.geo c) :
    (Expr.field f : Expr K .num).DefinedAt n c := (Fld.has h c).2 ((Fld.has hl c).1 hc)

omit [Field K] in
theorem fld_other {f l : FieldObj} {b b' : Nat} (h : Fld n f b) (hl : Fld n l b') (hb : b ≠ b') (s : IntVec) :
    (Expr.field f : Expr K .num).Independent l s :=
  .inl (by rw [h.target.mem, hl.target.mem]; exact fun e => hb (Option.some.inj e))

theorem zero_add' (c : IntVec) : c + 0 = c := by ext <;> simp

/-- The flux `D ∂φ/∂d` at face `c`. -/
def faceFlux (h : Dir → K) (φ D : IntVec → K) (d : Dir) (c : IntVec) : K :=
  (φ (c + -unit d) * (-1 / h d) + φ c * (1 / h d)) * (D (c + -unit d) * (1 / 2) + D c * (1 / 2))

/-- One direction of the serial form. -/
theorem serialDir_ok (hn : IntVec.Lt ⟨1, 1, 1⟩ n) (h : Dir → K) (d : Dir) {phi dc f1 f2 t : FieldObj} {bp bd b1 b2 bt : Nat}
    (hp : Fld n phi bp) (hd : Fld n dc bd) (h1 : Fld n f1 b1) (h2 : Fld n f2 b2) (ht : Fld n t bt)
    (p1 : bp ≠ b1) (d1 : bd ≠ b1) (d2 : bd ≠ b2) (e12 : b1 ≠ b2) (e1t : b1 ≠ bt) (m : Mem K) :
    ∃ m', serialDir h d phi dc f1 f2 t m = .ok m' ∧
      (∀ c, IntVec.Le 0 c → IntVec.Lt c n → valueAt m' t c =
        faceFlux h (valueAt m phi) (valueAt m dc) d c * (-1 / h d) + faceFlux h (valueAt m phi) (valueAt m dc) d (c + unit d) * (1 / h d)) ∧
      ∀ blk, blk ≠ b1 → blk ≠ b2 → blk ≠ bt → ∀ a, m' blk a = m blk a := by
  have ub : IntVec.Le 0 (unit d) ∧ IntVec.Le (unit d) ⟨1, 1, 1⟩ := by cases d <;> decide
  have z : IntVec.Le ⟨-1, -1, -1⟩ (0 : IntVec) ∧ IntVec.Le (0 : IntVec) ⟨1, 1, 1⟩ := by decide
  have up : IntVec.Le ⟨-1, -1, -1⟩ (unit d) ∧ IntVec.Le (unit d) ⟨1, 1, 1⟩ := by iv_omega
  have un : IntVec.Le ⟨-1, -1, -1⟩ (-unit d) ∧ IntVec.Le (-unit d) ⟨1, 1, 1⟩ := by iv_omega
  obtain ⟨m1, a1, v1, q1⟩ := twoPoint hn hp h1 p1 (-unit d) 0 un z (-1 / h d) (1 / h d) m
  obtain ⟨m2, a2, v2, q2⟩ := twoPoint hn hd h2 d2 (-unit d) 0 un z (1 / 2) (1 / 2) m1
  obtain ⟨m3, a3, v3, q3⟩ := pointwise hn h1 (mul (.field f1) (.field f2)) (by unfold mul; exact ⟨fld_wf h1, fld_wf h2⟩)
    (fun c hc => by unfold mul; exact ⟨fld_def h1 h1 hc, fld_def h2 h1 hc⟩)
    (by unfold mul; exact ⟨Or.inr ⟨rfl, rfl, rfl⟩, fld_other h2 h1 e12.symm 0⟩) m2
  obtain ⟨m4, a4, v4, q4⟩ := twoPoint hn h1 ht e1t 0 (unit d) z up (-1 / h d) (1 / h d) m3
  refine ⟨m4, ?_, fun c c0 c1 => ?_, fun blk k1 k2 k3 a => by rw [q4 blk k3, q3 blk k1, q2 blk k2, q1 blk k1]⟩
  · unfold serialDir Reg.applyToField
    rw [Heat.grad_apply, Heat.interp_apply, Heat.div_apply]
    dsimp only
    rw [a1, Outcome.ok_bind, a2, Outcome.ok_bind, a3, Outcome.ok_bind]
    exact a4
  · have key : ∀ c, IntVec.Le 0 c → IntVec.Lt c (n + ⟨1, 1, 1⟩) → valueAt m3 f1 c = faceFlux h (valueAt m phi) (valueAt m dc) d c := by
      intro c c0 c1
      have hc : HasCell f1.geo c := by rw [Fld.has h1]; iv_omega
      rw [v3 c hc]
      show valueAt m2 f1 c * valueAt m2 f2 c = _
      rw [frame h1 (q2 b1 e12), v1 c hc (by rw [Fld.has hp]; iv_omega) (by rw [Fld.has hp, zero_add']; iv_omega),
        v2 c (by rw [Fld.has h2]; iv_omega) (by rw [Fld.has hd]; iv_omega) (by rw [Fld.has hd, zero_add']; iv_omega), zero_add',
        frame hd (q1 bd d1), frame hd (q1 bd d1)]
      rfl
    rw [v4 c (by rw [Fld.has ht]; iv_omega) (by rw [Fld.has h1, zero_add']; iv_omega) (by rw [Fld.has h1]; iv_omega), zero_add',
      key c c0 (by iv_omega), key (c + unit d) (by iv_omega) (by iv_omega)]

/-- Both forms compute this. -/
def kernel (h : Dir → K) (φ D : IntVec → K) (c : IntVec) : K :=
  -(faceFlux h φ D .x c * (-1 / h .x) + faceFlux h φ D .x (c + unit .x) * (1 / h .x))
    - (faceFlux h φ D .y c * (-1 / h .y) + faceFlux h φ D .y (c + unit .y) * (1 / h .y))
    - (faceFlux h φ D .z c * (-1 / h .z) + faceFlux h φ D .z (c + unit .z) * (1 / h .z))

theorem kernel_eq (h : Dir → K) (φ D : IntVec → K) (c : IntVec) : kernel h φ D c = diffusion h φ D c := by
  have e1 : ∀ d, c + unit d + -unit d = c := fun d => by
    ext <;> simp only [IntVec.add_x, IntVec.add_y, IntVec.add_z, IntVec.neg_x, IntVec.neg_y, IntVec.neg_z] <;> omega
  have e2 : ∀ d, c + -unit d = c - unit d := fun d => by
    ext <;> simp only [IntVec.add_x, IntVec.add_y, IntVec.add_z, IntVec.neg_x, IntVec.neg_y, IntVec.neg_z, IntVec.sub_x, IntVec.sub_y, IntVec.sub_z] <;> omega
  unfold kernel faceFlux diffusion
  simp only [e1, e2]
  ring

/-- The intermediate fields of a direction. -/
structure Tmp (n : IntVec) (T : Temps) (blk : Nat → Nat) : Prop where
  face : Fld n T.face (blk 0)
  face2 : Fld n T.face2 (blk 1)
  tmp : Fld n T.tmp (blk 2)

theorem temps_ok {phi : FieldObj} {b : Nat} (h : Fld n phi b) (hn : IntVec.Lt ⟨1, 1, 1⟩ n) (blk : Nat → Nat) :
    ∃ T, temps phi blk = .ok T ∧ Tmp n T blk := by
  obtain ⟨f1, a1, g1⟩ := tempField_ok h hn (blk 0)
  obtain ⟨f2, a2, g2⟩ := tempField_ok h hn (blk 1)
  obtain ⟨f3, a3, g3⟩ := tempField_ok h hn (blk 2)
  refine ⟨⟨f1, f2, f3⟩, ?_, g1, g2, g3⟩
  unfold temps
  rw [a1, Outcome.ok_bind, a2, Outcome.ok_bind, a3, Outcome.ok_bind]
  rfl

theorem serialRun_ok (hn : IntVec.Lt ⟨1, 1, 1⟩ n) (h : Dir → K) {res phi dc : FieldObj} {br bp bd : Nat} (hr : Fld n res br)
    (hp : Fld n phi bp) (hd : Fld n dc bd) {T : Dir → Temps} {tmp : Dir → Nat → Nat} (hT : ∀ d, Tmp n (T d) (tmp d))
    (st : ∀ d d', ∀ i < 3, ∀ j < 3, tmp d i = tmp d' j → d = d' ∧ i = j)
    (sp : ∀ d, ∀ i < 3, tmp d i ≠ bp) (sd : ∀ d, ∀ i < 3, tmp d i ≠ bd) (sr : ∀ d, ∀ i < 3, tmp d i ≠ br) (m : Mem K) :
    ∃ m', serialRun h res phi dc T m = .ok m' ∧
      (∀ c, IntVec.Le 0 c → IntVec.Lt c n → valueAt m' res c = kernel h (valueAt m phi) (valueAt m dc) c) ∧
      ∀ blk, blk ≠ br → (∀ d, ∀ i < 3, blk ≠ tmp d i) → ∀ a, m' blk a = m blk a := by
  have one : ∀ d m, _ := fun d m => serialDir_ok hn h d hp hd (hT d).face (hT d).face2 (hT d).tmp (sp d 0 (by omega)).symm
    (sd d 0 (by omega)).symm (sd d 1 (by omega)).symm (fun e => absurd (st d d 0 (by omega) 1 (by omega) e).2 (by omega))
    (fun e => absurd (st d d 0 (by omega) 2 (by omega) e).2 (by omega)) m
  obtain ⟨mx, ax, vx, qx⟩ := one .x m
  obtain ⟨my, ay, vy, qy⟩ := one .y mx
  obtain ⟨mz, az, vz, qz⟩ := one .z my
  have dif : ∀ {d d' : Dir} {i j : Nat}, i < 3 → j < 3 → d ≠ d' → tmp d i ≠ tmp d' j := fun hi hj hne e => hne (st _ _ _ hi _ hj e).1
  have px : ∀ c, valueAt mx phi c = valueAt m phi c :=
    frame hp (qx bp (sp .x 0 (by omega)).symm (sp .x 1 (by omega)).symm (sp .x 2 (by omega)).symm)
  have dx : ∀ c, valueAt mx dc c = valueAt m dc c :=
    frame hd (qx bd (sd .x 0 (by omega)).symm (sd .x 1 (by omega)).symm (sd .x 2 (by omega)).symm)
  have py : ∀ c, valueAt my phi c = valueAt m phi c := fun c =>
    (frame hp (qy bp (sp .y 0 (by omega)).symm (sp .y 1 (by omega)).symm (sp .y 2 (by omega)).symm) c).trans (px c)
  have dy : ∀ c, valueAt my dc c = valueAt m dc c := fun c =>
    (frame hd (qy bd (sd .y 0 (by omega)).symm (sd .y 1 (by omega)).symm (sd .y 2 (by omega)).symm) c).trans (dx c)
  have tx : ∀ c, valueAt mz (T .x).tmp c = valueAt mx (T .x).tmp c := fun c =>
    (frame (hT .x).tmp (qz _ (dif (by omega) (by omega) (by simp)) (dif (by omega) (by omega) (by simp)) (dif (by omega) (by omega) (by simp))) c).trans
    (frame (hT .x).tmp (qy _ (dif (by omega) (by omega) (by simp)) (dif (by omega) (by omega) (by simp)) (dif (by omega) (by omega) (by simp))) c)
  have ty : ∀ c, valueAt mz (T .y).tmp c = valueAt my (T .y).tmp c := fun c =>
    frame (hT .y).tmp (qz _ (dif (by omega) (by omega) (by simp)) (dif (by omega) (by omega) (by simp)) (dif (by omega) (by omega) (by simp))) c
  obtain ⟨m', a', v', q'⟩ := pointwise hn hr (sub (sub (neg (.field (T .x).tmp)) (.field (T .y).tmp)) (.field (T .z).tmp))
    (by unfold sub neg; exact ⟨⟨fld_wf (hT .x).tmp, fld_wf (hT .y).tmp⟩, fld_wf (hT .z).tmp⟩)
    (fun c hc => by unfold sub neg; exact ⟨⟨fld_def (hT .x).tmp hr hc, fld_def (hT .y).tmp hr hc⟩, fld_def (hT .z).tmp hr hc⟩)
    (by
      unfold sub neg
      exact ⟨⟨fld_other (hT .x).tmp hr (sr .x 2 (by omega)) 0, fld_other (hT .y).tmp hr (sr .y 2 (by omega)) 0⟩,
        fld_other (hT .z).tmp hr (sr .z 2 (by omega)) 0⟩) mz
  refine ⟨m', ?_, fun c c0 c1 => ?_, fun blk kr kt a => ?_⟩
  · unfold serialRun
    rw [ax, Outcome.ok_bind, ay, Outcome.ok_bind, az, Outcome.ok_bind]
    exact a'
  · rw [v' c (hr.interior_has (by rw [hr.inner]; exact ⟨c0, c1⟩))]
    show -valueAt mz (T .x).tmp c - valueAt mz (T .y).tmp c - valueAt mz (T .z).tmp c = _
    rw [tx, ty, vx c c0 c1, vy c c0 c1, vz c c0 c1, funext px, funext dx, funext py, funext dy]
    rfl
  · rw [q' blk kr, qz blk (kt .z 0 (by omega)) (kt .z 1 (by omega)) (kt .z 2 (by omega)),
      qy blk (kt .y 0 (by omega)) (kt .y 1 (by omega)) (kt .y 2 (by omega)),
      qx blk (kt .x 0 (by omega)) (kt .x 1 (by omega)) (kt .x 2 (by omega))]

/-! ## The chained form -/

/-- What is used of a view. -/
structure View (n : IntVec) (v : FieldObj) (o : IntVec) (b : Nat) : Prop where
  view : ViewOf G1 0 n v.geo
  npts : v.geo.window.npts = n + ⟨2, 2, 2⟩
  offset : v.geo.window.offset = ⟨1, 1, 1⟩ + o
  mem : v.values = some b
  cpu : v.memType = .localRam
  writable : v.readOnly = false

theorem point_ok (hn : IntVec.Lt ⟨1, 1, 1⟩ n) {f : FieldObj} {b : Nat} (h : Fld n f b) (o : IntVec) (ho : IntVec.Le ⟨-1, -1, -1⟩ o ∧ IntVec.Le o ⟨1, 1, 1⟩) :
    ∃ v, stencilPoint f o = .ok v ∧ View n v o b := by
  have hnp : f.geo.window.npts = n + ⟨2, 2, 2⟩ := by
    rw [Good.npts h, extra_F]
    ext <;> simp
  have hi : f.geo.interior = ⟨f.geo.window.npts, ⟨1, 1, 1⟩, n⟩ := by
    rw [h.interior, extra_F]
    congr 1
    ext <;> simp
  obtain ⟨v, h1, h2, h3, h4, h5, h6⟩ := part_ok (f := f) (by rw [h.ghosts]; decide) (⟨1, 1, 1⟩ + o) n (by iv_omega) (by iv_omega)
    (by rw [hnp]; iv_omega)
  refine ⟨v, ?_, ?_, by rw [h3]; exact hnp, by rw [h3], by rw [h4, h.target.mem], by rw [h5, h.target.cpu], by rw [h6, h.target.writable]⟩
  · unfold stencilPoint
    rw [hi]
    exact h1
  · rw [h.ghosts, h.bc, extra_F] at h2
    exact h2

omit [Field K] in
theorem View.reads {f v : FieldObj} {b : Nat} {o : IntVec} (h : Fld n f b) (hv : View n v o b) (m : Mem K) (c : IntVec) :
    m (v.values.getD 0) (element v.geo c) = valueAt m f (c + o) := by
  unfold valueAt element cellAddr
  rw [hv.mem, h.target.mem, h.origin_eq, hv.npts, hv.offset, Good.npts h, extra_F]
  congr 2
  · ext <;> simp
  · ext <;> simp only [IntVec.add_x, IntVec.add_y, IntVec.add_z] <;> omega

theorem coefs_grad (h : Dir → K) (d : Dir) : coefs h (Heat.grad d) = .ok (-1 / h d, 1 / h d) := by cases d <;> rfl
theorem coefs_interp (h : Dir → K) (d : Dir) : coefs h (Heat.interp d) = .ok (1 / 2, 1 / 2) := by cases d <;> rfl
theorem coefs_div (h : Dir → K) (d : Dir) : coefs h (Heat.div d) = .ok (-1 / h d, 1 / h d) := by cases d <;> rfl

/-- The views of one direction. -/
structure Pnts (n : IntVec) (P : Points) (d : Dir) (b : Nat) : Prop where
  ll : View n P.ll (-unit d) b
  lh : View n P.lh 0 b
  hl : View n P.hl 0 b
  hh : View n P.hh (unit d) b

theorem points_ok (hn : IntVec.Lt ⟨1, 1, 1⟩ n) {f : FieldObj} {b : Nat} (h : Fld n f b) (d : Dir) :
    ∃ P, points f d = .ok P ∧ Pnts n P d b := by
  have e1 : negate (unitTriplet d) = -unit d := by cases d <;> rfl
  have e2 : unitTriplet d = unit d := by cases d <;> rfl
  have e3 : (⟨0, 0, 0⟩ : IntVec) = 0 := rfl
  have ub : IntVec.Le 0 (unit d) ∧ IntVec.Le (unit d) ⟨1, 1, 1⟩ := by cases d <;> decide
  obtain ⟨v1, a1, w1⟩ := point_ok hn h (-unit d) (by iv_omega)
  obtain ⟨v2, a2, w2⟩ := point_ok hn h 0 (by decide)
  obtain ⟨v3, a3, w3⟩ := point_ok hn h (unit d) (by iv_omega)
  refine ⟨⟨v1, v2, v2, v3⟩, ?_, w1, w2, w2, w3⟩
  unfold points
  rw [e1, e2, e3, a1, Outcome.ok_bind, a2, Outcome.ok_bind, Outcome.ok_bind, a3, Outcome.ok_bind]
  rfl

omit [Field K] in
theorem view_of {v : FieldObj} {o : IntVec} {b : Nat} (h : View n v o b) : OfViews G1 0 n (Expr.field v : Expr K .num) :=
  ⟨h.view, by rw [h.mem]; simp⟩

omit [Field K] in
theorem view_apart {v l : FieldObj} {o o' : IntVec} {b b' : Nat} (h : View n v o b) (hl : View n l o' b') (hb : b ≠ b') :
    Apart l (Expr.field v : Expr K .num) := .inl (by rw [h.mem, hl.mem]; exact fun e => hb (Option.some.inj e))

/-- The term of a direction. -/
theorem termOf_ok (hn : IntVec.Lt ⟨1, 1, 1⟩ n) (h : Dir → K) {phi dc l : FieldObj} {bp bd bl : Nat} (hp : Fld n phi bp) (hd : Fld n dc bd)
    {ol : IntVec} (hl : View n l ol bl) (p1 : bp ≠ bl) (d1 : bd ≠ bl) (d : Dir) :
    ∃ e, termOf h phi dc d = .ok e ∧ OfViews G1 0 n e ∧ Apart l e ∧ ∀ m c, shown m e c =
      (faceFlux h (valueAt m phi) (valueAt m dc) d c * (-1 / h d) + faceFlux h (valueAt m phi) (valueAt m dc) d (c + unit d) * (1 / h d) : K) := by
  obtain ⟨P, a1, w⟩ := points_ok hn hp d
  obtain ⟨Q, a2, u⟩ := points_ok hn hd d
  refine ⟨term (-1 / h d, 1 / h d) (1 / 2, 1 / 2) (-1 / h d, 1 / h d) P Q, ?_, ?_, ?_, fun m c => ?_⟩
  · unfold termOf
    rw [a1, Outcome.ok_bind, a2, Outcome.ok_bind, coefs_grad, Outcome.ok_bind, coefs_interp, Outcome.ok_bind, coefs_div, Outcome.ok_bind]
    rfl
  · exact ⟨⟨trivial, ⟨⟨trivial, view_of w.ll⟩, trivial, view_of w.hl⟩, ⟨trivial, view_of u.ll⟩, trivial, view_of u.hl⟩,
      trivial, ⟨⟨trivial, view_of w.lh⟩, trivial, view_of w.hh⟩, ⟨trivial, view_of u.lh⟩, trivial, view_of u.hh⟩
  · exact ⟨⟨trivial, ⟨⟨trivial, view_apart w.ll hl p1⟩, trivial, view_apart w.hl hl p1⟩, ⟨trivial, view_apart u.ll hl d1⟩, trivial, view_apart u.hl hl d1⟩,
      trivial, ⟨⟨trivial, view_apart w.lh hl p1⟩, trivial, view_apart w.hh hl p1⟩, ⟨trivial, view_apart u.lh hl d1⟩, trivial, view_apart u.hh hl d1⟩
  · have e1 : c + unit d + -unit d = c := by
      ext <;> simp only [IntVec.add_x, IntVec.add_y, IntVec.add_z, IntVec.neg_x, IntVec.neg_y, IntVec.neg_z] <;> omega
    show -1 / h d * ((-1 / h d * m (P.ll.values.getD 0) (element P.ll.geo c) + 1 / h d * m (P.hl.values.getD 0) (element P.hl.geo c)) *
        (1 / 2 * m (Q.ll.values.getD 0) (element Q.ll.geo c) + 1 / 2 * m (Q.hl.values.getD 0) (element Q.hl.geo c))) +
      1 / h d * ((-1 / h d * m (P.lh.values.getD 0) (element P.lh.geo c) + 1 / h d * m (P.hh.values.getD 0) (element P.hh.geo c)) *
        (1 / 2 * m (Q.lh.values.getD 0) (element Q.lh.geo c) + 1 / 2 * m (Q.hh.values.getD 0) (element Q.hh.geo c))) = _
    rw [w.ll.reads hp m c, w.hl.reads hp m c, w.lh.reads hp m c, w.hh.reads hp m c, u.ll.reads hd m c, u.hl.reads hd m c, u.lh.reads hd m c,
      u.hh.reads hd m c, zero_add']
    unfold faceFlux
    rw [e1]
    ring

theorem chainedRun_ok (hn : IntVec.Lt ⟨1, 1, 1⟩ n) (h : Dir → K) {res phi dc : FieldObj} {br bp bd : Nat} (hr : Fld n res br)
    (hp : Fld n phi bp) (hd : Fld n dc bd) (p1 : bp ≠ br) (d1 : bd ≠ br) (m : Mem K) :
    ∃ m', chainedRun h res phi dc m = .ok m' ∧
      (∀ c, IntVec.Le 0 c → IntVec.Lt c n → valueAt m' res c = kernel h (valueAt m phi) (valueAt m dc) c) ∧
      ∀ blk a, (blk ≠ br ∨ ∀ c, IntVec.Le 0 c → IntVec.Lt c n → cellAddr res.geo c ≠ a) → m' blk a = m blk a := by
  obtain ⟨r, ar, hv⟩ := point_ok hn hr 0 (by decide)
  obtain ⟨ex, ax, ox, px, vx⟩ := termOf_ok hn h hp hd hv p1 d1 .x
  obtain ⟨ey, ay, oy, py, vy⟩ := termOf_ok hn h hp hd hv p1 d1 .y
  obtain ⟨ez, az, oz, pz, vz⟩ := termOf_ok hn h hp hd hv p1 d1 .z
  obtain ⟨m', a', v', q'⟩ := assign_view (g := G1) (x := 0) (E := n) (by decide) rfl (by decide) (by decide) (by decide) (by iv_omega)
    hv.view ⟨hv.cpu, hv.writable, hv.mem⟩ (sub (sub (neg ex) ey) ez) ⟨⟨ox, oy⟩, oz⟩ ⟨⟨px, py⟩, pz⟩ m
  have hel : ∀ c, element r.geo c = cellAddr res.geo c := by
    intro c
    unfold element cellAddr
    rw [hr.origin_eq, hv.npts, hv.offset, Good.npts hr, extra_F]
    congr 1
    ext <;> simp
  refine ⟨m', ?_, fun c c0 c1 => ?_, fun blk a hba => q' blk a (hba.imp id fun hc c hb => ?_)⟩
  · unfold chainedRun
    change stencilPoint res 0 >>= _ = _
    rw [ar, Outcome.ok_bind, ax, Outcome.ok_bind, ay, Outcome.ok_bind, az, Outcome.ok_bind]
    exact a'
  · have := v' c (by unfold InBlock; iv_omega)
    rw [hel] at this
    show m' (res.values.getD 0) (cellAddr res.geo c) = _
    rw [hr.target.mem, Option.getD_some, this]
    show -(shown m ex c) - shown m ey c - shown m ez c = _
    rw [vx, vy, vz]
    rfl
  · rw [hel]
    unfold InBlock at hb
    exact hc c (by iv_omega) (by iv_omega)

omit [Field K] in
/-- Repetition. -/
theorem repeated_ok {body : Mem K → Outcome (Mem K)} {P : Mem K → Prop} {Q : Mem K → Mem K → Prop} (m : Mem K)
    (h0 : P m) (hs : ∀ m1, P m1 → ∃ m2, body m1 = .ok m2 ∧ P m2 ∧ Q m1 m2) (k : Nat) :
    ∃ m', repeated body k m = .ok m' ∧ P m' ∧ (0 < k → ∃ m1, P m1 ∧ Q m1 m') := by
  induction k with
  | zero => exact ⟨m, rfl, h0, fun h => absurd h (by omega)⟩
  | succ k ih =>
    obtain ⟨m1, h1, h2, -⟩ := ih
    obtain ⟨m2, h3, h4, h5⟩ := hs m1 h2
    exact ⟨m2, by unfold repeated; rw [h1, Outcome.ok_bind, h3], h4, fun _ => ⟨m1, h2, h5⟩⟩

end
end Views
end SpatialOps
