import Verif.HeatPar.Run
import Verif.Heat.Props

/-!
# Lemmas for the heat equation program with threads
-/

namespace SpatialOps
namespace Heat

open Nebo Stencil

set_option linter.unusedSectionVars false

variable {n e : IntVec} {b : Nat}

section
variable {K : Type} [NatCast K] [One K] [Neg K] [Zero K] [Add K] [Sub K] [Mul K] [Div K]

/-! ## The list of actions is the program -/

theorem bind_nil (x : Outcome (Mem K)) : (x >>= seqCmds []) = x := by cases x <;> rfl

theorem work_seq {t : FieldType} {f : FieldObj} {r : FieldObj × Cmd K} (h : workCmd t f b = .ok r) (m : Mem K) :
    workField t f b m = r.2.seq m >>= fun m' => pure (r.1, m') := by
  unfold workCmd at h
  obtain ⟨g, h1, h2⟩ := Outcome.bind_eq_ok.1 h
  injection h2 with h2
  subst h2
  unfold workField
  rw [h1]
  rfl

theorem apply_seq {h : Dir → K} {r : Reg} {src dest : FieldObj} {c : Cmd K} (hc : applyCmd h r src dest = .ok c) (m : Mem K) :
    r.applyToField h src dest m = c.seq m := by
  unfold applyCmd at hc
  unfold Reg.applyToField
  split at hc
  · next x hx =>
    injection hc with hc
    subst hc
    rw [hx]
    rfl
  · cases hc

theorem flux_seq {h : Dir → K} {d : Dir} {T k flux : FieldObj} {w : Nat} {cs : List (Cmd K)}
    (hc : fluxCmds h d T k flux w = .ok cs) (m : Mem K) : calculateFlux h d T k flux w m = seqCmds cs m := by
  unfold fluxCmds at hc
  obtain ⟨tm, h1, hc⟩ := Outcome.bind_eq_ok.1 hc
  obtain ⟨a, h2, hc⟩ := Outcome.bind_eq_ok.1 hc
  obtain ⟨b, h3, hc⟩ := Outcome.bind_eq_ok.1 hc
  injection hc with hc
  subst hc
  unfold calculateFlux
  rw [work_seq h1]
  simp only [seqCmds]
  cases tm.2.seq m with
  | ok m0 =>
    simp only [Outcome.ok_bind, Outcome.pure_eq]
    rw [apply_seq h2]
    cases a.seq m0 with
    | ok m1 =>
      simp only [Outcome.ok_bind]
      rw [apply_seq h3]
      cases b.seq m1 with
      | ok m2 => exact (bind_nil _).symm
      | _ => rfl
    | _ => rfl
  | _ => rfl

theorem rhs_seq {h : Dir → K} {d : Dir} {flux rc rhs : FieldObj} {w : Nat} {cs : List (Cmd K)}
    (hc : rhsCmds h d flux rc rhs w = .ok cs) (m : Mem K) : calculateRhs h d flux rc rhs w m = seqCmds cs m := by
  unfold rhsCmds at hc
  obtain ⟨tm, h1, hc⟩ := Outcome.bind_eq_ok.1 hc
  obtain ⟨a, h2, hc⟩ := Outcome.bind_eq_ok.1 hc
  injection hc with hc
  subst hc
  unfold calculateRhs
  rw [work_seq h1]
  simp only [seqCmds]
  cases tm.2.seq m with
  | ok m0 =>
    simp only [Outcome.ok_bind, Outcome.pure_eq]
    rw [apply_seq h2]
    cases a.seq m0 with
    | ok m1 => exact (bind_nil _).symm
    | _ => rfl
  | _ => rfl

theorem fluxIf_seq {h : Dir → K} {F : Fields} {w : Nat} {d : Dir} {cs : List (Cmd K)}
    (hc : fluxIfCmds h n F w d = .ok cs) (m : Mem K) : fluxIf h n F w d m = seqCmds cs m := by
  unfold fluxIfCmds at hc
  unfold fluxIf
  split at hc
  · next hd => rw [if_pos hd]; exact flux_seq hc m
  · next hd => rw [if_neg hd]; injection hc with hc; subst hc; rfl

theorem rhsIf_seq {h : Dir → K} {F : Fields} {w : Nat} {d : Dir} {cs : List (Cmd K)}
    (hc : rhsIfCmds h n F w d = .ok cs) (m : Mem K) : rhsIf h n F w d m = seqCmds cs m := by
  unfold rhsIfCmds at hc
  unfold rhsIf
  split at hc
  · next hd => rw [if_pos hd]; exact rhs_seq hc m
  · next hd => rw [if_neg hd]; injection hc with hc; subst hc; rfl

theorem step_seq {h : Dir → K} {F : Fields} {work work' : Dir → Nat} {cs : List (Cmd K)}
    (hc : stepCmds h n F work work' = .ok cs) (m : Mem K) : timeStep h n F work work' m = seqCmds cs m := by
  unfold stepCmds at hc
  obtain ⟨x, h1, hc⟩ := Outcome.bind_eq_ok.1 hc
  obtain ⟨y, h2, hc⟩ := Outcome.bind_eq_ok.1 hc
  obtain ⟨z, h3, hc⟩ := Outcome.bind_eq_ok.1 hc
  obtain ⟨x', h4, hc⟩ := Outcome.bind_eq_ok.1 hc
  obtain ⟨y', h5, hc⟩ := Outcome.bind_eq_ok.1 hc
  obtain ⟨z', h6, hc⟩ := Outcome.bind_eq_ok.1 hc
  injection hc with hc
  subst hc
  unfold timeStep
  simp only [List.append_assoc]
  rw [fluxIf_seq h1, seqCmds_append]
  cases seqCmds x m with
  | ok m1 =>
    simp only [Outcome.ok_bind]
    rw [fluxIf_seq h2, seqCmds_append]
    cases seqCmds y m1 with
    | ok m2 =>
      simp only [Outcome.ok_bind]
      rw [fluxIf_seq h3, seqCmds_append]
      cases seqCmds z m2 with
      | ok m3 =>
        simp only [Outcome.ok_bind]
        rw [seqCmds_append]
        have e : seqCmds [put F.rhs (.scalar (t := .num) (0 : K))] m3 = assign F.rhs (.scalar (t := .num) 0) m3 := bind_nil _
        rw [e]
        cases assign F.rhs (.scalar (t := .num) 0) m3 with
        | ok m4 =>
          simp only [Outcome.ok_bind]
          rw [rhsIf_seq h4, seqCmds_append]
          cases seqCmds x' m4 with
          | ok m5 =>
            simp only [Outcome.ok_bind]
            rw [rhsIf_seq h5, seqCmds_append]
            cases seqCmds y' m5 with
            | ok m6 => exact rhsIf_seq h6 m6
            | _ => rfl
          | _ => rfl
        | _ => rfl
      | _ => rfl
    | _ => rfl
  | _ => rfl

theorem loop_seq {h : Dir → K} {F : Fields} {work work' : Nat → Dir → Nat} {N : Nat} {cs : List (Cmd K)}
    (hc : loopCmds h n F work work' N = .ok cs) (m : Mem K) : timeLoop h n F work work' N m = seqCmds cs m := by
  induction N generalizing cs with
  | zero =>
    unfold loopCmds at hc
    injection hc with hc
    subst hc
    rfl
  | succ N ih =>
    unfold loopCmds at hc
    obtain ⟨a, h1, hc⟩ := Outcome.bind_eq_ok.1 hc
    obtain ⟨b, h2, hc⟩ := Outcome.bind_eq_ok.1 hc
    injection hc with hc
    subst hc
    unfold timeLoop
    rw [ih h1, seqCmds_append]
    cases seqCmds a m with
    | ok m1 => exact step_seq h2 m1
    | _ => rfl

/-! ## Every action is ready -/

theorem put_ready (hn : IntVec.Lt 0 n) (hp : InPlane n e) {l : FieldObj} (h : Good n e l b) {x : Expr K .num} (hx : x.FlatWf n G)
    (hd : ∀ c, IntVec.Le 0 c → IntVec.Lt c (n + e) → InPlane n c → x.FlatDefined n c) (hi : x.Independent l 0) :
    (put l x).Ready n G := by
  refine .asg h.target hx (fun c hc => ?_) hi (fun _ h => by cases h)
  unfold FlatInterior at hc
  rw [good_extra h] at hc
  have := spans_block hn hp hc
  exact hd c this.1 this.2 (inSpans_plane hc)

theorem work_ready {t : FieldType} {f : FieldObj} (h : Good n t.bcExtra f b) (b' : Nat) :
    ∃ f' c, workCmd (K := K) t f b' = .ok (f', c) ∧ Good n t.bcExtra f' b' ∧ c.Ready n G := by
  obtain ⟨f', m', h1, h2, -⟩ := work_ok h b' (fun _ _ => (0 : K))
  unfold workField at h1
  obtain ⟨r, h3, h1⟩ := Outcome.bind_eq_ok.1 h1
  injection h1 with h1
  injection h1 with h1 _
  subst h1
  have e : workCmd (K := K) t f b' = .ok (⟨r.1, some b', none, false, f.memType, f.dev, false, [], [], false, r.2⟩,
      .host fun m => .ok fun blk a => if blk = b' ∧ 0 ≤ a ∧ a < r.2 then 0 else m blk a) := by
    unfold workCmd
    rw [h3]
    rfl
  exact ⟨_, _, e, h2, .host fun m => ⟨_, rfl⟩⟩

theorem apply_ready {h : Dir → K} {r : Reg} {src dest : FieldObj} {x : Expr K .num} (hx : r.apply h (.field src) = some x)
    (hr : (put dest x).Ready n G) : ∃ c, applyCmd h r src dest = .ok c ∧ c.Ready n G := by
  refine ⟨put dest x, ?_, hr⟩
  unfold applyCmd
  rw [hx]

/-- Every action of the list is ready. -/
def AllReady (n : IntVec) (cs : List (Cmd K)) : Prop := ∀ c ∈ cs, c.Ready n G

theorem allReady_nil : AllReady (K := K) n [] := fun _ h => by cases h

theorem allReady_cons {c : Cmd K} {cs : List (Cmd K)} (h : c.Ready n G) (hs : AllReady n cs) : AllReady n (c :: cs) := by
  intro x hx
  rcases List.mem_cons.1 hx with rfl | hx
  · exact h
  · exact hs x hx

theorem allReady_append {a b : List (Cmd K)} (h : AllReady n a) (hs : AllReady n b) : AllReady n (a ++ b) := by
  intro x hx
  rcases List.mem_append.1 hx with hx | hx
  · exact h x hx
  · exact hs x hx

theorem faces_ready (hn : IntVec.Lt 0 n) {d : Dir} (hd : 1 < comp n d) {src l : FieldObj} {bs bl : Nat} (hs : Good n 0 src bs)
    (hl : Good n (unit d) l bl) (hb : bs ≠ bl) (u v : K) :
    (put l (.stencil (.more (.one (-unit d, u)) (0, v)) (.field src))).Ready n G := by
  obtain ⟨p1, p2⟩ := plane_unit hd
  obtain ⟨a1, a2, a3⟩ := stencil_facts hl hs hb (-unit d) 0 u v p2 (plane_zero n)
    (by cases d <;> decide) (by cases d <;> decide) (by cases d <;> decide)
  exact put_ready hn p1 hl a1 a2 a3

theorem cells_ready (hn : IntVec.Lt 0 n) {d : Dir} (hd : 1 < comp n d) {src l : FieldObj} {bs bl : Nat} (hs : Good n (unit d) src bs)
    (hl : Good n 0 l bl) (hb : bs ≠ bl) (u v : K) :
    (put l (.stencil (.more (.one (0, u)) (unit d, v)) (.field src))).Ready n G := by
  obtain ⟨p1, p2⟩ := plane_unit hd
  obtain ⟨a1, a2, a3⟩ := stencil_facts hl hs hb 0 (unit d) u v (plane_zero n) p1
    (by cases d <;> decide) (by cases d <;> decide) (by cases d <;> decide)
  exact put_ready hn (plane_zero n) hl a1 a2 a3

theorem flux_ready (hn : IntVec.Lt 0 n) (h : Dir → K) {d : Dir} (hd : 1 < comp n d) {T k flux : FieldObj} {bT bk bf w : Nat}
    (hT : Good n 0 T bT) (hk : Good n 0 k bk) (hf : Good n (unit d) flux bf) (dT : bT ≠ bf) (wk : bk ≠ w) (wf : bf ≠ w) :
    ∃ cs, fluxCmds h d T k flux w = .ok cs ∧ AllReady n cs := by
  have p1 := (plane_unit hd).1
  have hf' : Good n (faceType d).bcExtra flux bf := by rw [bcExtra_face]; exact hf
  obtain ⟨tmp, c, h0, ht, r0⟩ := work_ready (K := K) hf' w
  rw [bcExtra_face] at ht
  obtain ⟨c1, h1, r1⟩ := apply_ready (interp_apply h d (.field k)) (faces_ready hn hd hk ht wk (1 / 2 : K) (1 / 2))
  obtain ⟨c2, h2, r2⟩ := apply_ready (grad_apply h d (.field T)) (faces_ready hn hd hT hf dT (-1 / h d : K) (1 / h d))
  have r3 := put_ready hn p1 hf (x := .bin (s := .num) (t := .num) (fun a b : K => a * b)
      (.un (s := .num) (t := .num) (fun a : K => -a) (.field flux)) (.field tmp)) ⟨good_on hf, good_on ht⟩
    (fun c c1 c2 c3 => ⟨good_defined hf (le_refl' _) c c1 c2 c3, good_defined ht (le_refl' _) c c1 c2 c3⟩)
    ⟨indep_self flux, indep_other ht hf wf.symm 0⟩
  refine ⟨_, ?_, allReady_cons r0 (allReady_cons r1 (allReady_cons r2 (allReady_cons r3 allReady_nil)))⟩
  unfold fluxCmds
  rw [h0, Outcome.ok_bind]
  dsimp only
  rw [h1, Outcome.ok_bind, h2, Outcome.ok_bind]
  rfl

theorem rhs_ready (hn : IntVec.Lt 0 n) (h : Dir → K) {d : Dir} (hd : 1 < comp n d) {flux rc rhs : FieldObj} {bf bc br w : Nat}
    (hf : Good n (unit d) flux bf) (hc : Good n 0 rc bc) (hr : Good n 0 rhs br) (dc : bc ≠ br) (wf : bf ≠ w) (wr : br ≠ w) :
    ∃ cs, rhsCmds h d flux rc rhs w = .ok cs ∧ AllReady n cs := by
  obtain ⟨tmp, c, h0, ht, r0⟩ := work_ready (K := K) (t := .sVol) hr w
  have ht : Good n 0 tmp w := ht
  obtain ⟨c1, h1, r1⟩ := apply_ready (div_apply h d (.field flux)) (cells_ready hn hd hf ht wf (-1 / h d : K) (1 / h d))
  have r2 := put_ready hn (plane_zero n) hr (x := .bin (s := .num) (t := .num) (fun a b : K => a - b) (.field rhs)
    (.bin (s := .num) (t := .num) (fun a b : K => a / b) (.field tmp) (.field rc))) ⟨good_on hr, good_on ht, good_on hc⟩
    (fun c c1 c2 c3 => ⟨good_defined hr (le_refl' _) c c1 c2 c3, good_defined ht (le_refl' _) c c1 c2 c3,
      good_defined hc (le_refl' _) c c1 c2 c3⟩)
    ⟨indep_self rhs, indep_other ht hr wr.symm 0, indep_other hc hr dc 0⟩
  refine ⟨_, ?_, allReady_cons r0 (allReady_cons r1 (allReady_cons r2 allReady_nil))⟩
  unfold rhsCmds
  rw [h0, Outcome.ok_bind]
  dsimp only
  rw [h1, Outcome.ok_bind]
  rfl

theorem fluxIf_ready (hn : IntVec.Lt 0 n) (h : Dir → K) {blk : Nat → Nat} (hs : Separate blk) {F : Fields} (hF : Built n blk F)
    {w : Nat} (hw : ∀ i < 10, w ≠ blk i) (d : Dir) : ∃ cs, fluxIfCmds h n F w d = .ok cs ∧ AllReady n cs := by
  unfold fluxIfCmds
  rw [extract_comp]
  have hb := fb_bound d
  split
  · next hd =>
    exact flux_ready hn h hd hF.temperature hF.thermCond (hF.flux d hd) (sep hs 0 (fb d) (by omega) hb.2 (by omega))
      (hw 1 (by omega)).symm (hw (fb d) hb.2).symm
  · exact ⟨[], rfl, allReady_nil⟩

theorem rhsIf_ready (hn : IntVec.Lt 0 n) (h : Dir → K) {blk : Nat → Nat} (hs : Separate blk) {F : Fields} (hF : Built n blk F)
    {w : Nat} (hw : ∀ i < 10, w ≠ blk i) (d : Dir) : ∃ cs, rhsIfCmds h n F w d = .ok cs ∧ AllReady n cs := by
  unfold rhsIfCmds
  rw [extract_comp]
  have hb := fb_bound d
  split
  · next hd =>
    exact rhs_ready hn h hd (hF.flux d hd) hF.rhoCp hF.rhs (sep hs 2 6 (by omega) (by omega) (by omega))
      (hw (fb d) hb.2).symm (hw 6 (by omega)).symm
  · exact ⟨[], rfl, allReady_nil⟩

theorem scalar_ready (hn : IntVec.Lt 0 n) {l : FieldObj} (hl : Good n 0 l b) (v : K) : (put l (.scalar (t := .num) v)).Ready n G := by
  have hd : ∀ c, InSpans n ⟨1, 1, 1⟩ (⟨1, 1, 1⟩ + 0) c → (Expr.scalar (t := .num) v : Expr K .num).FlatDefined n c :=
    fun c => scalar_defined (by decide) v c
  exact put_ready hn (plane_zero n) hl trivial (fun c c1 c2 c3 => hd c (inSpans_of (by iv_omega) (by iv_omega) c3)) trivial

theorem step_ready (hn : IntVec.Lt 0 n) (h : Dir → K) {blk : Nat → Nat} (hs : Separate blk) {F : Fields} (hF : Built n blk F)
    {work work' : Dir → Nat} (hw : Fresh blk work) (hw' : Fresh blk work') :
    ∃ cs, stepCmds h n F work work' = .ok cs ∧ AllReady n cs := by
  obtain ⟨x, h1, r1⟩ := fluxIf_ready hn h hs hF (fun i hi => hw i hi .x) .x
  obtain ⟨y, h2, r2⟩ := fluxIf_ready hn h hs hF (fun i hi => hw i hi .y) .y
  obtain ⟨z, h3, r3⟩ := fluxIf_ready hn h hs hF (fun i hi => hw i hi .z) .z
  obtain ⟨x', h4, r4⟩ := rhsIf_ready hn h hs hF (fun i hi => hw' i hi .x) .x
  obtain ⟨y', h5, r5⟩ := rhsIf_ready hn h hs hF (fun i hi => hw' i hi .y) .y
  obtain ⟨z', h6, r6⟩ := rhsIf_ready hn h hs hF (fun i hi => hw' i hi .z) .z
  refine ⟨x ++ y ++ z ++ [put F.rhs (.scalar (t := .num) 0)] ++ x' ++ y' ++ z', ?_, ?_⟩
  · unfold stepCmds
    rw [h1, Outcome.ok_bind, h2, Outcome.ok_bind, h3, Outcome.ok_bind, h4, Outcome.ok_bind, h5, Outcome.ok_bind, h6, Outcome.ok_bind]
    rfl
  · exact allReady_append (allReady_append (allReady_append (allReady_append (allReady_append (allReady_append r1 r2) r3)
      (allReady_cons (scalar_ready hn hF.rhs 0) allReady_nil)) r4) r5) r6

theorem loop_ready (hn : IntVec.Lt 0 n) (h : Dir → K) {blk : Nat → Nat} (hs : Separate blk) {F : Fields} (hF : Built n blk F)
    {work work' : Nat → Dir → Nat} (hw : ∀ k, Fresh blk (work k)) (hw' : ∀ k, Fresh blk (work' k)) (N : Nat) :
    ∃ cs, loopCmds h n F work work' N = .ok cs ∧ AllReady n cs := by
  induction N with
  | zero => exact ⟨[], rfl, allReady_nil⟩
  | succ N ih =>
    obtain ⟨a, h1, r1⟩ := ih
    obtain ⟨b, h2, r2⟩ := step_ready hn h hs hF (hw N) (hw' N)
    refine ⟨a ++ b, ?_, allReady_append r1 r2⟩
    unfold loopCmds
    rw [h1, Outcome.ok_bind, h2, Outcome.ok_bind]
    rfl

end

section
variable {K : Type} [Field K]

theorem init_seq (sin cos : K → K) (L : Dir → K) (F : Fields) (m : Mem K) :
    initialise sin cos n L F m = seqCmds (initCmds sin cos n L F) m := by
  unfold initialise initCmds
  simp only [seqCmds]
  show _ = (Grid.make n L).setCoord .x .sVol F.xcoord m >>= _
  cases (Grid.make n L).setCoord .x .sVol F.xcoord m with
  | ok m1 =>
    simp only [Outcome.ok_bind]
    show _ = (Grid.make n L).setCoord .y .sVol F.ycoord m1 >>= _
    cases (Grid.make n L).setCoord .y .sVol F.ycoord m1 with
    | ok m2 =>
      simp only [Outcome.ok_bind]
      show _ = (Grid.make n L).setCoord .z .sVol F.zcoord m2 >>= _
      cases (Grid.make n L).setCoord .z .sVol F.zcoord m2 with
      | ok m3 =>
        simp only [Outcome.ok_bind]
        show _ = assign F.temperature _ m3 >>= _
        cases assign F.temperature (.bin (s := .num) (t := .num) (fun a b : K => a + b)
          (.bin (s := .num) (t := .num) (fun a b : K => a + b) (.un (s := .num) (t := .num) sin (.field F.xcoord))
            (.un (s := .num) (t := .num) cos (.field F.ycoord))) (.un (s := .num) (t := .num) sin (.field F.zcoord))) m3 with
        | ok m4 =>
          simp only [Outcome.ok_bind]
          show _ = assign F.thermCond _ m4 >>= _
          cases assign F.thermCond (.bin (s := .num) (t := .num) (fun a b : K => a + b)
            (.bin (s := .num) (t := .num) (fun a b : K => a + b) (.field F.xcoord) (.field F.ycoord)) (.field F.zcoord)) m4 with
          | ok m5 => exact (bind_nil _).symm
          | _ => rfl
        | _ => rfl
      | _ => rfl
    | _ => rfl
  | _ => rfl

theorem program_seq {sin cos : K → K} {L : Dir → K} {N : Nat} {blk : Nat → Nat} {work work' : Nat → Dir → Nat} {F : Fields}
    {cs : List (Cmd K)} (hc : program sin cos n L N blk work work' = .ok (F, cs)) (m : Mem K) :
    main sin cos n L N blk work work' m = seqCmds cs m >>= fun m' => pure (F, m') := by
  unfold program at hc
  obtain ⟨F', h1, hc⟩ := Outcome.bind_eq_ok.1 hc
  obtain ⟨b, h2, hc⟩ := Outcome.bind_eq_ok.1 hc
  injection hc with hc
  injection hc with e1 e2
  subst e1 e2
  unfold main
  rw [h1, Outcome.ok_bind, init_seq, seqCmds_append]
  cases seqCmds (initCmds sin cos n L F') m with
  | ok m1 =>
    simp only [Outcome.ok_bind]
    rw [loop_seq h2]
  | _ => rfl

theorem init_ready [CharZero K] (hn : IntVec.Lt 0 n) (L : Dir → K) (sin cos : K → K) {blk : Nat → Nat} (hs : Separate blk) {F : Fields}
    (hF : Built n blk F) : AllReady n (initCmds sin cos n L F) := by
  have dd : ∀ {f : FieldObj} {b : Nat}, Good n 0 f b → ∀ c, IntVec.Le 0 c → IntVec.Lt c (n + 0) → InPlane n c → FlatHas n f.geo c :=
    fun h c c1 c2 c3 => good_defined h (le_refl' _) c c1 c2 c3
  have s : ∀ i j, i < 10 → j < 10 → i ≠ j → blk i ≠ blk j := fun i j hi hj => sep hs i j hi hj
  refine allReady_cons (.host fun m => ?_) (allReady_cons (.host fun m => ?_) (allReady_cons (.host fun m => ?_)
    (allReady_cons ?_ (allReady_cons ?_ (allReady_cons (scalar_ready hn hF.rhoCp 1) allReady_nil)))))
  · obtain ⟨m', h, -⟩ := coord_ok hn L .x hF.xcoord m; exact ⟨m', h⟩
  · obtain ⟨m', h, -⟩ := coord_ok hn L .y hF.ycoord m; exact ⟨m', h⟩
  · obtain ⟨m', h, -⟩ := coord_ok hn L .z hF.zcoord m; exact ⟨m', h⟩
  · exact put_ready hn (plane_zero n) hF.temperature ⟨⟨good_on hF.xcoord, good_on hF.ycoord⟩, good_on hF.zcoord⟩
      (fun c c1 c2 c3 => ⟨⟨dd hF.xcoord c c1 c2 c3, dd hF.ycoord c c1 c2 c3⟩, dd hF.zcoord c c1 c2 c3⟩)
      ⟨⟨indep_other hF.xcoord hF.temperature (s 3 0 (by decide) (by decide) (by decide)) 0,
        indep_other hF.ycoord hF.temperature (s 4 0 (by decide) (by decide) (by decide)) 0⟩,
        indep_other hF.zcoord hF.temperature (s 5 0 (by decide) (by decide) (by decide)) 0⟩
  · exact put_ready hn (plane_zero n) hF.thermCond ⟨⟨good_on hF.xcoord, good_on hF.ycoord⟩, good_on hF.zcoord⟩
      (fun c c1 c2 c3 => ⟨⟨dd hF.xcoord c c1 c2 c3, dd hF.ycoord c c1 c2 c3⟩, dd hF.zcoord c c1 c2 c3⟩)
      ⟨⟨indep_other hF.xcoord hF.thermCond (s 3 1 (by decide) (by decide) (by decide)) 0,
        indep_other hF.ycoord hF.thermCond (s 4 1 (by decide) (by decide) (by decide)) 0⟩,
        indep_other hF.zcoord hF.thermCond (s 5 1 (by decide) (by decide) (by decide)) 0⟩

theorem program_ready [CharZero K] (hn : IntVec.Lt 0 n) (sin cos : K → K) (L : Dir → K) (N : Nat) {blk : Nat → Nat} (hs : Separate blk)
    {work work' : Nat → Dir → Nat} (hw : ∀ k, Fresh blk (work k)) (hw' : ∀ k, Fresh blk (work' k)) :
    ∃ F cs, program sin cos n L N blk work work' = .ok (F, cs) ∧ AllReady n cs := by
  obtain ⟨F, hb, hF⟩ := build_ok hn blk
  obtain ⟨a, h1, r1⟩ := loop_ready hn (spacing (fun d => (extract n d).toNat) L) hs hF hw hw' N
  refine ⟨F, _, ?_, allReady_append (init_ready hn L sin cos hs hF) r1⟩
  unfold program
  rw [hb, Outcome.ok_bind, h1, Outcome.ok_bind]
  rfl

end
end Heat
end SpatialOps
