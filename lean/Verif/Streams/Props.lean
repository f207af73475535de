import Verif.Streams.Layout
import Verif.Nebo.Props

/-!
# C98: statements on GPU fields take effect in program order
-/

namespace SpatialOps
namespace Str
open Nebo

theorem effect_unique {V : Type} [Add V] [Mul V] {o : Op V} {m m1 m2 : Mem V} (h1 : o.Effect m m1) (h2 : o.Effect m m2) :
    m1 = m2 := by
  cases o with
  | assign u l s e =>
    have := Eq.trans (Eq.symm h1) h2
    injection this
  | copy d s n w => exact Eq.trans h1 (Eq.symm h2)
  | host A =>
    have := Eq.trans (Eq.symm h1) h2
    injection this
  | sync s => exact Eq.trans h1 (Eq.symm h2)

theorem inOrder_unique {V : Type} [Add V] [Mul V] {p : List (Op V)} {m m1 m2 : Mem V} (h1 : InOrder p m m1) :
    InOrder p m m2 → m1 = m2 := by
  induction h1 with
  | nil => intro h2; cases h2; rfl
  | cons he _ ih =>
    intro h2
    cases h2 with
    | cons he' hr => exact ih (effect_unique he he' ▸ hr)

/-- C98. A program whose conflicting statements are ordered (by the host, by their streams or by waiting) is
accepted, and whatever host and device do, nothing races, the program ends, and it leaves the memory that the
statements leave when they are executed one after the other. -/
theorem _root_.SpatialOps.C98_ordered {V : Type} [Add V] [Mul V] (n : IntVec) (hn : IntVec.Lt 0 n) (debug : Bool)
    (blocking : Nat → Bool) (p : List (Op V)) (hg : ∀ o ∈ p, o.Good n) (ho : Ordered debug blocking p) (m : Mem V) :
    ∃ s0 m', begin debug p m = .ok s0 ∧ (∀ m2, InOrder p m m2 ↔ m2 = m') ∧ Runs blocking s0 m' := by
  obtain ⟨Q, h1, h2, h3, h4⟩ := prog_items hn debug m hg
  subst h1
  obtain ⟨m', hm'⟩ := h4 m
  refine ⟨⟨(blocks debug Q).flatten, 0, m⟩, m', ?_, fun m2 => ⟨fun h => inOrder_unique h hm', fun h => h ▸ hm'⟩,
    ordered_runs h3 ho hm'⟩
  unfold begin
  rw [h2]
  rfl

theorem ordered_debug {V : Type} {blocking : Nat → Bool} {p : List (Op V)}
    (hc : ∀ (i j d s n : Nat) (o : Op V), i < j → p[i]? = some (.copy d s n false) → p[j]? = some o → Conflict (.copy d s n false) o →
      ∃ t, o.stream = some t ∧ (t = 0 ∨ blocking t = true)) : Ordered true blocking p := by
  intro i j o o' hij hi hj hcf
  cases o with
  | assign u l s e => exact .wait le_rfl hij hi hi rfl rfl
  | host A => exact .host hij hi rfl
  | sync s => exact .host hij hi rfl
  | copy d s n w =>
    cases w with
    | true => exact .wait le_rfl hij hi hi rfl rfl
    | false =>
      obtain ⟨t, h1, h2⟩ := hc i j d s n o' hij hi hj hcf
      refine .streams hij hi hj rfl h1 ?_
      rcases h2 with rfl | h2
      · exact .inl rfl
      · exact .inr (.inl ⟨rfl, h2⟩)

/-- C98, debug build: statements take effect in program order whatever streams are used, provided that what
follows a copy for which the host does not wait (between two devices) and conflicts with it is put in the default
stream or one that waits for it. -/
theorem _root_.SpatialOps.C98_debug {V : Type} [Add V] [Mul V] (n : IntVec) (hn : IntVec.Lt 0 n) (blocking : Nat → Bool)
    (p : List (Op V)) (hg : ∀ o ∈ p, o.Good n)
    (hc : ∀ (i j d s k : Nat) (o : Op V), i < j → p[i]? = some (.copy d s k false) → p[j]? = some o → Conflict (.copy d s k false) o →
      ∃ t, o.stream = some t ∧ (t = 0 ∨ blocking t = true)) (m : Mem V) :
    ∃ s0 m', begin true p m = .ok s0 ∧ (∀ m2, InOrder p m m2 ↔ m2 = m') ∧ Runs blocking s0 m' :=
  C98_ordered n hn true blocking p hg (ordered_debug hc) m

/-- C98, one stream (such as the default stream, which fields have unless `set_stream` is called), debug and release build: statements
take effect in program order if the accesses of the host are to memory other than that of the jobs the host does not wait for. -/
theorem _root_.SpatialOps.C98_one_stream {V : Type} [Add V] [Mul V] (n : IntVec) (hn : IntVec.Lt 0 n) (debug : Bool)
    (blocking : Nat → Bool) (stream : Nat) (p : List (Op V)) (hg : ∀ o ∈ p, o.Good n)
    (hs : ∀ o ∈ p, ∀ t, o.stream = some t → t = stream) (device : Nat → Prop)
    (hh : ∀ A, .host A ∈ p → ∀ b, (Op.host A).Touches b → ¬ device b)
    (hd : ∀ o ∈ p, o.stream ≠ none → o.awaits debug = none → ∀ b, o.Touches b → device b) (m : Mem V) :
    ∃ s0 m', begin debug p m = .ok s0 ∧ (∀ m2, InOrder p m m2 ↔ m2 = m') ∧ Runs blocking s0 m' := by
  have hwt : ∀ (o : Op V), o.Good n → ∀ b, o.Writes b → o.Touches b := by
    intro o hgo b hb
    cases o with
    | assign u l s e => exact .inl hb
    | copy d s k w => exact .inl hb
    | host A =>
      intro h
      refine hb ?_
      exact within_and A h
    | sync s => exact hb
  refine C98_ordered n hn debug blocking p hg ?_ m
  intro i j o o' hij hi hj hcf
  have hio := List.mem_of_getElem? hi
  have hjo := List.mem_of_getElem? hj
  cases hst : o.stream with
  | none => exact .host hij hi hst
  | some s =>
    cases haw : o.awaits debug with
    | some t =>
      have : t = s := by
        cases o with
        | assign u l s' e =>
          simp only [Op.awaits, Op.stream, Option.some.injEq] at haw hst
          split at haw
          · injection haw with haw; omega
          · cases haw
        | copy d s' k w =>
          simp only [Op.awaits, Op.stream, Option.some.injEq] at haw hst
          split at haw
          · injection haw with haw; omega
          · cases haw
        | host A => cases hst
        | sync s' => cases hst
      exact .wait le_rfl hij hi hi hst (this ▸ haw)
    | none =>
      cases hst' : o'.stream with
      | some t =>
        refine .streams hij hi hj hst hst' ?_
        rw [hs o hio s hst, hs o' hjo t hst']
        exact .inl rfl
      | none =>
        exfalso
        cases o' with
        | assign u l s' e => cases hst'
        | copy d s' k w => cases hst'
        | sync s' =>
          rcases hcf with ⟨b, _, h⟩ | ⟨b, h, _⟩ <;> exact h
        | host A =>
          have hdev := hd o hio (by rw [hst]; simp) haw
          rcases hcf with ⟨b, h1, h2⟩ | ⟨b, h1, h2⟩
          · exact hh A hjo b h2 (hdev b (hwt o (hg o hio) b h1))
          · exact hh A hjo b (hwt _ (hg _ hjo) b h1) (hdev b h2)

/-- C98, what goes wrong otherwise: two statements whose jobs are in streams that are not ordered, and the host does not wait after the first
one, may take effect in the reverse order. -/
theorem _root_.SpatialOps.C98_unordered_may_swap {V : Type} [Add V] [Mul V] (n : IntVec) (hn : IntVec.Lt 0 n)
    (blocking : Nat → Bool) (o o' : Op V) (hg : o.Good n) (hg' : o'.Good n) (s t : Nat) (hs : o.stream = some s)
    (ht : o'.stream = some t) (hw : o.awaits false = none) (hst : ¬ InTurn blocking s t) (m : Mem V) :
    ∃ s0 k sk, begin false [o, o'] m = .ok s0 ∧ Run blocking s0 k sk ∧ Finished sk ∧ InOrder [o', o] m sk.mem := by
  obtain ⟨T, h1, h2, h3⟩ := op_items hn false m hg
  obtain ⟨T', g1, g2, g3⟩ := op_items hn false m hg'
  obtain ⟨m1, e1⟩ := g3 m
  obtain ⟨m2, e2⟩ := h3 m1
  obtain ⟨k1, R', a1, b1⟩ := settles_ends (g2.1 _ _ e1) .nil
  obtain ⟨k2, R, a2, b2⟩ := settles_ends (h2.1 _ _ e2) .nil
  have hne : s ≠ t := fun h => hst (.inl h)
  have sh : shape false o T = [⟨.dev s, T, false⟩] := by
    cases o with
    | assign u l s' e => injection hs with hs; subst hs; rfl
    | copy d s' k w =>
      injection hs with hs; subst hs
      cases w with
      | false => rfl
      | true => cases hw
    | host A => cases hs
    | sync s' => cases hs
  obtain ⟨rest, sh', hrest⟩ : ∃ rest, shape false o' T' = ⟨.dev t, T', false⟩ :: rest ∧ (rest = [] ∨ rest = [⟨.wait t, [], false⟩]) := by
    cases o' with
    | assign u l s' e => injection ht with ht; subst ht; exact ⟨_, rfl, .inl rfl⟩
    | copy d s' k w =>
      injection ht with ht; subst ht
      cases w with
      | false => exact ⟨_, rfl, .inl rfl⟩
      | true => exact ⟨_, rfl, .inr rfl⟩
    | host A => cases ht
    | sync s' => cases ht
  have hbeg : begin false [o, o'] m = .ok ⟨⟨.dev s, T, false⟩ :: ⟨.dev t, T', false⟩ :: rest, 0, m⟩ := by
    simp only [begin, items]
    rw [h1, g1, sh, sh']
    simp
  have r0 : Run blocking ⟨⟨.dev s, T, false⟩ :: ⟨.dev t, T', false⟩ :: rest, 0, m⟩ 2
      ⟨⟨.dev s, T, false⟩ :: ⟨.dev t, T', false⟩ :: rest, 2, m⟩ :=
    .step (.step .start (.issue (t := s) rfl rfl)) (.issue (t := t) rfl rfl)
  obtain ⟨k3, r1⟩ := run_finish r0 (j := 1) (it := ⟨.dev t, T', false⟩)
    ⟨⟨.dev t, T', false⟩, rfl, rfl, (by decide : (1 : Nat) < 2), (by
      intro i y t' hi hy hk hord
      have : i = 0 := by omega
      subst this
      simp only [List.getElem?_cons_zero, Option.some.injEq] at hy
      subst hy
      injection hk with hk
      subst hk
      exact absurd (ordered_iff.1 hord) hst)⟩ rfl a1 b1
  simp only [List.set_cons_succ, List.set_cons_zero, Kind.pass] at r1
  obtain ⟨k4, r2⟩ := run_finish r1 (j := 0) (it := ⟨.dev s, T, false⟩)
    ⟨⟨.dev s, T, false⟩, rfl, rfl, (by decide : (0 : Nat) < 2), (by intro i y t' hi; omega)⟩ rfl a2 b2
  simp only [List.set_cons_zero, Kind.pass] at r2
  have hin : InOrder [o', o] m m2 := .cons e1 (.cons e2 .nil)
  rcases hrest with rfl | rfl
  · refine ⟨_, _, _, hbeg, r2, ⟨rfl, ?_⟩, hin⟩
    intro it hit
    simp only [List.mem_cons, List.not_mem_nil, or_false] at hit
    rcases hit with rfl | rfl <;> rfl
  · have r3 := Run.step r2 (.finish (j := 2) (it := ⟨.wait t, [], false⟩)
      ⟨⟨.wait t, [], false⟩, rfl, rfl, rfl, (by
        intro i y hi hy hk
        match i, hi, hy with
        | 0, _, hy =>
          simp only [List.getElem?_cons_zero, Option.some.injEq] at hy
          rw [← hy]
        | 1, _, hy =>
          simp only [List.getElem?_cons_succ, List.getElem?_cons_zero, Option.some.injEq] at hy
          rw [← hy]
        | i + 2, hi, _ => omega)⟩ rfl (fun t ht => by simp at ht))
    refine ⟨_, _, _, hbeg, r3, ⟨rfl, ?_⟩, hin⟩
    intro it hit
    simp only [List.set_cons_succ, List.set_cons_zero, List.mem_cons, List.not_mem_nil, or_false] at hit
    rcases hit with rfl | rfl | rfl <;> rfl

/-! ## Examples -/

namespace Ex

/-- Two fields on GPU 0. -/
abbrev A : FieldObj := GpuEx.fld false 0
abbrev B : FieldObj := GpuEx.fld false 1

/-- `A <<= 5` in stream `s`, `B <<= A` in stream `t`. -/
def setA (s : Nat) : Op Int := .assign false A s (.scalar (t := .num) 5)
def useA (t : Nat) : Op Int := .assign false B t (.field A)

/-- Element of the first interior cell. -/
abbrev at0 : Int := cellAddr A.geo 0

theorem tgt (b : Nat) : Target ⟨4, 3, 1⟩ (cpuTwin (GpuEx.fld false b)) b :=
  ⟨NeboEx.onMesh false, rfl, rfl, rfl, NeboEx.room false⟩

theorem defA (c : IntVec) (hc : Interior ⟨4, 3, 1⟩ A c) : (Expr.scalar (V := Int) (t := .num) 5).DefinedAt ⟨4, 3, 1⟩ c := by
  have e5 : A.geo.bc.hasExtra = 0 := by decide
  unfold Interior at hc
  rw [e5] at hc
  simp only [Expr.DefinedAt, ghostMax]
  iv_omega

theorem defB (c : IntVec) (hc : Interior ⟨4, 3, 1⟩ B c) :
    ((Expr.field (V := Int) A).onDevice B.dev).DefinedAt ⟨4, 3, 1⟩ c := by
  have e5 : B.geo.bc.hasExtra = 0 := by decide
  have hh := hasCell_iff (NeboEx.onMesh false)
  have e1 : (NeboEx.geo false).validGhosts.minus = ⟨1, 1, 0⟩ := rfl
  have e2 : (NeboEx.geo false).validGhosts.plus + (NeboEx.geo false).bc.hasExtra = ⟨1, 1, 0⟩ := by decide
  unfold Interior at hc
  rw [e5] at hc
  rw [e1, e2] at hh
  unfold InBox at hh
  exact (hh c).2 (by iv_omega)

theorem goodA (s : Nat) : (setA s).Good ⟨4, 3, 1⟩ :=
  ⟨rfl, ⟨0, tgt 0⟩, trivial, defA, trivial, trivial, fun h => by cases h⟩

theorem goodB (t : Nat) : (useA t).Good ⟨4, 3, 1⟩ :=
  ⟨rfl, ⟨1, tgt 1⟩, ⟨NeboEx.onMesh false, by decide⟩, defB, .inl (by decide), trivial, fun h => by cases h⟩

theorem effA {s : Nat} {m m' : Mem Int} (h : (setA s).Effect m m') : m' 0 at0 = 5 ∧ ∀ b a, b ≠ 0 → m' b a = m b a := by
  obtain ⟨m2, h1, h2, h3⟩ := C22_interior_assign_pointwise ⟨4, 3, 1⟩ (by decide) (cpuTwin A) 0 (tgt 0)
    (Expr.scalar (V := Int) (t := .num) 5) trivial defA trivial m
  have := Eq.trans (Eq.symm h) h1
  injection this with this
  subst this
  exact ⟨h2 0 (by unfold Interior; decide), fun b a hb => h3 b a (.inl hb)⟩

theorem effB {s : Nat} {m m' : Mem Int} (h : (useA s).Effect m m') : m' 1 at0 = m 0 at0 ∧ ∀ b a, b ≠ 1 → m' b a = m b a := by
  obtain ⟨m2, h1, h2, h3⟩ := C22_interior_assign_pointwise ⟨4, 3, 1⟩ (by decide) (cpuTwin B) 1 (tgt 1)
    ((Expr.field (V := Int) A).onDevice B.dev) ⟨NeboEx.onMesh false, by decide⟩ defB (.inl (by decide)) m
  have := Eq.trans (Eq.symm h) h1
  injection this with this
  subst this
  exact ⟨h2 0 (by unfold Interior; decide), fun b a hb => h3 b a (.inl hb)⟩

/-- The first field copied to block 9 of the host, for whose end the host waits. -/
def toHost : Op Int := .copy 9 0 30 true

end Ex
open Ex

/-- C98, witness: `A <<= 5` in stream 1 and `B <<= A` in stream 2. In the debug build `B` always becomes 5; in the
release build there is a run in which `B` becomes what `A` was before. -/
theorem _root_.SpatialOps.C98_release_may_use_old_data (blocking : Nat → Bool) (m : Mem Int) :
    (∃ s0, begin true [setA 1, useA 2] m = .ok s0 ∧ ∀ k s, Run blocking s0 k s → Finished s → s.mem 1 at0 = 5) ∧
    ∃ s0 k s, begin false [setA 1, useA 2] m = .ok s0 ∧ Run blocking s0 k s ∧ Finished s ∧ s.mem 1 at0 = m 0 at0 := by
  constructor
  · obtain ⟨s0, m', h1, h2, h3⟩ := C98_debug ⟨4, 3, 1⟩ (by decide) blocking [setA 1, useA 2] (by
        intro o ho
        simp only [List.mem_cons, List.not_mem_nil, or_false] at ho
        rcases ho with rfl | rfl
        · exact goodA 1
        · exact goodB 2) (by
        intro i j d s k o _ hi
        match i, hi with
        | 0, hi => simp [setA] at hi
        | 1, hi => simp [useA] at hi
        | i + 2, hi => simp at hi) m
    refine ⟨s0, h1, fun k s hr hf => ?_⟩
    rw [(h3.2 k s hr).2.2 hf]
    have hin := (h2 m').2 rfl
    cases hin with
    | cons he hr' =>
      cases hr' with
      | cons he' hr'' =>
        cases hr''
        rw [(effB he').1, (effA he).1]
  · obtain ⟨s0, k, sk, h1, h2, h3, h4⟩ := C98_unordered_may_swap ⟨4, 3, 1⟩ (by decide) blocking (setA 1) (useA 2) (goodA 1) (goodB 2)
      1 2 rfl rfl rfl (by simp [InTurn]) m
    refine ⟨s0, k, sk, h1, h2, h3, ?_⟩
    cases h4 with
    | cons he hr' =>
      cases hr' with
      | cons he' hr'' =>
        cases hr''
        rw [(effA he').2 1 at0 (by decide), (effB he).1]

/-- C98, witness: `A <<= 5` in a stream that does not block the default stream, then a copy of `A` to the host, for
whose end the host waits. In the release build there is a run in which the host gets what `A` was before. -/
theorem _root_.SpatialOps.C98_release_may_copy_old_data (blocking : Nat → Bool) (hb : blocking 1 = false) (m : Mem Int) :
    ∃ s0 k s, begin false [setA 1, toHost] m = .ok s0 ∧ Run blocking s0 k s ∧ Finished s ∧ s.mem 9 at0 = m 0 at0 := by
  obtain ⟨s0, k, sk, h1, h2, h3, h4⟩ := C98_unordered_may_swap ⟨4, 3, 1⟩ (by decide) blocking (setA 1) toHost (goodA 1)
    (by decide : (9 : Nat) ≠ 0) 1 0 rfl rfl rfl (by simp [InTurn, hb]) m
  refine ⟨s0, k, sk, h1, h2, h3, ?_⟩
  cases h4 with
  | cons he hr' =>
    cases hr' with
    | cons he' hr'' =>
      cases hr''
      rw [(effA he').2 9 at0 (by decide)]
      change _ = _ at he
      rw [he]
      exact if_pos (by decide)

/-- The host doubles its copy of an element. -/
def Ex.useCopy : Act Int := .read 9 at0 fun v => .write 9 at0 (2 * v) .done

/-- C98 is not vacuous: a program in the default stream that ends with the host using its copy. -/
example (blocking : Nat → Bool) (m : Mem Int) :
    ∃ s0 m', begin false [setA 0, useA 0, toHost, .host useCopy] m = .ok s0 ∧
      (∀ m2, InOrder [setA 0, useA 0, toHost, .host useCopy] m m2 ↔ m2 = m') ∧ Runs blocking s0 m' ∧ m' 9 at0 = 10 := by
  obtain ⟨s0, m', h1, h2, h3⟩ := C98_one_stream ⟨4, 3, 1⟩ (by decide) false blocking 0 [setA 0, useA 0, toHost, .host useCopy] (by
      intro o ho
      simp only [List.mem_cons, List.not_mem_nil, or_false] at ho
      rcases ho with rfl | rfl | rfl | rfl
      · exact goodA 0
      · exact goodB 0
      · exact (by decide : (9 : Nat) ≠ 0)
      · intro m h; cases h) (by
      intro o ho t h
      simp only [List.mem_cons, List.not_mem_nil, or_false] at ho
      rcases ho with rfl | rfl | rfl | rfl <;> simp [setA, useA, toHost, Op.stream] at h <;> exact h.symm) (fun b => b = 0 ∨ b = 1) (by
      intro C ho b hb hd
      simp only [List.mem_cons, List.not_mem_nil, or_false, setA, useA, toHost, reduceCtorEq, false_or, Op.host.injEq] at ho
      subst ho
      refine hb ⟨by omega, fun v => ⟨by omega, trivial, trivial⟩⟩) (by
      intro o ho h1 h2 b hb
      simp only [List.mem_cons, List.not_mem_nil, or_false] at ho
      rcases ho with rfl | rfl | rfl | rfl
      · rcases hb with hb | hb
        · left; injection hb with hb; exact hb.symm
        · exact hb.elim
      · rcases hb with hb | hb
        · right; injection hb with hb; exact hb.symm
        · left; injection hb with hb; exact hb.symm
      · cases h2
      · exact absurd rfl h1) m
  refine ⟨s0, m', h1, h2, h3, ?_⟩
  have hin := (h2 m').2 rfl
  cases hin with
  | cons e1 r1 =>
    cases r1 with
    | cons e2 r2 =>
      cases r2 with
      | cons e3 r3 =>
        cases r3 with
        | cons e4 r4 =>
          cases r4
          have e4 : effect useCopy _ = some m' := e4
          simp only [useCopy, effect, Option.some.injEq] at e4
          rw [← e4]
          change _ = _ at e3
          rw [e3]
          simp only [Mem.write, and_self, if_true]
          rw [if_pos (by decide), (effB e2).2 0 at0 (by decide), (effA e1).1]
          rfl

/-- C98 is not vacuous: in the release build with streams 1 and 2, the program is ordered if the host waits for stream 1 between the statements. -/
example (blocking : Nat → Bool) : (∀ o ∈ [setA 1, .sync 1, useA 2], o.Good ⟨4, 3, 1⟩) ∧
    Ordered false blocking [setA 1, .sync 1, useA 2] := by
  constructor
  · intro o ho
    simp only [List.mem_cons, List.not_mem_nil, or_false] at ho
    rcases ho with rfl | rfl | rfl
    · exact goodA 1
    · trivial
    · exact goodB 2
  · intro i j o o' hij hi hj hc
    match i, j, hij, hi, hj with
    | 0, 1, _, hi, hj =>
      injection hj with hj
      subst hj
      rcases hc with ⟨b, _, h⟩ | ⟨b, h, _⟩ <;> exact h.elim
    | 0, j + 2, _, hi, hj => exact .wait (s := 1) (k := 1) (o := setA 1) (o' := .sync 1) (by omega) (by omega) rfl rfl rfl rfl
    | 1, j + 2, hij, _, _ => exact .host (o := .sync 1) hij rfl rfl
    | i + 2, j, hij, _, hj =>
      have : j < 3 := lt_of_get hj
      omega

end Str
end SpatialOps
