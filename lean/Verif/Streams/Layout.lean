import Verif.Streams.Foot
import Verif.Streams.Machine

/-!
# Streams: where the jobs of a program are in its list of steps
-/

namespace SpatialOps
namespace Str
open Nebo

variable {V : Type}

/-- The position of the job of a statement among its steps. -/
def mainIx (debug : Bool) : Op V → Nat
  | .assign _ _ _ _ => if debug then 1 else 0
  | .copy _ _ _ _ | .host _ | .sync _ => 0

/-- The kind of the main step of a statement. -/
def mainKind : Op V → Kind
  | .assign _ _ s _ => .dev s
  | .copy _ _ _ _ => .dev 0
  | .host _ => .host
  | .sync s => .wait s

/-- The steps of a statement whose job has threads `T`. -/
def shape (debug : Bool) : Op V → Tasks V → List (Item V)
  | .assign _ _ s _, T => if debug then [⟨.wait s, [], false⟩, ⟨.dev s, T, false⟩, ⟨.wait s, [], false⟩] else [⟨.dev s, T, false⟩]
  | .copy _ _ _ waits, T => if waits then [⟨.dev 0, T, false⟩, ⟨.wait 0, [], false⟩] else [⟨.dev 0, T, false⟩]
  | .host _, T => [⟨.host, T, false⟩]
  | .sync s, T => [⟨.wait s, T, false⟩]

theorem shape_main (debug : Bool) (o : Op V) (T : Tasks V) :
    (shape debug o T)[mainIx debug o]? = some ⟨mainKind o, T, false⟩ := by
  cases o with
  | assign u l s e => cases debug <;> rfl
  | copy d s n w => cases w <;> rfl
  | host A => rfl
  | sync s => rfl

theorem shape_other (debug : Bool) (o : Op V) (T : Tasks V) {r : Nat} {it : Item V} (h : (shape debug o T)[r]? = some it)
    (hr : r ≠ mainIx debug o) : it.tasks = [] := by
  cases o with
  | assign u l s e =>
    cases debug
    · cases r with
      | zero => exact absurd rfl hr
      | succ r => simp [shape] at h
    · match r, h, hr with
      | 0, h, _ => simp [shape] at h; rw [← h]
      | 1, _, hr => exact absurd rfl hr
      | 2, h, _ => simp [shape] at h; rw [← h]
      | r + 3, h, _ => simp [shape] at h
  | copy d s n w =>
    cases w
    · cases r with
      | zero => exact absurd rfl hr
      | succ r => simp [shape] at h
    · match r, h, hr with
      | 0, _, hr => exact absurd rfl hr
      | 1, h, _ => simp [shape] at h; rw [← h]
      | r + 2, h, _ => simp [shape] at h
  | host A =>
    cases r with
    | zero => exact absurd rfl hr
    | succ r => simp [shape] at h
  | sync s =>
    cases r with
    | zero => exact absurd rfl hr
    | succ r => simp [shape] at h

theorem shape_over (debug : Bool) (o : Op V) (T : Tasks V) : ∀ it ∈ shape debug o T, it.over = false := by
  intro it h
  cases o with
  | assign u l s e =>
    cases debug <;> simp only [shape, if_true, Bool.false_eq_true, if_false, List.mem_cons, List.not_mem_nil, or_false] at h <;>
      rcases h with rfl | rfl | rfl <;> rfl
  | copy d s n w =>
    cases w <;> simp only [shape, if_true, Bool.false_eq_true, if_false, List.mem_cons, List.not_mem_nil, or_false] at h <;>
      rcases h with rfl | rfl <;> rfl
  | host A => simp only [shape, List.mem_cons, List.not_mem_nil, or_false] at h; subst h; rfl
  | sync s => simp only [shape, List.mem_cons, List.not_mem_nil, or_false] at h; subst h; rfl

/-- The step with which the host waits. -/
theorem shape_await {debug : Bool} {o : Op V} (T : Tasks V) {s : Nat} (h : o.awaits debug = some s) :
    ∃ r it, (shape debug o T)[r]? = some it ∧ it.kind = .wait s ∧ mainIx debug o ≤ r ∧ (o.stream ≠ none → mainIx debug o < r) := by
  cases o with
  | assign u l t e =>
    cases debug
    · simp [Op.awaits] at h
    · simp only [Op.awaits, if_true, Option.some.injEq] at h
      exact ⟨2, _, rfl, by rw [← h], by simp [mainIx], fun _ => by simp [mainIx]⟩
  | copy d u n w =>
    cases w
    · simp [Op.awaits] at h
    · simp only [Op.awaits, if_true, Option.some.injEq] at h
      exact ⟨1, _, rfl, by rw [← h], Nat.zero_le _, fun _ => Nat.zero_lt_one⟩
  | host A => cases h
  | sync t =>
    simp only [Op.awaits, Option.some.injEq] at h
    exact ⟨0, _, rfl, by rw [← h], le_rfl, fun h => absurd rfl h⟩

theorem stream_kind {o : Op V} : (∀ s, o.stream = some s → mainKind o = .dev s) ∧ (o.stream = none → ∀ t, mainKind o ≠ .dev t) := by
  cases o with
  | assign u l s e => exact ⟨fun t h => by injection h with h; rw [← h]; rfl, fun h => by cases h⟩
  | copy d s n w => exact ⟨fun t h => by injection h with h; rw [← h]; rfl, fun h => by cases h⟩
  | host A => exact ⟨fun t h => (by cases h), fun _ t h => (by cases h)⟩
  | sync s => exact ⟨fun t h => (by cases h), fun _ t h => (by cases h)⟩

theorem shape_chain (debug : Bool) (o : Op V) {T : Tasks V} {m m' : Mem V} (h : Settles T m m') :
    Chain ((shape debug o T).map Item.tasks) m m' := by
  have one : Chain [T] m m' := .cons h .nil
  cases o with
  | assign u l s e =>
    cases debug
    · exact one
    · exact .cons (settles_nil m) (.cons h (.cons (settles_nil m') .nil))
  | copy d s n w =>
    cases w
    · exact one
    · exact .cons h (.cons (settles_nil m') .nil)
  | host A => exact one
  | sync s => exact one

theorem Chain.append {L L' : List (Tasks V)} {m m1 m2 : Mem V} (h : Chain L m m1) (h' : Chain L' m1 m2) : Chain (L ++ L') m m2 := by
  induction h with
  | nil => exact h'
  | cons hs _ ih => exact .cons hs (ih h')

/-! ## Positions -/

/-- Where the steps of statement `i` begin. -/
def off {α : Type} : List (List α) → Nat → Nat
  | _, 0 => 0
  | [], _ + 1 => 0
  | x :: L, i + 1 => x.length + off L i

theorem off_get {α : Type} : ∀ {L : List (List α)} {i r : Nat} {x : List α}, L[i]? = some x → r < x.length →
    L.flatten[off L i + r]? = x[r]?
  | [], _, _, _, h, _ => by simp at h
  | y :: L, 0, r, x, h, hr => by
    simp only [List.getElem?_cons_zero, Option.some.injEq] at h
    subst h
    simp only [off, List.flatten_cons]
    rw [Nat.zero_add, List.getElem?_append_left hr]
  | y :: L, i + 1, r, x, h, hr => by
    simp only [List.getElem?_cons_succ] at h
    simp only [off, List.flatten_cons]
    rw [Nat.add_assoc, List.getElem?_append_right (by omega), Nat.add_sub_cancel_left]
    exact off_get h hr

theorem off_split {α : Type} : ∀ {L : List (List α)} {q : Nat} {y : α}, L.flatten[q]? = some y →
    ∃ i r x, L[i]? = some x ∧ x[r]? = some y ∧ q = off L i + r
  | [], _, _, h => by simp at h
  | x :: L, q, y, h => by
    rw [List.flatten_cons] at h
    by_cases hq : q < x.length
    · rw [List.getElem?_append_left hq] at h
      exact ⟨0, q, x, rfl, h, by simp [off]⟩
    · rw [List.getElem?_append_right (by omega)] at h
      obtain ⟨i, r, z, h1, h2, h3⟩ := off_split h
      exact ⟨i + 1, r, z, h1, h2, by simp only [off]; omega⟩

theorem off_lt {α : Type} : ∀ {L : List (List α)} {i j r : Nat} {x : List α}, i < j → j < L.length → L[i]? = some x → r < x.length →
    off L i + r < off L j
  | [], _, _, _, _, _, h, _, _ => by simp at h
  | y :: L, 0, j + 1, r, x, _, _, h, hr => by
    simp only [List.getElem?_cons_zero, Option.some.injEq] at h
    subst h
    simp only [off]
    omega
  | y :: L, i + 1, j + 1, r, x, hij, hj, h, hr => by
    simp only [List.getElem?_cons_succ] at h
    simp only [List.length_cons] at hj
    have := off_lt (L := L) (i := i) (j := j) (by omega) (by omega) h hr
    simp only [off]
    omega

/-! ## The steps of a program -/

/-- The steps of a program whose jobs are given. -/
def blocks (debug : Bool) (Q : List (Op V × Tasks V)) : List (List (Item V)) := Q.map fun x => shape debug x.1 x.2

/-- The position of the job of statement `i`. -/
def place (debug : Bool) (Q : List (Op V × Tasks V)) (i : Nat) : Nat :=
  off (blocks debug Q) i + match Q[i]? with
    | some x => mainIx debug x.1
    | none => 0

theorem blocks_get {debug : Bool} {Q : List (Op V × Tasks V)} {i : Nat} {x : Op V × Tasks V} (h : Q[i]? = some x) :
    (blocks debug Q)[i]? = some (shape debug x.1 x.2) := by
  unfold blocks; rw [List.getElem?_map, h]; rfl

theorem lt_of_get {α : Type} {l : List α} {i : Nat} {x : α} (h : l[i]? = some x) : i < l.length := by
  by_contra hn
  rw [List.getElem?_eq_none (by omega)] at h
  cases h

theorem place_get {debug : Bool} {Q : List (Op V × Tasks V)} {i : Nat} {x : Op V × Tasks V} (h : Q[i]? = some x) :
    (blocks debug Q).flatten[place debug Q i]? = some ⟨mainKind x.1, x.2, false⟩ := by
  unfold place
  rw [h]
  dsimp only
  rw [off_get (blocks_get h) (lt_of_get (shape_main debug x.1 x.2)), shape_main]

theorem place_lt {debug : Bool} {Q : List (Op V × Tasks V)} {i j r : Nat} {x y : Op V × Tasks V} (hij : i < j)
    (hi : Q[i]? = some x) (hj : Q[j]? = some y) (hr : r < (shape debug x.1 x.2).length) :
    off (blocks debug Q) i + r < place debug Q j := by
  have : off (blocks debug Q) i + r < off (blocks debug Q) j := by
    refine off_lt hij ?_ (blocks_get hi) hr
    have := lt_of_get (blocks_get (debug := debug) hj)
    exact this
  unfold place
  omega

theorem place_lt' {debug : Bool} {Q : List (Op V × Tasks V)} {i j : Nat} {x y : Op V × Tasks V} (hij : i < j)
    (hi : Q[i]? = some x) (hj : Q[j]? = some y) : place debug Q i < place debug Q j := by
  have h := place_lt hij hi hj (lt_of_get (shape_main debug x.1 x.2))
  have e : place debug Q i = off (blocks debug Q) i + mainIx debug x.1 := by unfold place; rw [hi]
  rw [e]
  exact h

theorem before_range {debug : Bool} {blocking : Nat → Bool} {p : List (Op V)} {i j : Nat} (h : Before debug blocking p i j) :
    i < j ∧ ∃ o, p[i]? = some o := by
  induction h with
  | host h1 h2 => exact ⟨h1, _, h2⟩
  | streams h1 h2 => exact ⟨h1, _, h2⟩
  | wait h1 h2 h3 => exact ⟨by omega, _, h3⟩
  | trans _ _ h1 h2 => exact ⟨by omega, h1.2⟩

theorem ordered_iff {blocking : Nat → Bool} {s t : Nat} : ordered blocking s t = true ↔ InTurn blocking s t := by
  unfold ordered InTurn
  simp [or_assoc]

/-- The order of statements is an order of their jobs. -/
theorem before_hb {debug : Bool} {blocking : Nat → Bool} {Q : List (Op V × Tasks V)} {i j : Nat}
    (h : Before debug blocking (Q.map Prod.fst) i j) : ∀ {y : Op V × Tasks V}, Q[j]? = some y →
    HB blocking ((blocks debug Q).flatten.map Item.kind) (place debug Q i) (place debug Q j) := by
  have get : ∀ {i : Nat} {o : Op V}, (Q.map Prod.fst)[i]? = some o → ∃ T, Q[i]? = some (o, T) := by
    intro i o h
    rw [List.getElem?_map] at h
    cases hq : Q[i]? with
    | none => rw [hq] at h; cases h
    | some x =>
      rw [hq] at h
      simp only [Option.map_some, Option.some.injEq] at h
      exact ⟨x.2, by rw [← h]⟩
  have kind : ∀ {i : Nat} {x : Op V × Tasks V}, Q[i]? = some x →
      ((blocks debug Q).flatten.map Item.kind)[place debug Q i]? = some (mainKind x.1) := by
    intro i x h
    rw [List.getElem?_map, place_get h]
    rfl
  induction h with
  | @host i j o h1 h2 h3 =>
    intro y hy
    obtain ⟨T, hT⟩ := get h2
    exact .host (place_lt' h1 hT hy) (kind hT) (stream_kind.2 h3)
  | @streams i j o o' s t h1 h2 h2' h3 h4 h5 =>
    intro y hy
    obtain ⟨T, hT⟩ := get h2
    obtain ⟨T', hT'⟩ := get h2'
    exact .streams (place_lt' h1 hT hy) (by rw [kind hT, stream_kind.1 s h3]) (by rw [kind hT', stream_kind.1 t h4]) (ordered_iff.2 h5)
  | @wait i k j o o' s h1 h2 h3 h4 h5 h6 =>
    intro y hy
    obtain ⟨T, hT⟩ := get h3
    obtain ⟨T', hT'⟩ := get h4
    obtain ⟨r, it, hr, hk, hle, hlt⟩ := shape_await T' h6
    have hr' := lt_of_get hr
    have hget : ((blocks debug Q).flatten.map Item.kind)[off (blocks debug Q) k + r]? = some (.wait s) := by
      rw [List.getElem?_map, off_get (blocks_get hT') hr', hr, Option.map_some, hk]
    refine .trans (.wait (s := s) ?_ (by rw [kind hT, stream_kind.1 s h5]) hget)
      (.host (place_lt h2 hT' hy hr') hget (by intro t h; cases h))
    rcases Nat.lt_or_ge i k with hik | hik
    · have := place_lt' (debug := debug) hik hT hT'
      have e : place debug Q k = off (blocks debug Q) k + mainIx debug o' := by unfold place; rw [hT']
      omega
    · have hik : i = k := by omega
      subst hik
      rw [hT] at hT'
      injection hT' with hT'
      injection hT' with ho hTT
      have e : place debug Q i = off (blocks debug Q) i + mainIx debug o := by unfold place; rw [hT]
      have := hlt (by rw [← ho, h5]; simp)
      rw [← ho] at this
      omega
  | @trans i k j h1 h2 ih1 ih2 =>
    intro y hy
    obtain ⟨_, o, ho⟩ := before_range h2
    obtain ⟨T, hT⟩ := get ho
    exact .trans (ih1 hT) (ih2 hy)

/-- The jobs are those of the statements. -/
def JobOk [Add V] [Mul V] (x : Op V × Tasks V) : Prop :=
  (∀ m1 m2, x.1.Effect m1 m2 → Settles x.2 m1 m2) ∧ TWithin x.1.Touches x.1.Writes x.2

theorem op_items [Add V] [Mul V] {n : IntVec} (hn : IntVec.Lt 0 n) (debug : Bool) (m : Mem V) {o : Op V} (hg : o.Good n) :
    ∃ T, o.items debug m = .ok (shape debug o T) ∧ JobOk (o, T) ∧ ∀ m1, ∃ m2, o.Effect m1 m2 := by
  cases o with
  | assign u l s e =>
    obtain ⟨h1, ⟨b, h2⟩, h3, h4, h5, h6, h7⟩ := hg
    have key := fun m1 => C24_gpu_equals_sequential_partial n hn l b h1 h2 e h3 h4 h5 h6 u h7 m1
    obtain ⟨k, m', hk, -, -⟩ := key m
    obtain ⟨-, -, -, hall⟩ := gpuAssign_shape hk
    refine ⟨k.tasks, ?_, ⟨fun m1 m2 he => ?_, assign_within h1 hk s⟩, fun m1 => ?_⟩
    · simp only [Op.items]
      rw [hk]
      cases debug <;> rfl
    · obtain ⟨k1, m1', hk1, hs, hr⟩ := key m1
      change sequentialAssign u (cpuTwin l) (e.onDevice l.dev) m1 = .ok m2 at he
      rw [hs] at he
      injection he with he
      subst he
      rw [hall m1] at hk1
      injection hk1 with hk1
      subst hk1
      obtain ⟨g1, g2, -, -⟩ := gpuAssign_shape hk
      exact settles_of_runsTo hr g1 g2
    · obtain ⟨k1, m1', hk1, hs, hr⟩ := key m1
      exact ⟨m1', hs⟩
  | copy d s k w =>
    refine ⟨[some (copyActs d s k 0)], by cases w <;> rfl, ⟨fun m1 m2 he => ?_, fun A hA => ?_⟩, fun m1 => ⟨_, rfl⟩⟩
    · refine settles_single ?_
      rw [copy_effect hg]
      change m2 = _ at he
      rw [he]
      simp only [Int.zero_add]
    · simp only [List.mem_cons, Option.some.injEq, List.not_mem_nil, or_false] at hA
      subst hA
      exact copy_within w k k 0
  | host A =>
    refine ⟨[some A], rfl, ⟨fun m1 m2 he => settles_single he, fun B hB => ?_⟩, fun m1 => ?_⟩
    · simp only [List.mem_cons, Option.some.injEq, List.not_mem_nil, or_false] at hB
      subst hB
      exact host_within B
    · exact Option.ne_none_iff_exists'.1 (hg m1)
  | sync s =>
    refine ⟨[], rfl, ⟨fun m1 m2 he => ?_, fun B hB => by simp at hB⟩, fun m1 => ⟨m1, rfl⟩⟩
    change m2 = m1 at he
    subst he
    exact settles_nil _

theorem prog_items [Add V] [Mul V] {n : IntVec} (hn : IntVec.Lt 0 n) (debug : Bool) (m : Mem V) : ∀ {p : List (Op V)}, (∀ o ∈ p, o.Good n) →
    ∃ Q : List (Op V × Tasks V), Q.map Prod.fst = p ∧ items debug m p = .ok (blocks debug Q).flatten ∧ (∀ x ∈ Q, JobOk x) ∧
      ∀ m1, ∃ m2, InOrder p m1 m2
  | [], _ => ⟨[], rfl, rfl, fun x hx => by simp at hx, fun m1 => ⟨m1, .nil⟩⟩
  | o :: p, hg => by
    obtain ⟨Q, h1, h2, h3, h4⟩ := prog_items hn debug m (p := p) fun o ho => hg o (List.mem_cons_of_mem _ ho)
    obtain ⟨T, g1, g2, g3⟩ := op_items hn debug m (hg o (List.mem_cons_self ..))
    refine ⟨(o, T) :: Q, by rw [List.map_cons, h1], ?_, ?_, fun m1 => ?_⟩
    · simp only [items]
      rw [g1, h2]
      rfl
    · intro x hx
      rcases List.mem_cons.1 hx with rfl | hx
      · exact g2
      · exact h3 x hx
    · obtain ⟨m2, e1⟩ := g3 m1
      obtain ⟨m3, e2⟩ := h4 m2
      exact ⟨m3, .cons e1 e2⟩

theorem prog_chain [Add V] [Mul V] (debug : Bool) : ∀ {Q : List (Op V × Tasks V)} {m m' : Mem V}, (∀ x ∈ Q, JobOk x) →
    InOrder (Q.map Prod.fst) m m' → Chain ((blocks debug Q).flatten.map Item.tasks) m m'
  | [], _, _, _, h => by cases h; exact .nil
  | (o, T) :: Q, m, m', hq, h => by
    simp only [List.map_cons] at h
    cases h with
    | cons he hr =>
      simp only [blocks, List.map_cons, List.flatten_cons, List.map_append]
      exact (shape_chain debug o ((hq _ (List.mem_cons_self ..)).1 _ _ he)).append
        (prog_chain debug (fun x hx => hq x (List.mem_cons_of_mem _ hx)) hr)

/-- A program whose conflicting statements are ordered behaves as in order. -/
theorem ordered_runs [Add V] [Mul V] {debug : Bool} {blocking : Nat → Bool} {Q : List (Op V × Tasks V)} {m m' : Mem V}
    (hq : ∀ x ∈ Q, JobOk x) (ho : Ordered debug blocking (Q.map Prod.fst)) (hin : InOrder (Q.map Prod.fst) m m') :
    Runs blocking ⟨(blocks debug Q).flatten, 0, m⟩ m' := by
  have getfst : ∀ {i : Nat} {x : Op V × Tasks V}, Q[i]? = some x → (Q.map Prod.fst)[i]? = some x.1 := by
    intro i x h; rw [List.getElem?_map, h]; rfl
  refine runs_of_chain (U := fun q b => ∃ i x, Q[i]? = some x ∧ q = place debug Q i ∧ x.1.Touches b)
    (W := fun q b => ∃ i x, Q[i]? = some x ∧ q = place debug Q i ∧ x.1.Writes b) rfl ?_ (prog_chain debug hq hin) ?_ ?_
  · intro it hit
    obtain ⟨l, hl, hit⟩ := List.mem_flatten.1 hit
    obtain ⟨x, -, rfl⟩ := List.mem_map.1 hl
    exact shape_over debug _ _ it hit
  · intro q q' hlt hn
    have key : ∀ i x j y, Q[i]? = some x → q = place debug Q i → Q[j]? = some y → q' = place debug Q j →
        Conflict x.1 y.1 → False := by
      intro i x j y hi e hj e' hc
      rcases Nat.lt_trichotomy i j with h | h | h
      · exact hn (e ▸ e' ▸ before_hb (ho i j _ _ h (getfst hi) (getfst hj) hc) hj)
      · subst h; omega
      · have := place_lt' (debug := debug) h hj hi; omega
    refine ⟨?_, ?_⟩
    · rintro b ⟨i, x, hi, e, hw⟩ ⟨j, y, hj, e', hu⟩
      exact key i x j y hi e hj e' (.inl ⟨b, hw, hu⟩)
    · rintro b ⟨j, y, hj, e', hw⟩ ⟨i, x, hi, e, hu⟩
      exact key i x j y hi e hj e' (.inr ⟨b, hw, hu⟩)
  · intro q ts hts
    dsimp only at hts
    rw [List.getElem?_map] at hts
    cases hit : (blocks debug Q).flatten[q]? with
    | none => rw [hit] at hts; cases hts
    | some it =>
      rw [hit] at hts
      simp only [Option.map_some, Option.some.injEq] at hts
      subst hts
      obtain ⟨i, r, l, h1, h2, h3⟩ := off_split hit
      unfold blocks at h1
      rw [List.getElem?_map] at h1
      cases hx : Q[i]? with
      | none => rw [hx] at h1; cases h1
      | some x =>
        rw [hx] at h1
        simp only [Option.map_some, Option.some.injEq] at h1
        subst h1
        by_cases hr : r = mainIx debug x.1
        · have e : q = place debug Q i := by unfold place; rw [hx, h3, hr]
          rw [hr, shape_main] at h2
          injection h2 with h2
          subst h2
          intro A hA
          exact within_mono (fun b hb => ⟨i, x, hx, e, hb⟩) (fun b hb => ⟨i, x, hx, e, hb⟩) A
            ((hq x (List.mem_of_getElem? hx)).2 A hA)
        · intro A hA
          rw [shape_other debug _ _ h2 hr] at hA
          simp at hA

theorem within_and {b : Nat} (A : Act V) (h : Within (fun c => c ≠ b) (fun _ => True) A) :
    Within (fun _ => True) (fun c => c ≠ b) A := by
  induction A with
  | done => trivial
  | fail => trivial
  | read c a k ih => exact ⟨trivial, fun v => ih v (h.2 v)⟩
  | write c a v k ih => exact ⟨trivial, h.1, ih h.2.2⟩

/-! ## A run in which two jobs change places -/

theorem active_set {blocking : Nat → Bool} {s : St V} {j : Nat} {it : Item V} (h : s.items[j]? = some it)
    (ha : Active blocking s j) (T : Tasks V) (m : Mem V) :
    Active blocking { s with items := s.items.set j { it with tasks := T }, mem := m } j := by
  obtain ⟨x, hx, ho, hk⟩ := ha
  rw [h] at hx
  injection hx with hx
  subst hx
  refine ⟨{ it with tasks := T }, List.getElem?_set_self (lt_of_get h), ho, ?_⟩
  revert hk
  dsimp only
  cases it.kind with
  | host => exact id
  | wait t =>
    rintro ⟨h1, h2⟩
    refine ⟨h1, fun i y hi hy => h2 i y hi ?_⟩
    rwa [List.getElem?_set_ne (by omega)] at hy
  | dev t =>
    rintro ⟨h1, h2⟩
    refine ⟨h1, fun i y t' hi hy => h2 i y t' hi ?_⟩
    rwa [List.getElem?_set_ne (by omega)] at hy

theorem run_tasks {blocking : Nat → Bool} {s0 : St V} {j k' : Nat} {T T' : Tasks V} {m m' : Mem V} (hr : Alone T m k' T' m') :
    ∀ {k : Nat} {L : List (Item V)} {pc : Nat} {it : Item V}, Run blocking s0 k ⟨L, pc, m⟩ → Active blocking ⟨L, pc, m⟩ j →
      L[j]? = some it → it.tasks = T →
      ∃ k2, Run blocking s0 k2 ⟨L.set j { it with tasks := T' }, pc, m'⟩ := by
  induction hr with
  | nil =>
    intro k L pc it hrun _ hj ht
    refine ⟨k, ?_⟩
    have : L.set j { it with tasks := it.tasks } = L := by
      apply List.ext_getElem?
      intro i
      by_cases h : j = i
      · subst h
        rw [List.getElem?_set_self (lt_of_get hj), hj]
      · rw [List.getElem?_set_ne h]
    rw [← ht, this]
    exact hrun
  | @cons ts m ts1 m1 k' ts2 m2 hs _ ih =>
    intro k L pc it hrun ha hj ht
    have h1 := Run.step hrun (.task ha hj (ht.symm ▸ hs))
    have h2 := active_set hj ha ts1 m1
    obtain ⟨k2, h3⟩ := ih h1 h2 (List.getElem?_set_self (lt_of_get hj)) rfl
    rw [List.set_set] at h3
    exact ⟨k2, h3⟩

theorem run_finish {blocking : Nat → Bool} {s0 : St V} {j k' k : Nat} {L : List (Item V)} {pc : Nat} {it : Item V} {T' : Tasks V}
    {m m' : Mem V} (hrun : Run blocking s0 k ⟨L, pc, m⟩) (ha : Active blocking ⟨L, pc, m⟩ j) (hj : L[j]? = some it)
    (hr : Alone it.tasks m k' T' m') (he : Ended T') :
    ∃ k2, Run blocking s0 k2 ⟨L.set j ⟨it.kind, T', true⟩, it.kind.pass pc, m'⟩ := by
  obtain ⟨k2, h⟩ := run_tasks hr hrun ha hj rfl
  have := Run.step h (.finish (active_set hj ha T' m') (List.getElem?_set_self (lt_of_get hj)) he)
  dsimp only at this
  rw [List.set_set] at this
  exact ⟨_, this⟩

end Str
end SpatialOps
