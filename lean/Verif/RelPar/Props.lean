import Verif.RelPar.Runs

/-!
# C99: the release build on the thread pool and on GPUs
-/

namespace SpatialOps
namespace Rel
open Nebo

/-! ## Threads -/

/-- C99. Whatever the debug build achieves with threads, the release build achieves: if the debug build accepts the call
and all its runs end, without a race, with memory as `P` says, then so it is with the release build. Nothing is assumed about
the fields. -/
theorem _root_.SpatialOps.C99_threads_same {V : Type} [Add V] [Mul V] (useGhost : Bool) (l : FieldObj) (count : Int)
    (e : Expr V .num) (m : Mem V) (P : Mem V → Prop) (d : ParState V)
    (h : Nebo.parallelAssign useGhost l count e m = .ok d) (hd : RunsTo d P) :
    ∃ k, ∀ trips, k ≤ trips → ∃ r, parallelAssign useGhost l count e m trips = .ok r ∧ RunsTo r P := by
  obtain ⟨k, hk⟩ := parallel_same h
  refine ⟨k, fun t ht => ?_⟩
  obtain ⟨r, r1, r2⟩ := hk t ht
  exact ⟨r, r1, runsTo_same hd r2⟩

/-- C99. `lhs <<= e` and `interior_assign` with threads in the release build: for any number of parts, however the tasks
interleave, there is no race, all ends, and memory is what a single thread of the debug build leaves. -/
theorem _root_.SpatialOps.C99_threads {V : Type} [Add V] [Mul V] (n : IntVec) (hn : IntVec.Lt 0 n)
    (l : FieldObj) (b : Nat) (ht : Target n l b) (e : Expr V .num) (he : e.Wf n)
    (hd : ∀ c, Interior n l c → e.DefinedAt n c) (hi : e.Independent l 0) (useGhost : Bool)
    (count : Int) (hcount : 1 ≤ count) (m : Mem V) :
    ∃ m', Nebo.sequentialAssign useGhost l e m = .ok m' ∧ ∃ k, ∀ trips, k ≤ trips →
      ∃ s0, parallelAssign useGhost l count e m trips = .ok s0 ∧ RunsTo s0 fun r => r = m' :=
  threads hn ht he hd hi useGhost hcount m

/-- Both: the stencil expression of C22, and a run of the debug build. -/
example (m : Mem Int) : ∃ n l b, IntVec.Lt 0 n ∧ Target n l b ∧ NeboEx.expr.Wf n ∧
    (∀ c, Interior n l c → NeboEx.expr.DefinedAt n c) ∧ NeboEx.expr.Independent l 0 ∧
    ∃ d m', Nebo.parallelAssign true l 3 NeboEx.expr m = .ok d ∧ RunsTo d fun r => r = m' := by
  refine ⟨⟨4, 3, 1⟩, NeboEx.fld true 0, 0, by decide, NeboEx.target true 0, NeboEx.wf, NeboEx.definedOn rfl, NeboEx.independent, ?_⟩
  obtain ⟨d, m', h1, -, h2, h3⟩ := C23_parallel_equals_sequential ⟨4, 3, 1⟩ (by decide) (NeboEx.fld true 0) 0 (NeboEx.target true 0)
    NeboEx.expr NeboEx.wf (NeboEx.definedOn rfl) NeboEx.independent true 3 (by decide) m
  exact ⟨d, m', h1, h2, h3⟩

/-- C99. Programs: assignments and scratch fields, each assignment done by the calling thread or by any number of tasks. If the
program never reads an element of a scratch field before assigning it, then in every run of the release build there is no race, the
program does not get stuck, it ends after a bounded number of steps, always with the same memory, and wherever the program
determines the contents they are those that the debug build computes with a single thread. -/
theorem _root_.SpatialOps.C99_programs {V : Type} [Add V] [Mul V] [Zero V] (n : IntVec) (hn : IntVec.Lt 0 n)
    (p : List (Stmt V × Option Int)) (hparts : ∀ s k, (s, some k) ∈ p → 1 ≤ k) (known : Nat → Int → Prop)
    (hp : Initialised n known (p.map Prod.fst)) (md mr : Mem V) (ha : AgreeOn known md mr) :
    ∃ md' mr', runDebug (p.map Prod.fst) md = .ok md' ∧ AgreeOn (knownAfter n known (p.map Prod.fst)) md' mr' ∧
      ∃ K, ∀ trips, K ≤ trips → (∃ bound, ∀ k s, RRun trips (.idle p mr) k s → k ≤ bound) ∧
        ∀ k s, RRun trips (.idle p mr) k s → ¬ s.Race ∧ ((∀ x, ¬ s.Ended x) → ∃ s', RStep trips s s') ∧
          ∀ x, s.Ended x → x = mr' := by
  have key : ∃ md' mr', runDebug (p.map Prod.fst) md = .ok md' ∧ AgreeOn (knownAfter n known (p.map Prod.fst)) md' mr' ∧
      ∃ K, ∀ trips, K ≤ trips → ∃ B, Fine trips mr' B (.idle p mr) := by
    induction p generalizing known md mr with
    | nil =>
      refine ⟨md, mr, rfl, ha, 0, fun t _ => ⟨0, ⟨fun h => h, fun h => absurd rfl (h mr), fun x hx => ?_⟩, fun s' h => by cases h⟩⟩
      unfold RState.Ended at hx
      injection hx with _ hx
      exact hx.symm
    | cons sc p ih =>
      obtain ⟨s, c⟩ := sc
      obtain ⟨hg, hp⟩ := hp
      have hrest : ∀ s k, (s, some k) ∈ p → 1 ≤ k := fun s k h => hparts s k (List.mem_cons_of_mem _ h)
      have hc : ∀ k, c = some k → 1 ≤ k := fun k h => hparts s k (by rw [h]; exact List.mem_cons_self)
      cases s with
      | scratch blk npts =>
        obtain ⟨md', mr', q1, q2, K, hK⟩ := ih hrest _ hp (zeroed blk npts md) mr (by
          intro b a ⟨h1, h2⟩
          unfold zeroed
          rw [if_neg h2]
          exact ha b a h1)
        refine ⟨md', mr', q1, q2, K, fun t ht => ?_⟩
        obtain ⟨B, hB⟩ := hK t ht
        refine ⟨B + 1, ⟨fun h => h, fun _ => ⟨_, .scratch⟩, fun x hx => by cases hx⟩, fun s' h => ?_⟩
        cases h
        exact hB
      | assign l e =>
        obtain ⟨⟨b, ht⟩, he, hd, hi, hk⟩ := hg
        obtain ⟨md1, mr1, h1, ⟨k1, h2⟩, h3⟩ := step_same hn true ht he hd hi rfl hk ha
        obtain ⟨mx, hx, -⟩ := C22_assign_pointwise n hn l b ht e he hd hi mr
        obtain ⟨kx, hkx⟩ := sequentialAssign_same true l e mr mx hx
        have : mx = mr1 := by
          have := h2 (max k1 kx) (by omega)
          rw [hkx (max k1 kx) (by omega)] at this
          injection this with this
          injection this
        subst this
        obtain ⟨md', mr', q1, q2, K, hK⟩ := ih hrest _ hp md1 mx h3
        refine ⟨md', mr', ?_, q2, fine_stmt hn true ht he hd hi hc hx hK⟩
        show (Nebo.sequentialAssign true l e md >>= runDebug (p.map Prod.fst)) = _
        rw [h1]; exact q1
      | interior l e =>
        obtain ⟨⟨b, ht⟩, he, hd, hi, hk⟩ := hg
        obtain ⟨md1, mr1, h1, ⟨k1, h2⟩, h3⟩ := step_same hn false ht he hd hi rfl hk ha
        obtain ⟨mx, hx, -⟩ := C22_interior_assign_pointwise n hn l b ht e he hd hi mr
        obtain ⟨kx, hkx⟩ := sequentialAssign_same false l e mr mx hx
        have : mx = mr1 := by
          have := h2 (max k1 kx) (by omega)
          rw [hkx (max k1 kx) (by omega)] at this
          injection this with this
          injection this
        subst this
        obtain ⟨md', mr', q1, q2, K, hK⟩ := ih hrest _ hp md1 mx h3
        refine ⟨md', mr', ?_, q2, fine_stmt hn false ht he hd hi hc hx hK⟩
        show (Nebo.sequentialAssign false l e md >>= runDebug (p.map Prod.fst)) = _
        rw [h1]; exact q1
  obtain ⟨md', mr', q1, q2, K, hK⟩ := key
  refine ⟨md', mr', q1, q2, K, fun t ht => ?_⟩
  obtain ⟨B, hB⟩ := hK t ht
  exact ⟨⟨B, fun k s hr => (fine_run hB hr).1⟩, fun k s hr => fine_now (fine_run hB hr).2⟩

/-- The program of C97 with its last statement divided into three parts. -/
def exParallel : List (Stmt Int × Option Int) := exProgram.zip [none, none, some 3]

example : (∀ s k, (s, some k) ∈ exParallel → 1 ≤ k) ∧ Initialised ⟨4, 3, 1⟩ (fun blk _ => blk = 1) (exParallel.map Prod.fst) := by
  refine ⟨?_, exInitialised⟩
  intro s k h
  simp only [exParallel, exProgram, List.zip_cons_cons, List.zip_nil_left, List.mem_cons, Prod.mk.injEq, reduceCtorEq, and_false,
    List.not_mem_nil, or_false, false_or, Option.some.injEq] at h
  omega

/-! ## GPUs -/

/-- C99. Whenever the debug build accepts an assignment to a field on a GPU, the release build launches the very same threads.
Nothing is assumed about the fields. -/
theorem _root_.SpatialOps.C99_gpu_same {V : Type} [Add V] [Mul V] (useGhost : Bool) (l : FieldObj) (e : Expr V .num) (m : Mem V) :
    Same (Nebo.gpuAssign useGhost l e m) (gpuAssign useGhost l e m) :=
  same_gpuAssign useGhost l e m

/-- C99. So on a GPU, too, the release build leaves what the debug build computes with a single thread on the same data, where
C24 says this of the debug build. -/
theorem _root_.SpatialOps.C99_gpu {V : Type} [Add V] [Mul V] (n : IntVec) (hn : IntVec.Lt 0 n) (l : FieldObj)
    (b : Nat) (hgpu : l.memType = .gpu) (ht : Target n (cpuTwin l) b) (e : Expr V .num)
    (he : (e.onDevice l.dev).Wf n) (hd : ∀ c, Interior n l c → (e.onDevice l.dev).DefinedAt n c)
    (hi : (e.onDevice l.dev).Independent (cpuTwin l) 0) (ha : (e.onDevice l.dev).SinglesApart (cpuTwin l))
    (useGhost : Bool)
    (hfull : useGhost = true →
      IntVec.Le l.geo.ghosts.minus l.geo.validGhosts.minus ∧ IntVec.Le l.geo.ghosts.plus l.geo.validGhosts.plus)
    (m : Mem V) :
    ∃ s0 m', gpuAssign useGhost l e m = .ok s0 ∧
      Nebo.sequentialAssign useGhost (cpuTwin l) (e.onDevice l.dev) m = .ok m' ∧ RunsTo s0 (fun r => r = m') := by
  obtain ⟨s0, m', h1, h2, h3⟩ := C24_gpu_equals_sequential_partial n hn l b hgpu ht e he hd hi ha useGhost hfull m
  exact ⟨s0, m', same_gpuAssign _ _ _ _ _ h1, h2, h3⟩

/-- The example of C24: a stencil expression over a GPU field and a CPU field with a GPU copy. -/
example : Target ⟨4, 3, 1⟩ (cpuTwin (GpuEx.fld true 0)) 0 ∧ (GpuEx.fld true 0).memType = .gpu ∧
    (GpuEx.expr.onDevice 0).Wf ⟨4, 3, 1⟩ ∧
    (∀ c, Interior ⟨4, 3, 1⟩ (GpuEx.fld true 0) c → (GpuEx.expr.onDevice 0).DefinedAt ⟨4, 3, 1⟩ c) ∧
    (GpuEx.expr.onDevice 0).Independent (cpuTwin (GpuEx.fld true 0)) 0 ∧
    (GpuEx.expr.onDevice 0).SinglesApart (cpuTwin (GpuEx.fld true 0)) := by
  refine ⟨⟨NeboEx.onMesh true, rfl, rfl, rfl, (NeboEx.target true 0).room⟩, rfl, GpuEx.wf,
    fun c hc => NeboEx.definedOn (l := NeboEx.fld true 0) rfl c hc, ?_, ?_⟩
  · exact ⟨trivial, ⟨trivial, .inl (by decide)⟩, by intro q _; exact .inl (by decide)⟩
  · exact ⟨trivial, ⟨trivial, trivial⟩, trivial⟩

end Rel
end SpatialOps
