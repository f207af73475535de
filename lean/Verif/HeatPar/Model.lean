import Verif.Heat.Model
import Verif.Prog.Model

/-!
# Model of the heat equation program on the thread pool

test/heatEqn/tools.h and test/heatEqn/main.cpp in a build with threads: every `<<=`, those inside `apply_to_field` too, is done
by the calling thread or divided into tasks (NeboLhs.h:123-134, 172-226); what lies between (coordinates, work arrays) is done
by the calling thread. Printing, command line parsing and timing are left out, as in the model without threads.
-/

namespace SpatialOps
namespace Heat

open Nebo Stencil

/-- One action of the program's main thread: `host`, code that it runs itself (`Grid::set_coord`, test/heatEqn/main.cpp:126-129;
the zeroing of a work array by the field store, SpatialFieldStore.h:466-472), or an assignment (NeboAssignment.h:28-88), which
`cpu_assign` may divide into tasks (NeboLhs.h:123-134). -/
inductive Cmd (V : Type) where
  | host (f : Mem V → Outcome (Mem V))
  | asg (st : PStmt V)

/-- The program at work: between actions, or in a call of `thread_parallel_assign` (NeboLhs.h:172-226) with the actions that
follow. -/
inductive CmdState (V : Type) where
  | idle (rest : List (Cmd V)) (m : Mem V)
  | busy (s : ParState V) (rest : List (Cmd V))

/-- The steps of the program: an action of the main thread (test/heatEqn/main.cpp:126-129); an assignment done by the main
thread (NeboLhs.h:136-162); the call that schedules the tasks (172-218); a step of a task or of the wait for them (220,
402-412); the return from the call (222-226). An action that fails has no step. -/
inductive CmdStep {V : Type} [Add V] [Mul V] : CmdState V → CmdState V → Prop where
  | host {f : Mem V → Outcome (Mem V)} {rest m m'} : f m = .ok m' → CmdStep (.idle (.host f :: rest) m) (.idle rest m')
  | seq {st : PStmt V} {rest m m'} : st.parts = none → sequentialAssign st.ghost st.t st.e m = .ok m' →
      CmdStep (.idle (.asg st :: rest) m) (.idle rest m')
  | fork {st : PStmt V} {rest m k s} : st.parts = some k → parallelAssign st.ghost st.t k st.e m = .ok s →
      CmdStep (.idle (.asg st :: rest) m) (.busy s rest)
  | work {s s' : ParState V} {rest} : ParStep s s' → CmdStep (.busy s rest) (.busy s' rest)
  | join {s : ParState V} {rest} : s.waits = 0 → CmdStep (.busy s rest) (.idle rest s.mem)

/-- How each assignment is run, in the order of execution: `none` if `is_thread_parallel()` is false at that time
(SpatialOpsTools.h:52-54), `some k` if it is true and the destination's partition count is `k` (NeboLhs.h:123-134, 182,
SpatialField.h:409-415). -/
def divide {V : Type} : (Nat → Option Int) → List (Cmd V) → List (Cmd V)
  | _, [] => []
  | p, .host f :: rest => .host f :: divide p rest
  | p, .asg st :: rest => .asg { st with parts := p 0 } :: divide (fun i => p (i + 1)) rest

section
variable {K : Type} [NatCast K] [One K] [Neg K] [Zero K] [Add K] [Sub K] [Mul K] [Div K]

/-- `t <<= e`, NeboAssignment.h:28-88. -/
def put (t : FieldObj) (e : Expr K .num) : Cmd K := .asg ⟨true, t, e, none⟩

/-- `op.apply_to_field(src, dest)`, NeboStencilBuilder.h:107-109, 256-258, 329-331. -/
def applyCmd (h : Dir → K) (r : Reg) (src dest : FieldObj) : Outcome (Cmd K) :=
  match r.apply h (.field src) with
  | some e => .ok (put dest e)
  | none => .ub

/-- `SpatialFieldStore::get<FieldT>(f)`, test/heatEqn/tools.h:24, 49 and SpatialFieldStore.h:240-263, 441-492: the field and the
zeroing of its elements. Whether the field can be made does not depend on memory, so it is decided when the list of actions is
made. -/
def workCmd (t : FieldType) (f : FieldObj) (b : Nat) : Outcome (FieldObj × Cmd K) := do
  let r ← storeGet false f.geo t.bcExtra t.bcExtra
  return (⟨r.1, some b, none, false, f.memType, f.dev, false, [], [], false, r.2⟩,
    .host fun m => .ok fun blk a => if blk = b ∧ 0 ≤ a ∧ a < r.2 then 0 else m blk a)

/-- `calculate_flux`, test/heatEqn/tools.h:10-34, in direction `d`. -/
def fluxCmds (h : Dir → K) (d : Dir) (temperature thermCond flux : FieldObj) (work : Nat) : Outcome (List (Cmd K)) := do
  let tm ← workCmd (faceType d) flux work
  let a ← applyCmd h (interp d) thermCond tm.1
  let b ← applyCmd h (grad d) temperature flux
  return [tm.2, a, b, put flux (.bin (s := .num) (t := .num) (fun a b : K => a * b)
    (.un (s := .num) (t := .num) (fun a : K => -a) (.field flux)) (.field tm.1))]

/-- `calculate_rhs`, test/heatEqn/tools.h:38-54, in direction `d`. -/
def rhsCmds (h : Dir → K) (d : Dir) (flux rhoCp rhs : FieldObj) (work : Nat) : Outcome (List (Cmd K)) := do
  let tm ← workCmd .sVol rhs work
  let a ← applyCmd h (div d) flux tm.1
  return [tm.2, a, put rhs (.bin (s := .num) (t := .num) (fun a b : K => a - b) (.field rhs)
    (.bin (s := .num) (t := .num) (fun a b : K => a / b) (.field tm.1) (.field rhoCp)))]

/-- `if( npts[d]>1 ) calculate_flux( ... )`, test/heatEqn/main.cpp:159-161. -/
def fluxIfCmds (h : Dir → K) (n : IntVec) (F : Fields) (work : Nat) (d : Dir) : Outcome (List (Cmd K)) :=
  if 1 < extract n d then fluxCmds h d F.temperature F.thermCond (F.flux d) work else .ok []

/-- `if( npts[d]>1 ) calculate_rhs( ... )`, test/heatEqn/main.cpp:164-166. -/
def rhsIfCmds (h : Dir → K) (n : IntVec) (F : Fields) (work : Nat) (d : Dir) : Outcome (List (Cmd K)) :=
  if 1 < extract n d then rhsCmds h d (F.flux d) F.rhoCp F.rhs work else .ok []

/-- One trip of the time loop, test/heatEqn/main.cpp:155-174. -/
def stepCmds (h : Dir → K) (n : IntVec) (F : Fields) (work work' : Dir → Nat) : Outcome (List (Cmd K)) := do
  let x ← fluxIfCmds h n F (work .x) .x
  let y ← fluxIfCmds h n F (work .y) .y
  let z ← fluxIfCmds h n F (work .z) .z
  let x' ← rhsIfCmds h n F (work' .x) .x
  let y' ← rhsIfCmds h n F (work' .y) .y
  let z' ← rhsIfCmds h n F (work' .z) .z
  return x ++ y ++ z ++ [put F.rhs (.scalar (t := .num) 0)] ++ x' ++ y' ++ z'

/-- The time loop, test/heatEqn/main.cpp:155-174. -/
def loopCmds (h : Dir → K) (n : IntVec) (F : Fields) (work work' : Nat → Dir → Nat) : Nat → Outcome (List (Cmd K))
  | 0 => .ok []
  | k + 1 => do
    let a ← loopCmds h n F work work' k
    let b ← stepCmds h n F (work k) (work' k)
    return a ++ b

end

section
variable {K : Type} [Field K]

/-- Coordinates and initial values, test/heatEqn/main.cpp:126-129, 142-147. -/
def initCmds (sin cos : K → K) (n : IntVec) (L : Dir → K) (F : Fields) : List (Cmd K) :=
  [.host ((Grid.make n L).setCoord .x .sVol F.xcoord),
   .host ((Grid.make n L).setCoord .y .sVol F.ycoord),
   .host ((Grid.make n L).setCoord .z .sVol F.zcoord),
   put F.temperature (.bin (s := .num) (t := .num) (fun a b : K => a + b)
    (.bin (s := .num) (t := .num) (fun a b : K => a + b) (.un (s := .num) (t := .num) sin (.field F.xcoord))
      (.un (s := .num) (t := .num) cos (.field F.ycoord))) (.un (s := .num) (t := .num) sin (.field F.zcoord))),
   put F.thermCond (.bin (s := .num) (t := .num) (fun a b : K => a + b)
    (.bin (s := .num) (t := .num) (fun a b : K => a + b) (.field F.xcoord) (.field F.ycoord)) (.field F.zcoord)),
   put F.rhoCp (.scalar (t := .num) 1)]

/-- `main`, test/heatEqn/main.cpp:44-191, as the fields and the list of actions on memory. -/
def program (sin cos : K → K) (n : IntVec) (L : Dir → K) (ntime : Nat) (blk : Nat → Nat) (work work' : Nat → Dir → Nat) :
    Outcome (Fields × List (Cmd K)) := do
  let F ← build n blk
  let b ← loopCmds (spacing (fun d => (extract n d).toNat) L) n F work work' ntime
  return (F, initCmds sin cos n L F ++ b)

end
end Heat
end SpatialOps
