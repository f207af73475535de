import Verif.NeboRed.Model
import Verif.Particle.Model

/-!
# Model of a build without the debug checks

The functions of the other models that contain code under `#ifndef NDEBUG` or an `assert`, once
more, as a compiler reads them with `NDEBUG` defined: the checks are gone, everything else is the
same. Functions without checks (construction and movement of iterators, `begin()`, `end()`,
`next()`, `at_end()`, ...) are those of the other models. A loop `while(!at_end())` may now run
past the end, so a loop is a function of the number of trips it is allowed: `none` means that it is
still running.
-/

namespace SpatialOps
namespace Rel

/-! ## Index maps, windows -/

/-- `ijk_to_flat`, IntVec.h:49-53, without its assertions. -/
def ijkToFlat (dim loc : IntVec) : Int := loc.x + loc.y * dim.x + loc.z * dim.x * dim.y

/-- `flat_to_ijk`, IntVec.h:61-65, without its assertions: a division by zero is undefined. -/
def flatToIjk (dim : IntVec) (pt : Int) : Outcome IntVec := do
  Outcome.ubUnless (dim.x ≠ 0 ∧ dim.y ≠ 0)
  return ⟨pt.tmod dim.x, (pt.tdiv dim.x).tmod dim.y, pt.tdiv (dim.x * dim.y)⟩

/-- `MemoryWindow(npts,offset,extent)`, MemoryWindow.cpp:48-58, without its assertion. -/
def makeWindow (npts offset extent : IntVec) : Window := ⟨npts, offset, extent⟩

/-- `MemoryWindow::refine`, MemoryWindow.cpp:102-130, without its assertions. -/
def refine (w : Window) (split loc : IntVec) : Outcome Window := do
  Outcome.ubUnless (split.x ≠ 0 ∧ split.y ≠ 0 ∧ split.z ≠ 0)
  return makeWindow w.npts
    ⟨Window.refineOffset1 w.offset.x w.extent.x split.x loc.x,
     Window.refineOffset1 w.offset.y w.extent.y split.y loc.y,
     Window.refineOffset1 w.offset.z w.extent.z split.z loc.z⟩
    ⟨Window.refineExtent1 w.extent.x split.x loc.x,
     Window.refineExtent1 w.extent.y split.y loc.y,
     Window.refineExtent1 w.extent.z split.z loc.z⟩

/-- `MemoryWindow::flat_index`, MemoryWindow.h:139-149, without its assertions. -/
def flatIndex (w : Window) (loc : IntVec) : Int :=
  ijkToFlat w.npts
    ⟨if 1 < w.npts.x then loc.x + w.offset.x else 0,
     if 1 < w.npts.y then loc.y + w.offset.y else 0,
     if 1 < w.npts.z then loc.z + w.offset.z else 0⟩

/-! ## Ghost counts -/

/-- The value constructors of `GhostData`, GhostData.cpp:70-95; `check_valid`, GhostData.cpp:41-49,
is empty. Copies (GhostData.cpp:99-115) are the identity. -/
def ghostMake (minus plus : IntVec) : GhostData := ⟨minus, plus, GhostData.ghostInfinite minus plus⟩

/-- `GhostData::operator-`, GhostData.cpp:135-141, 153-163: the exception stays. -/
def ghostSub (g rhs : GhostData) : Outcome GhostData := do
  Outcome.throwIf (rhs.isInf = true)
  return { g with minus := g.minus - rhs.minus, plus := g.plus - rhs.plus }

/-- `GhostData::operator+`, GhostData.cpp:143-149, 165-178. -/
def ghostAdd (g rhs : GhostData) : GhostData :=
  if g.isInf then g
  else if rhs.isInf then rhs
  else { g with minus := g.minus + rhs.minus, plus := g.plus + rhs.plus }

/-- `min`, GhostData.cpp:190-195. -/
def ghostMin (a b : GhostData) : GhostData := ghostMake (a.minus.min b.minus) (a.plus.min b.plus)

/-- `point_to_ghost`, GhostData.cpp:199-208. -/
def pointToGhost (p : IntVec) : GhostData :=
  ghostMake ⟨if p.x < 0 then -p.x else 0, if p.y < 0 then -p.y else 0, if p.z < 0 then -p.z else 0⟩
       ⟨if 0 < p.x then p.x else 0, if 0 < p.y then p.y else 0, if 0 < p.z then p.z else 0⟩

/-! ## Fields -/

/-- Geometry part of the main constructor, SpatialField.h:536-593; `SingleValueCheck` is empty
(SpatialField.h:503-524). -/
def ctor (w : Window) (bc : BcInfo) (g : GhostData) : FieldGeo :=
  ⟨w, makeWindow w.npts
    ⟨FieldGeo.interiorOfs1 w.extent.x w.offset.x g.minus.x, FieldGeo.interiorOfs1 w.extent.y w.offset.y g.minus.y,
     FieldGeo.interiorOfs1 w.extent.z w.offset.z g.minus.z⟩
    ⟨FieldGeo.interiorExt1 w.extent.x g.minus.x g.plus.x, FieldGeo.interiorExt1 w.extent.y g.minus.y g.plus.y,
     FieldGeo.interiorExt1 w.extent.z g.minus.z g.plus.z⟩, bc, g, g, false⟩

/-- Windowed copy constructor, SpatialField.h:658-701, and of masks, SpatialMask.h:150-159; the
assertions (SpatialField.h:703-711, SpatialMask.h:161-168) are gone. -/
def windowCopy (w : Window) (f : FieldGeo) : FieldGeo :=
  { f with
    window := w
    validGhosts := f.ghosts
    disableInterior := if FieldGeo.cutsInterior w f.interior then true else f.disableInterior }

/-- `reset_valid_ghosts`, SpatialField.h:461-467. -/
def resetValidGhosts (f : FieldGeo) (g : GhostData) : FieldGeo :=
  let diff := f.validGhosts.minus - g.minus
  { f with
    window := makeWindow f.window.npts (f.window.offset + diff)
      (f.window.extent - diff - f.validGhosts.plus + g.plus)
    validGhosts := g }

/-- `reshape`, SpatialField.h:479-487. -/
def reshape (f : FieldGeo) (extentModify shift : IntVec) : FieldGeo :=
  windowCopy (makeWindow f.window.npts (f.window.offset + shift) (f.window.extent + extentModify)) f

/-- `operator()(ijk) const`, SpatialField.h:1312-1359, without the assertions 1317-1324, 1344-1348. -/
def callC (f : FieldObj) (ijk : IntVec) : Outcome (Nat × Int) := do
  Outcome.throwIf (¬ (f.memType = .localRam ∨ f.values ≠ none))
  match f.values with
  | some b => return (b, flatIndex f.geo.window ijk)
  | none => .ub

/-- `operator()(ijk)` and `operator()(i,j,k)`, SpatialField.h:1249-1308, without the assertions
1289-1296. -/
def callM (f : FieldObj) (ijk : IntVec) : Outcome (Nat × Int) := do
  Outcome.throwIf (f.readOnly = true)
  Outcome.throwIf (f.memType ≠ .localRam)
  match f.values with
  | some b => return (b, flatIndex f.geo.window ijk)
  | none => .ub

/-- Geometry of `SpatialFieldStore::get_from_window`, SpatialFieldStore.h:441-492. -/
def storeFromWindow (win : Window) (bc : BcInfo) (g : GhostData) : FieldGeo × Int :=
  let mw := makeWindow win.extent 0 win.extent
  (ctor mw bc g, mw.globNpts)

/-! ## Masks -/

/-- `find_position`, BitField.h:299-319, without the assertions 301-309. -/
def findPosition (m : BitField) (p : IntVec) : Int :=
  (m.window.offset.x + p.x) + m.window.npts.x *
    ((m.window.offset.y + p.y) + m.window.npts.y * (m.window.offset.z + p.z))

/-- `add_point`, BitField.h:325-340. -/
def addPoint (m : BitField) (p : IntVec) : Outcome BitField := do
  let l ← m.locate (findPosition m p)
  return { m with words := fun b =>
    if b = l.1 then m.words b ||| ((1 : BitVec 32) <<< l.2) else m.words b }

/-- `add_points`, BitField.h:342-346. -/
def addPoints (m : BitField) : List IntVec → Outcome BitField
  | [] => .ok m
  | p :: ps => addPoint m p >>= fun m' => addPoints m' ps

/-- `SpatialMask(prototype, points)`, SpatialMask.h:118-131, BitField.h:358-401. -/
def spatialMask (f : FieldGeo) (points : List IntVec) : Outcome BitField :=
  addPoints ⟨f.interior, f.validGhosts, roundToInt f.interior.globNpts, fun _ => 0⟩ points

/-- `operator()` of a mask, BitField.h:465-480. -/
def query (m : BitField) (p : IntVec) : Outcome Bool := do
  let l ← m.locate (findPosition m p)
  return decide (m.words l.1 &&& ((1 : BitVec 32) <<< l.2) ≠ 0)

/-- `ConstMaskIterator::operator*`, BitField.h:74-111, without the checks 75-109: the word and the
shift must exist. -/
def maskDeref (bits : BitField) (i : MaskIt) : Outcome Bool := do
  Outcome.ubUnless (0 ≤ i.block ∧ i.block < bits.size ∧ 0 ≤ i.bit ∧ i.bit < 32)
  return decide (bits.words i.block &&& ((1 : BitVec 32) <<< i.bit.toNat) ≠ 0)

/-! ## Field expressions -/

open Nebo

/-- `eval()`, NeboRhs.h:134, 308, 496, NeboMask.h:156, NeboOperators.h:151-168, NeboCond.h:195-197,
418-421. A field iterator is dereferenced without the checks of MemoryWindow.h:258-307, 453-480: the
element it points at is read. -/
def eval {V : Type} (m : Mem V) : {t : Ty} → Walk V t → Outcome (t.den V)
  | _, .const v => .ok v
  | _, .field b n i _ => do
    let blk ← elemAt b n i.current
    return m blk i.current
  | _, .mask bits i _ => maskDeref bits i
  | _, .un op a => do
    let x ← eval m a
    return op x
  | _, .bin op a b => do
    let x ← eval m a
    let y ← eval m b
    return op x y
  | _, .and a b => do
    let x ← eval m a
    if x then eval m b else return false
  | _, .or a b => do
    let x ← eval m a
    if x then return true else eval m b
  | _, .cond c a b => do
    let x ← eval m c
    if x then eval m a else eval m b

/-- `point_possible_ghosts`, NeboStencils.h:470-474, 1086-1091. -/
def shrink (g : GhostData) (p : IntVec) : Outcome GhostData := ghostSub g (pointToGhost p)

/-- `NeboStencilPointCollection::possible_ghosts`, NeboStencils.h:165-170, 470-474. -/
def ptsGhosts {α : Type} (pt : α → IntVec) (g : GhostData) : Pts α → Outcome GhostData
  | .one a => shrink g (pt a)
  | .more e a => do
    let x ← shrink g (pt a)
    let y ← ptsGhosts pt g e
    return ghostMin x y

/-- `possible_ghosts()`: NeboRhs.h:54-56, 206-208, 403-405; NeboMask.h:54-56; NeboStencils.h:711-713,
928-930, 1134-1136; NeboOperators.h:60-62; NeboCond.h:87-89, 306-308. -/
def possibleGhosts {V : Type} : {t : Ty} → Expr V t → Outcome GhostData
  | _, .scalar _ => .ok (ghostMake ⟨ghostMax, ghostMax, ghostMax⟩ ⟨ghostMax, ghostMax, ghostMax⟩)
  | _, .field f => .ok (ghostAdd f.geo.validGhosts (pointToGhost f.geo.bc.hasExtra))
  | _, .single _ => .ok (ghostMake ⟨ghostMax, ghostMax, ghostMax⟩ ⟨ghostMax, ghostMax, ghostMax⟩)
  | _, .mask m => .ok (ghostAdd m.geo.validGhosts (pointToGhost m.geo.bc.hasExtra))
  | _, .maskShift p a => do
    let g ← possibleGhosts a
    shrink g p
  | _, .un _ a => possibleGhosts a
  | _, .bin _ a b | _, .and a b | _, .or a b => do
    let x ← possibleGhosts a
    let y ← possibleGhosts b
    return ghostMin x y
  | _, .cond c a b => do
    let x ← possibleGhosts c
    let y ← possibleGhosts a
    let z ← possibleGhosts b
    return ghostMin (ghostMin x y) z
  | _, .stencil pts a => do
    let g ← possibleGhosts a
    ptsGhosts Prod.fst g pts
  | _, .sumStencil pts a => do
    let g ← possibleGhosts a
    ptsGhosts id g pts

/-- `resize_ghost_and_shift_window`, NeboBasic.h:119-150. -/
def resizeGhostAndShift (f : FieldGeo) (minus plus shift : IntVec) : FieldGeo :=
  reshape (reshape f (minus + plus - f.validGhosts.minus - f.validGhosts.plus) (f.validGhosts.minus - minus)) 0 shift

/-- `init(minus, plus, shift)` and `reduce_init(minus, plus, shift)`: NeboRhs.h:58-62, 91-95, 210-217,
257-264, 407-411, 447-451; NeboMask.h:58-65, 105-112; NeboStencils.h:715-723, 932-939, 1138-1142,
1178-1183; NeboOperators.h:64-69, 112-117; NeboCond.h:91-96, 141-146, 310-315, 360-365. -/
def init {V : Type} [Add V] [Mul V] (red : Bool) (m : Mem V) (minus plus : IntVec) :
    {t : Ty} → Expr V t → IntVec → Outcome (Walk V t)
  | _, .scalar v, _ => .ok (.const v)
  | _, .field f, shift =>
    fieldWalk red { f with geo := resizeGhostAndShift f.geo minus (plus - f.geo.bc.hasExtra) shift }
  | _, .single f, _ => do
    let v ← singleValue m f
    return .const (t := .num) v
  | _, .mask k, shift =>
    maskWalk red { k with geo := resizeGhostAndShift k.geo minus (plus - k.geo.bc.hasExtra) shift }
  | _, .maskShift p a, shift => init red m minus plus a (shift + p)
  | _, .un op a, shift => do
    let x ← init red m minus plus a shift
    return .un op x
  | _, .bin op a b, shift => do
    let x ← init red m minus plus a shift
    let y ← init red m minus plus b shift
    return .bin op x y
  | _, .and a b, shift => do
    let x ← init red m minus plus a shift
    let y ← init red m minus plus b shift
    return .and x y
  | _, .or a b, shift => do
    let x ← init red m minus plus a shift
    let y ← init red m minus plus b shift
    return .or x y
  | _, .cond c a b, shift => do
    let x ← init red m minus plus c shift
    let y ← init red m minus plus a shift
    let z ← init red m minus plus b shift
    return .cond x y z
  | _, .stencil pts a, shift =>
    pts.construct fun pc => do
      let x ← init red m minus plus a (shift + pc.1)
      return .bin (s := .num) (t := .num) (· * ·) x (.const (t := .num) pc.2)
  | _, .sumStencil pts a, shift =>
    pts.construct fun p => init red m minus plus a (shift + p)

/-- `calculate_valid_ghost`, NeboBasic.h:63-108: the exceptions stay. -/
def calcValidGhost (useGhost : Bool) (lhs : GhostData) (bc : BcInfo) (rhs : GhostData) : Outcome GhostData := do
  Outcome.throwIf (bc.isbc.x ≠ 0 ∧ rhs.plus.x < bc.hasExtra.x)
  Outcome.throwIf (bc.isbc.y ≠ 0 ∧ rhs.plus.y < bc.hasExtra.y)
  Outcome.throwIf (bc.isbc.z ≠ 0 ∧ rhs.plus.z < bc.hasExtra.z)
  return if useGhost then ghostMin (ghostAdd lhs (pointToGhost bc.hasExtra)) rhs else ghostMake 0 bc.hasExtra

/-- `calculate_valid_lhs_ghost`, NeboBasic.h:110-117. -/
def calcValidLhsGhost (g : GhostData) (bc : BcInfo) : Outcome GhostData := ghostSub g (pointToGhost bc.hasExtra)

/-- The loop of `NeboField<SeqWalk>::assign`, NeboLhs.h:441-444:
`while(!at_end()) { ref() = rhs.eval(); next(); rhs.next(); }`, for at most `trips` trips. `i` is the
left-hand iterator, `e` the end. -/
def assignLoop {V : Type} (base : Option Nat) (size : Int) (e : It) : Nat → It → Walk V .num → Mem V →
    Option (Outcome (Mem V))
  | trips, i, w, m =>
    if i.eqOp e then some (.ok m)
    else match trips with
      | 0 => none
      | k + 1 => andThen (eval m w) fun v => andThen (elemAt base size i.current) fun blk =>
          assignLoop base size e k i.inc w.next (m.write blk i.current v)

/-- `NeboField<SeqWalk>::assign`, NeboLhs.h:430-457. -/
def walkAssign {V : Type} (l : FieldObj) (w : Walk V .num) (m : Mem V) (trips : Nat) : Option (Outcome (Mem V)) :=
  andThen l.beginM fun b => andThen l.endM fun e =>
    assignLoop b.base l.geo.window.globNpts e.it trips b.it w m

/-- `NeboField<Initial>::sequential_assign` with `init`, NeboLhs.h:136-169. -/
def sequentialAssign {V : Type} [Add V] [Mul V] (useGhost : Bool) (lhs : FieldObj) (e : Expr V .num) (m : Mem V)
    (trips : Nat) : Option (Outcome (Mem V)) :=
  andThen (possibleGhosts e) fun pg => andThen (calcValidGhost useGhost lhs.geo.ghosts lhs.geo.bc pg) fun rg =>
    andThen (calcValidLhsGhost rg lhs.geo.bc) fun lg => andThen (init false m rg.minus rg.plus e 0) fun w =>
      walkAssign { lhs with geo := resetValidGhosts lhs.geo (ghostMake lg.minus lg.plus) } w m trips

/-- `lhs <<= rhs`, NeboAssignment.h:28-178, without CUDA and with one partition. -/
def assign {V : Type} [Add V] [Mul V] (lhs : FieldObj) (e : Expr V .num) (m : Mem V) (trips : Nat) :
    Option (Outcome (Mem V)) := sequentialAssign true lhs e m trips

/-- `interior_assign(lhs, rhs)`, NeboAssignment.h:180-340, without CUDA and with one partition. -/
def interiorAssign {V : Type} [Add V] [Mul V] (lhs : FieldObj) (e : Expr V .num) (m : Mem V) (trips : Nat) :
    Option (Outcome (Mem V)) := sequentialAssign false lhs e m trips

/-- `while(!(expr.at_end())) { result = proc(result, expr.eval()); expr.next(); }`,
NeboReductions.h:69-73. -/
def foldLoop {V R : Type} (proc : R → V → R) (m : Mem V) : Nat → Walk V .num → R → Option (Outcome R)
  | trips, w, r =>
    if w.atEnd then some (.ok r)
    else match trips with
      | 0 => none
      | k + 1 => andThen (eval m w) fun v => foldLoop proc m k w.next (proc r v)

/-- `nebo_fold`, NeboReductions.h:53-77. -/
def neboFold {V R : Type} [Add V] [Mul V] (proc : R → V → R) (initial : R) (e : Expr V .num) (m : Mem V)
    (trips : Nat) : Option (Outcome R) :=
  andThen (possibleGhosts e) fun g => andThen (init true m g.minus g.plus e 0) fun w =>
    foldLoop proc m trips w initial

/-- `nebo_fold_interior`, NeboReductions.h:92-119. -/
def neboFoldInterior {V R : Type} [Add V] [Mul V] (proc : R → V → R) (initial : R) (e : Expr V .num) (m : Mem V)
    (trips : Nat) : Option (Outcome R) :=
  andThen (init true m 0 0 e 0) fun w => foldLoop proc m trips w initial

/-- `result = expr.eval(); expr.next();` and the loop, NeboReductions.h:161-171. -/
def reduceLoop {V : Type} (proc : V → V → V) (m : Mem V) (w : Walk V .num) (trips : Nat) : Option (Outcome V) :=
  andThen (eval m w) fun r => foldLoop proc m trips w.next r

/-- `nebo_reduce(proc, fexpr)`, NeboReductions.h:137-172, 252-286. -/
def neboReduce {V : Type} [Add V] [Mul V] (proc : V → V → V) (e : Expr V .num) (m : Mem V) (trips : Nat) :
    Option (Outcome V) :=
  andThen (possibleGhosts e) fun g => andThen (init true m g.minus g.plus e 0) fun w => reduceLoop proc m w trips

/-- `nebo_reduce_interior(proc, fexpr)`, NeboReductions.h:193-229, 306-342. -/
def neboReduceInterior {V : Type} [Add V] [Mul V] (proc : V → V → V) (e : Expr V .num) (m : Mem V) (trips : Nat) :
    Option (Outcome V) :=
  andThen (init true m 0 0 e 0) fun w => reduceLoop proc m w trips

/-! ## Particles -/

section
variable {K : Type} [Field K] [LinearOrder K] [FloorRing K]
open Particle

/-- `leftcellIx1`, ParticleOperators.h:161, 222, without the tests 162-166, 223-227. -/
def opStart (o : Particle.Op K) (p : Drop K) : Outcome Int := do
  Outcome.ubUnless (o.dx ≠ 0)
  return trunc ((p.loc - p.size / 2) / o.dx) + 1

/-- The particle loop of `ParticleToCell::apply_to_field`, ParticleOperators.h:151-175. -/
def toCells (o : Particle.Op K) : List (Drop K × K) → Line K → Outcome (Line K)
  | [], dest => .ok dest
  | (p, src) :: ps, dest => do
    let i ← opStart o p
    let dest' ← o.spread src p.size (p.loc + 1 / 2 * p.size) (o.coord.n + 1) i (p.loc - p.size / 2) dest
    toCells o ps dest'

/-- `ParticleToCell::apply_to_field`, ParticleOperators.h:137-176. -/
def particleToCell (o : Particle.Op K) (ps : List (Drop K × K)) (dest : Line K) : Outcome (Line K) :=
  toCells o ps ⟨dest.n, fun _ => 0⟩

/-- `CellToParticle::apply_to_field`, ParticleOperators.h:205-237. -/
def cellToParticle (o : Particle.Op K) (src : Line K) : List (Drop K) → Outcome (List K)
  | [] => .ok []
  | p :: ps => do
    let i ← opStart o p
    let v ← o.gather src p.size (p.loc + p.size / 2) (o.coord.n + 1) i (p.loc - p.size / 2) 0
    let vs ← cellToParticle o src ps
    return v :: vs

end

/-! ## Programs with scratch fields -/

/-- One step of a program: ask the field store for a scratch field with memory block `blk` of `npts`
elements (SpatialFieldStore.h:466-474), `lhs <<= rhs` or `interior_assign(lhs, rhs)`
(NeboAssignment.h:28-340). -/
inductive Stmt (V : Type) where
  | scratch (blk : Nat) (npts : Int)
  | assign (lhs : FieldObj) (e : Expr V .num)
  | interior (lhs : FieldObj) (e : Expr V .num)

/-- The debug build zeroes the elements of a scratch field, SpatialFieldStore.h:468-471. -/
def zeroed {V : Type} [Zero V] (blk : Nat) (npts : Int) (m : Mem V) : Mem V :=
  fun b a => if b = blk ∧ 0 ≤ a ∧ a < npts then 0 else m b a

/-- A program in the debug build (SpatialFieldStore.h:466-474, NeboAssignment.h:28-340). -/
def runDebug {V : Type} [Add V] [Mul V] [Zero V] : List (Stmt V) → Mem V → Outcome (Mem V)
  | [], m => .ok m
  | .scratch blk n :: p, m => runDebug p (zeroed blk n m)
  | .assign l e :: p, m => Nebo.assign l e m >>= runDebug p
  | .interior l e :: p, m => Nebo.interiorAssign l e m >>= runDebug p

/-- The same program with `NDEBUG`: the scratch field has whatever its memory held
(SpatialFieldStore.h:467). Each loop may make `trips` trips. -/
def runRelease {V : Type} [Add V] [Mul V] (trips : Nat) : List (Stmt V) → Mem V → Option (Outcome (Mem V))
  | [], m => some (.ok m)
  | .scratch _ _ :: p, m => runRelease trips p m
  | .assign l e :: p, m => (assign l e m trips).bind fun o => andThen o (runRelease trips p)
  | .interior l e :: p, m => (interiorAssign l e m trips).bind fun o => andThen o (runRelease trips p)

end Rel
end SpatialOps
