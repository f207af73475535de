import Verif.Field.Model
import Verif.Mask.Model

/-!
# Model of Nebo field expressions: sequential assignment

spatialops/NeboBasic.h, NeboLhs.h, NeboRhs.h, NeboMask.h, NeboOperators.h,
NeboCond.h, NeboStencils.h. An expression template object is a tree `Expr`; each
C++ mode of a node (`Initial`, `Resize`, `SeqWalk`, `Reduction`) is a function on
trees or a tree of walkers. The copies of fields and expressions made when trees
are passed by value are shallow and are not represented. Arithmetic on values is
left abstract: `V` is any type with the operations the tree names.
-/

namespace SpatialOps
namespace Nebo

/-- The two value types of expressions: field values and `bool`
(`NeboExpression` and `NeboBooleanExpression`, NeboBasic.h:193-235). -/
inductive Ty where
  | num
  | bool
  deriving DecidableEq, Repr

/-- `value_type` of an expression: the field's value type or `bool`
(typedefs `value_type` in NeboRhs.h:120-134, 296-308 and NeboMask.h:144-156). -/
abbrev Ty.den (V : Type) : Ty → Type
  | .num => V
  | .bool => Bool

/-- `SpatialMask` members, SpatialMask.h:79-88: window, interior, boundary and
ghost members are laid out as in a field; `bits` is bitField_. -/
structure MaskObj where
  geo : FieldGeo
  bits : BitField

/-- A non-empty compile-time list of stencil points:
`NeboStencilPointCollection<Point, Collection>`, NeboStencils.h:149-163 and
454-468; the last point added is outermost. The payload is a point, or a point
with its coefficient (`NeboStencilCoefCollection`, NeboStencils.h:29-118, has the
same length and nesting). -/
inductive Pts (α : Type) where
  | one (a : α)
  | more (earlier : Pts α) (a : α)

/-- The points of a collection, first added first (NeboStencils.h:149-163). -/
def Pts.toList {α : Type} : Pts α → List α
  | .one a => [a]
  | .more e a => e.toList ++ [a]

/-- Expression trees in mode `Initial`.
`scalar`: NeboScalar, NeboRhs.h:29-180. `field`: NeboConstField, NeboRhs.h:181-371.
`single`: NeboConstSingleValueField, NeboRhs.h:372-557. `mask`: NeboMask,
NeboMask.h:29-250. `maskShift`: NeboMaskShift, NeboStencils.h:1093-1280. `un`,
`bin`: the unary and binary operators, functions and comparisons of
NeboOperators.h, with the C++ operation as a function (all generated from one
template, NeboOperators.h.fmr:185-549). `and`, `or`: AndOp and OrOp,
NeboOperators.h:11885-12640. `cond`: NeboCond with its NeboClause,
NeboCond.h:50-487. `stencil`: NeboStencil, NeboStencils.h:661-880. `sumStencil`:
NeboSumStencil, NeboStencils.h:882-1084. -/
inductive Expr (V : Type) : Ty → Type where
  | scalar {t : Ty} (v : t.den V) : Expr V t
  | field (f : FieldObj) : Expr V .num
  | single (f : FieldObj) : Expr V .num
  | mask (m : MaskObj) : Expr V .bool
  | maskShift (p : IntVec) (a : Expr V .bool) : Expr V .bool
  | un {s t : Ty} (op : s.den V → t.den V) (a : Expr V s) : Expr V t
  | bin {s t : Ty} (op : s.den V → s.den V → t.den V) (a b : Expr V s) : Expr V t
  | and (a b : Expr V .bool) : Expr V .bool
  | or (a b : Expr V .bool) : Expr V .bool
  | cond (test : Expr V .bool) (a b : Expr V .num) : Expr V .num
  | stencil (pts : Pts (IntVec × V)) (a : Expr V .num) : Expr V .num
  | sumStencil (pts : Pts IntVec) (a : Expr V .num) : Expr V .num

/-- Trees in modes `SeqWalk` and `Reduction`. A field leaf holds the base pointer
and iterator (NeboRhs.h:294-312) and, in mode `Reduction`, the end iterator
(NeboRhs.h:346-371); `size` is the number of elements allocated at the base, used
only to tell undefined accesses apart. A mask leaf holds the bit memory and
iterator (NeboMask.h:143-160, 223-248). Stencil and mask-shift nodes only forward
to their argument (NeboStencils.h:813-830, 1020-1037, 1217-1234) and are left
out. -/
inductive Walk (V : Type) : Ty → Type where
  | const {t : Ty} (v : t.den V) : Walk V t
  | field (base : Option Nat) (size : Int) (it : It) (fin : Option It) : Walk V .num
  | mask (bits : BitField) (it : MaskIt) (fin : Option MaskIt) : Walk V .bool
  | un {s t : Ty} (op : s.den V → t.den V) (a : Walk V s) : Walk V t
  | bin {s t : Ty} (op : s.den V → s.den V → t.den V) (a b : Walk V s) : Walk V t
  | and (a b : Walk V .bool) : Walk V .bool
  | or (a b : Walk V .bool) : Walk V .bool
  | cond (test : Walk V .bool) (a b : Walk V .num) : Walk V .num

/-- An access through `base + a`: undefined if the base is NULL or `a` is not an
element of the allocation. Used by `operator*` of the iterators at
MemoryWindow.h:258-307. -/
def elemAt (base : Option Nat) (size a : Int) : Outcome Nat :=
  match base with
  | none => .ub
  | some b => do
    Outcome.ubUnless (0 ≤ a ∧ a < size)
    return b

namespace Walk

/-- `next()`, NeboRhs.h:132, 306, 494, NeboMask.h:154, NeboOperators.h:151-168 (and all
others), NeboCond.h:193, 416. -/
def next {V : Type} : {t : Ty} → Walk V t → Walk V t
  | _, .const v => .const v
  | _, .field b n i e => .field b n i.inc e
  | _, .mask m i e => .mask m i.inc e
  | _, .un op a => .un op a.next
  | _, .bin op a b => .bin op a.next b.next
  | _, .and a b => .and a.next b.next
  | _, .or a b => .or a.next b.next
  | _, .cond c a b => .cond c.next a.next b.next

/-- `eval()`, NeboRhs.h:134, 308, 496, NeboMask.h:156, NeboOperators.h:151-168 (and all
others; AndOp 12017, OrOp 12397), NeboCond.h:195-197, 418-421. `&&`, `||` and `?:` evaluate only what C++ evaluates. -/
def eval {V : Type} (m : Mem V) : {t : Ty} → Walk V t → Outcome (t.den V)
  | _, .const v => .ok v
  | _, .field b n i _ => do
    let a ← i.deref
    let blk ← elemAt b n a
    return m blk a
  | _, .mask bits i _ => do
    let v ← i.deref bits.words
    Outcome.ubUnless (i.block < bits.size)
    return v
  | _, .un op a => do
    let x ← a.eval m
    return op x
  | _, .bin op a b => do
    let x ← a.eval m
    let y ← b.eval m
    return op x y
  | _, .and a b => do
    let x ← a.eval m
    if x then b.eval m else return false
  | _, .or a b => do
    let x ← a.eval m
    if x then return true else b.eval m
  | _, .cond c a b => do
    let x ← c.eval m
    if x then a.eval m else b.eval m

end Walk

/-- `point_possible_ghosts` and `possible_ghosts` of a one-point collection,
NeboStencils.h:470-474, 1086-1091. -/
def shrink (g : GhostData) (p : IntVec) : Outcome GhostData := do
  let q ← GhostData.pointToGhost p
  g.sub q

/-- `NeboStencilPointCollection::possible_ghosts`, NeboStencils.h:165-170, 470-474. -/
def Pts.possibleGhosts {α : Type} (pt : α → IntVec) (g : GhostData) : Pts α → Outcome GhostData
  | .one a => shrink g (pt a)
  | .more e a => do
    let x ← shrink g (pt a)
    let y ← e.possibleGhosts pt g
    GhostData.min x y

/-- `possible_ghosts` of a field or mask leaf, NeboRhs.h:206-208, NeboMask.h:54-56. -/
def leafGhosts (f : FieldGeo) : Outcome GhostData := do
  let e ← GhostData.pointToGhost f.bc.hasExtra
  f.validGhosts.add e

/-- `possible_ghosts()` in mode `Initial`: NeboRhs.h:54-56, 206-208, 403-405;
NeboMask.h:54-56; NeboStencils.h:711-713, 928-930, 1134-1136;
NeboOperators.h:60-62 (binary: `min` of both; unary: of the operand);
NeboCond.h:87-89 and 306-308 (clause: `min` of test and expression; cond: `min`
of clause and otherwise). -/
def Expr.possibleGhosts {V : Type} : {t : Ty} → Expr V t → Outcome GhostData
  | _, .scalar _ => GhostData.makeUniform ghostMax
  | _, .field f => leafGhosts f.geo
  | _, .single _ => GhostData.makeUniform ghostMax
  | _, .mask m => leafGhosts m.geo
  | _, .maskShift p a => do
    let g ← a.possibleGhosts
    shrink g p
  | _, .un _ a => a.possibleGhosts
  | _, .bin _ a b | _, .and a b | _, .or a b => do
    let x ← a.possibleGhosts
    let y ← b.possibleGhosts
    GhostData.min x y
  | _, .cond c a b => do
    let x ← c.possibleGhosts
    let y ← a.possibleGhosts
    let cl ← GhostData.min x y
    let z ← b.possibleGhosts
    GhostData.min cl z
  | _, .stencil pts a => do
    let g ← a.possibleGhosts
    pts.possibleGhosts Prod.fst g
  | _, .sumStencil pts a => do
    let g ← a.possibleGhosts
    pts.possibleGhosts id g

/-- `resize_ghost`, NeboBasic.h:119-132. -/
def resizeGhost (f : FieldGeo) (minus plus : IntVec) : Outcome FieldGeo :=
  f.reshape false (minus + plus - f.validGhosts.minus - f.validGhosts.plus)
    (f.validGhosts.minus - minus)

/-- `shift_window`, NeboBasic.h:134-138. -/
def shiftWindow (f : FieldGeo) (shift : IntVec) : Outcome FieldGeo := f.reshape false 0 shift

/-- `resize_ghost_and_shift_window`, NeboBasic.h:140-150. -/
def resizeGhostAndShift (f : FieldGeo) (minus plus shift : IntVec) : Outcome FieldGeo := do
  let g ← resizeGhost f minus plus
  shiftWindow g shift

/-- Constructor of the field walkers: `iter_(f.begin())`, NeboRhs.h:302-304, and
in mode `Reduction` also `end_(f.end())`, NeboRhs.h:354-356. `f` is the field
after reshaping. -/
def fieldWalk {V : Type} (red : Bool) (f : FieldObj) : Outcome (Walk V .num) := do
  let i ← f.beginC
  let e ← (if red then do
      let e ← f.endC
      return some e.it
    else return none : Outcome (Option It))
  return .field i.base f.geo.window.globNpts i.it e

/-- Constructor of the mask walkers, NeboMask.h:150-152, 230-232. -/
def maskWalk {V : Type} (red : Bool) (m : MaskObj) : Outcome (Walk V .bool) := do
  let e ← (if red then do
      let e ← MaskIt.finish m.geo.window
      return some e
    else return none : Outcome (Option MaskIt))
  return .mask m.bits (MaskIt.start m.geo.window) e

/-- The value of a single-value field read when the walker is built:
`*field_.field_values(LOCAL_RAM)`, NeboRhs.h:407-411, 414-417, 447-451. -/
def singleValue {V : Type} (m : Mem V) (f : FieldObj) : Outcome V := do
  let p ← f.fieldValuesC false .localRam 0
  let blk ← elemAt p f.geo.window.globNpts 0
  return m blk 0

/-- `ConstructExpr` and `SumConstructExpr`, NeboStencils.h:172-227, 332-371,
476-510, 580-606: the walkers of the points are added up, earlier points first.
`f` builds the term of one point. -/
def Pts.construct {V α : Type} [Add V] (f : α → Outcome (Walk V .num)) :
    Pts α → Outcome (Walk V .num)
  | .one a => f a
  | .more e a => do
    let x ← e.construct f
    let y ← f a
    return .bin (s := .num) (t := .num) (· + ·) x y

/-- `init(minus, plus, shift)` (mode `SeqWalk`, `red = false`) and
`reduce_init(minus, plus, shift)` (mode `Reduction`, `red = true`):
NeboRhs.h:58-62, 91-95, 210-217, 257-264, 407-411, 447-451; NeboMask.h:58-65, 105-112;
NeboStencils.h:715-723, 932-939, 1138-1142, 1178-1183; NeboOperators.h:64-69, 112-117 and
the same in every operator; NeboCond.h:91-96, 141-146, 310-315, 360-365. In the code
`NeboStencil::reduce_init` names a function that does not exist
(NeboStencils.h:761-769, 976-983), so expressions with stencils cannot be
reduced; here the evident meaning is given and theorems about reductions exclude
stencils. -/
def Expr.init {V : Type} [Add V] [Mul V] (red : Bool) (m : Mem V) (minus plus : IntVec) :
    {t : Ty} → Expr V t → IntVec → Outcome (Walk V t)
  | _, .scalar v, _ => .ok (.const v)
  | _, .field f, shift => do
    let g ← resizeGhostAndShift f.geo minus (plus - f.geo.bc.hasExtra) shift
    fieldWalk red { f with geo := g }
  | _, .single f, _ => do
    let v ← singleValue m f
    return .const (t := .num) v
  | _, .mask k, shift => do
    let g ← resizeGhostAndShift k.geo minus (plus - k.geo.bc.hasExtra) shift
    maskWalk red { k with geo := g }
  | _, .maskShift p a, shift => a.init red m minus plus (shift + p)
  | _, .un op a, shift => do
    let x ← a.init red m minus plus shift
    return .un op x
  | _, .bin op a b, shift => do
    let x ← a.init red m minus plus shift
    let y ← b.init red m minus plus shift
    return .bin op x y
  | _, .and a b, shift => do
    let x ← a.init red m minus plus shift
    let y ← b.init red m minus plus shift
    return .and x y
  | _, .or a b, shift => do
    let x ← a.init red m minus plus shift
    let y ← b.init red m minus plus shift
    return .or x y
  | _, .cond c a b, shift => do
    let x ← c.init red m minus plus shift
    let y ← a.init red m minus plus shift
    let z ← b.init red m minus plus shift
    return .cond x y z
  | _, .stencil pts a, shift =>
    pts.construct fun pc => do
      let x ← a.init red m minus plus (shift + pc.1)
      return .bin (s := .num) (t := .num) (· * ·) x (.const (t := .num) pc.2)
  | _, .sumStencil pts a, shift =>
    pts.construct fun p => a.init red m minus plus (shift + p)

/-- `calculate_valid_ghost`, NeboBasic.h:63-108. -/
def calcValidGhost (useGhost : Bool) (lhs : GhostData) (bc : BcInfo) (rhs : GhostData) :
    Outcome GhostData := do
  Outcome.throwIf (bc.isbc.x ≠ 0 ∧ rhs.plus.x < bc.hasExtra.x)
  Outcome.throwIf (bc.isbc.y ≠ 0 ∧ rhs.plus.y < bc.hasExtra.y)
  Outcome.throwIf (bc.isbc.z ≠ 0 ∧ rhs.plus.z < bc.hasExtra.z)
  let e ← GhostData.pointToGhost bc.hasExtra
  let lhsExtra ← lhs.add e
  if useGhost then GhostData.min lhsExtra rhs else GhostData.make 0 bc.hasExtra

/-- `calculate_valid_lhs_ghost`, NeboBasic.h:110-117. -/
def calcValidLhsGhost (g : GhostData) (bc : BcInfo) : Outcome GhostData := do
  let e ← GhostData.pointToGhost bc.hasExtra
  g.sub e

/-- `ref() = rhs.eval()`, NeboLhs.h:443, 453: the value is computed, then
stored through the left-hand iterator. -/
def store {V : Type} (base : Option Nat) (size : Int) (i : It) (v : V) (m : Mem V) :
    Outcome (Mem V) := do
  let a ← i.deref
  let blk ← elemAt base size a
  return m.write blk a v

/-- `NeboField<SeqWalk>::assign`, NeboLhs.h:441-444: one trip of the loop
`while(!at_end()) { ref() = rhs.eval(); next(); rhs.next(); }`; the advance of the
left-hand iterator is done by `forIt`. -/
def assignBody {V : Type} (base : Option Nat) (size : Int) (i : It) (s : Mem V × Walk V .num) :
    Outcome (Mem V × Walk V .num) := do
  let v ← s.2.eval s.1
  let m ← store base size i v s.1
  return (m, s.2.next)

/-- The whole loop of `NeboField<SeqWalk>::assign`, NeboLhs.h:430-457, on the field
`l` (already cut to the region to assign). `at_end` compares addresses,
NeboLhs.h:449. -/
def walkAssign {V : Type} (l : FieldObj) (w : Walk V .num) (m : Mem V) : Outcome (Mem V) := do
  let b ← l.beginM
  let e ← l.endM
  let r ← forIt (assignBody b.base l.geo.window.globNpts) l.geo.window.localNpts.toNat b.it e.it (m, w)
  return r.1

/-- `NeboField<Initial>::sequential_assign` with `init`, NeboLhs.h:136-169. The
walker of the right-hand side and the left-hand walker are built before any
element is stored. -/
def sequentialAssign {V : Type} [Add V] [Mul V] (useGhost : Bool) (lhs : FieldObj)
    (e : Expr V .num) (m : Mem V) : Outcome (Mem V) := do
  let pg ← e.possibleGhosts
  let rg ← calcValidGhost useGhost lhs.geo.ghosts lhs.geo.bc pg
  let lg ← calcValidLhsGhost rg lhs.geo.bc
  let g ← GhostData.make lg.minus lg.plus
  let geo ← lhs.geo.resetValidGhosts g
  let w ← e.init false m rg.minus rg.plus 0
  walkAssign { lhs with geo := geo } w m

/-- `lhs <<= rhs`, NeboAssignment.h:28-178, on a build without CUDA and with one
partition. -/
def assign {V : Type} [Add V] [Mul V] (lhs : FieldObj) (e : Expr V .num) (m : Mem V) :
    Outcome (Mem V) := sequentialAssign true lhs e m

/-- `interior_assign(lhs, rhs)`, NeboAssignment.h:180-340, on a build without CUDA
and with one partition. -/
def interiorAssign {V : Type} [Add V] [Mul V] (lhs : FieldObj) (e : Expr V .num) (m : Mem V) :
    Outcome (Mem V) := sequentialAssign false lhs e m

end Nebo
end SpatialOps
