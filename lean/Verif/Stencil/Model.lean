import Verif.Nebo.Model
import Verif.OpDb.Model
import Mathlib.Algebra.Field.Defs
import Mathlib.Algebra.CharZero.Defs

/-!
# Model of staggered field types, stencil points and the registered operators

structured/IndexTriplet.h, structured/FVStaggeredLocationTypes.h,
structured/FVStaggeredFieldTypes.h, NeboStencilBuilder.h, NeboStencils.h:29-118,
structured/stencil/FVStaggeredOperatorTypes.h and structured/stencil/StencilBuilder.cpp.

An `IndexTriplet<i,j,k>` type is the `IntVec` its `int_vec()` returns
(IndexTriplet.h:173-175), so two index triplets are the same type iff the vectors are
equal. Template metafunctions become functions; a missing specialisation (a compile
error) is `none`. `K` is any type with the operations the code uses on `double`: exact
arithmetic in a field of characteristic zero, except in `Verif.Round`, where it is
arithmetic with rounding.
-/

namespace SpatialOps
namespace Stencil

open Nebo (Pts Expr)

/-- The direction tags, SpatialOpsDefs.h:38-53 (without `NODIR`). -/
inductive Dir where
  | x | y | z
  deriving DecidableEq, Repr

/-! ## Index triplets -/

/-- `Abs<I>`, IndexTriplet.h:56. -/
def absI (i : Int) : Int := if i ≥ 0 then i else -i
/-- `Max<i1,i2>`, IndexTriplet.h:65. -/
def maxI (i j : Int) : Int := if i > j then i else j
/-- `Min<i1,i2>`, IndexTriplet.h:75. -/
def minI (i j : Int) : Int := if i < j then i else j
/-- `LThan<i1,i2>`, IndexTriplet.h:86. -/
def lThan (i j : Int) : Int := if i < j then 1 else 0
/-- `GThan<i1,i2>`, IndexTriplet.h:97. -/
def gThan (i j : Int) : Int := if i > j then 1 else 0
/-- `IndexTriplet::Abs`, IndexTriplet.h:136. -/
def tAbs (a : IntVec) : IntVec := ⟨absI a.x, absI a.y, absI a.z⟩
/-- `IndexTriplet::PositiveOrZero`, IndexTriplet.h:142. -/
def positiveOrZero (a : IntVec) : IntVec := ⟨maxI 0 a.x, maxI 0 a.y, maxI 0 a.z⟩
/-- `IndexTriplet::Negate`, IndexTriplet.h:156. -/
def negate (a : IntVec) : IntVec := ⟨-a.x, -a.y, -a.z⟩
/-- `UnitTriplet<DirT>`, IndexTriplet.h:193-198. -/
def unitTriplet (d : Dir) : IntVec :=
  ⟨if d = .x then 1 else 0, if d = .y then 1 else 0, if d = .z then 1 else 0⟩
/-- `IndexTripletExtract<IT,DirT>`, IndexTriplet.h:212-217. -/
def extract (a : IntVec) : Dir → Int
  | .x => a.x
  | .y => a.y
  | .z => a.z
/-- `Kronecker<i1,i2>`, IndexTriplet.h:228-229. -/
def kronecker (i j : Int) : Int := if i = j then 1 else 0
/-- `Add`, IndexTriplet.h:267-273. -/
def tAdd (a b : IntVec) : IntVec := ⟨a.x + b.x, a.y + b.y, a.z + b.z⟩
/-- `Subtract`, IndexTriplet.h:288-294. -/
def tSub (a b : IntVec) : IntVec := ⟨a.x - b.x, a.y - b.y, a.z - b.z⟩
/-- `Multiply`, IndexTriplet.h:309-315. -/
def tMul (a b : IntVec) : IntVec := ⟨a.x * b.x, a.y * b.y, a.z * b.z⟩
/-- `LessThan`, IndexTriplet.h:330-336. -/
def lessThan (a b : IntVec) : IntVec := ⟨lThan a.x b.x, lThan a.y b.y, lThan a.z b.z⟩
/-- `GreaterThan`, IndexTriplet.h:351-357. -/
def greaterThan (a b : IntVec) : IntVec := ⟨gThan a.x b.x, gThan a.y b.y, gThan a.z b.z⟩
/-- `GetNonzeroDir<IT>`, IndexTriplet.h:366-373: outer `none` is a compile error, inner
`none` is `NODIR`. -/
def getNonzeroDir (a : IntVec) : Option (Option Dir) :=
  if a = ⟨1, 0, 0⟩ then some (some .x) else if a = ⟨-1, 0, 0⟩ then some (some .x)
  else if a = ⟨0, 1, 0⟩ then some (some .y) else if a = ⟨0, -1, 0⟩ then some (some .y)
  else if a = ⟨0, 0, 1⟩ then some (some .z) else if a = ⟨0, 0, -1⟩ then some (some .z)
  else if a = ⟨0, 0, 0⟩ then some none else none

/-! ## Field types -/

/-- The field types on the structured mesh, FVStaggeredFieldTypes.h:58-125 (and
`SingleValueField`, 134). -/
inductive FieldType where
  | sVol | sSurfX | sSurfY | sSurfZ
  | xVol | xSurfX | xSurfY | xSurfZ
  | yVol | ySurfX | ySurfY | ySurfZ
  | zVol | zSurfX | zSurfY | zSurfZ
  | singleValue
  deriving DecidableEq, Repr

namespace FieldType

/-- `Location::Offset`, FVStaggeredLocationTypes.h:66-129. -/
def offset : FieldType → IntVec
  | .sVol => ⟨0, 0, 0⟩
  | .sSurfX => ⟨-1, 0, 0⟩
  | .sSurfY => ⟨0, -1, 0⟩
  | .sSurfZ => ⟨0, 0, -1⟩
  | .xVol => ⟨-1, 0, 0⟩
  | .xSurfX => ⟨0, 0, 0⟩
  | .xSurfY => ⟨-1, -1, 0⟩
  | .xSurfZ => ⟨-1, 0, -1⟩
  | .yVol => ⟨0, -1, 0⟩
  | .ySurfX => ⟨-1, -1, 0⟩
  | .ySurfY => ⟨0, 0, 0⟩
  | .ySurfZ => ⟨0, -1, -1⟩
  | .zVol => ⟨0, 0, -1⟩
  | .zSurfX => ⟨-1, 0, -1⟩
  | .zSurfY => ⟨0, -1, -1⟩
  | .zSurfZ => ⟨0, 0, 0⟩
  | .singleValue => ⟨0, 0, 0⟩

/-- `Location::BCExtra`, FVStaggeredLocationTypes.h:66-129. -/
def bcExtra : FieldType → IntVec
  | .sVol => ⟨0, 0, 0⟩
  | .sSurfX => ⟨1, 0, 0⟩
  | .sSurfY => ⟨0, 1, 0⟩
  | .sSurfZ => ⟨0, 0, 1⟩
  | .xVol => ⟨1, 0, 0⟩
  | .xSurfX => ⟨0, 0, 0⟩
  | .xSurfY => ⟨0, 1, 0⟩
  | .xSurfZ => ⟨0, 0, 1⟩
  | .yVol => ⟨0, 1, 0⟩
  | .ySurfX => ⟨1, 0, 0⟩
  | .ySurfY => ⟨0, 0, 0⟩
  | .ySurfZ => ⟨0, 0, 1⟩
  | .zVol => ⟨0, 0, 1⟩
  | .zSurfX => ⟨1, 0, 0⟩
  | .zSurfY => ⟨0, 1, 0⟩
  | .zSurfZ => ⟨0, 0, 0⟩
  | .singleValue => ⟨0, 0, 0⟩

/-- `Location::FaceDir`, FVStaggeredLocationTypes.h:66-129; `none` is `NODIR`. -/
def faceDir : FieldType → Option Dir
  | .sSurfX | .xSurfX | .ySurfX | .zSurfX => some .x
  | .sSurfY | .xSurfY | .ySurfY | .zSurfY => some .y
  | .sSurfZ | .xSurfZ | .ySurfZ | .zSurfZ => some .z
  | .sVol | .xVol | .yVol | .zVol | .singleValue => none

/-- `FaceTypes<CellFieldT>::XFace/YFace/ZFace`, FVStaggeredFieldTypes.h:152-180. -/
def face : FieldType → Dir → Option FieldType
  | .sVol, .x => some .sSurfX
  | .sVol, .y => some .sSurfY
  | .sVol, .z => some .sSurfZ
  | .xVol, .x => some .xSurfX
  | .xVol, .y => some .xSurfY
  | .xVol, .z => some .xSurfZ
  | .yVol, .x => some .ySurfX
  | .yVol, .y => some .ySurfY
  | .yVol, .z => some .ySurfZ
  | .zVol, .x => some .zSurfX
  | .zVol, .y => some .zSurfY
  | .zVol, .z => some .zSurfZ
  | _, _ => none

/-- `VolType<FaceT>::VolField`, FVStaggeredFieldTypes.h:207-223. -/
def volType : FieldType → Option FieldType
  | .sSurfX | .sSurfY | .sSurfZ => some .sVol
  | .xSurfX | .xSurfY | .xSurfZ => some .xVol
  | .ySurfX | .ySurfY | .ySurfZ => some .yVol
  | .zSurfX | .zSurfY | .zSurfZ => some .zVol
  | _ => none

end FieldType

/-- `IndexStagger<FieldT,DirT>`, IndexTriplet.h:247-250. -/
def indexStagger (f : FieldType) (d : Dir) : Int := extract f.offset d

/-! ## Stencil points -/

/-- The points of a collection given in the order they are added, NEBO_FIRST_IJK and
NEBO_ADD_IJK, NeboStencilBuilder.h:43-53. -/
def mkPts {α : Type} (first : α) (rest : List α) : Pts α := rest.foldl .more (.one first)

/-- `Stencil2Collection`, NeboStencilBuilder.h:135-148. -/
def stencil2 (src dest : IntVec) : Pts IntVec :=
  mkPts (negate (greaterThan src dest)) [lessThan src dest]

/-- `Stencil4Collection`, NeboStencilBuilder.h:150-205. -/
def stencil4 (src dest : IntVec) : Pts IntVec :=
  let firstDir := if src.x ≠ dest.x then (⟨1, 0, 0⟩ : IntVec) else ⟨0, 1, 0⟩
  let secondDir := if src.z ≠ dest.z then (⟨0, 0, 1⟩ : IntVec) else ⟨0, 1, 0⟩
  let lo1 := negate (greaterThan (tMul src firstDir) (tMul dest firstDir))
  let hi1 := lessThan (tMul src firstDir) (tMul dest firstDir)
  let lo2 := negate (greaterThan (tMul src secondDir) (tMul dest secondDir))
  let hi2 := lessThan (tMul src secondDir) (tMul dest secondDir)
  mkPts (tAdd lo1 lo2) [tAdd hi1 lo2, tAdd lo1 hi2, tAdd hi1 hi2]

/-- `FDStencilCollection`, NeboStencilBuilder.h:207-214. -/
def fdStencil (d : Dir) : Pts IntVec := mkPts (negate (unitTriplet d)) [unitTriplet d]

/-- `NullStencilCollection`, NeboStencilBuilder.h:281-283. -/
def nullStencil : Pts IntVec := mkPts ⟨0, 0, 0⟩ []

/-- `BoxFilter3DStencilCollection`, NeboStencilBuilder.h:358-369. -/
def box3D : Pts IntVec :=
  mkPts ⟨-1, -1, -1⟩ [⟨0, -1, -1⟩, ⟨1, -1, -1⟩, ⟨-1, 0, -1⟩, ⟨0, 0, -1⟩, ⟨1, 0, -1⟩, ⟨-1, 1, -1⟩,
    ⟨0, 1, -1⟩, ⟨1, 1, -1⟩, ⟨-1, -1, 0⟩, ⟨0, -1, 0⟩, ⟨1, -1, 0⟩, ⟨-1, 0, 0⟩,
    ⟨0, 0, 0⟩, ⟨1, 0, 0⟩, ⟨-1, 1, 0⟩, ⟨0, 1, 0⟩, ⟨1, 1, 0⟩, ⟨-1, -1, 1⟩,
    ⟨0, -1, 1⟩, ⟨1, -1, 1⟩, ⟨-1, 0, 1⟩, ⟨0, 0, 1⟩, ⟨1, 0, 1⟩, ⟨-1, 1, 1⟩,
    ⟨0, 1, 1⟩, ⟨1, 1, 1⟩]

/-- `BoxFilter2DXYStencilCollection`, NeboStencilBuilder.h:371-376. -/
def box2DXY : Pts IntVec :=
  mkPts ⟨-1, -1, 0⟩ [⟨0, -1, 0⟩, ⟨1, -1, 0⟩, ⟨-1, 0, 0⟩, ⟨0, 0, 0⟩, ⟨1, 0, 0⟩, ⟨-1, 1, 0⟩,
    ⟨0, 1, 0⟩, ⟨1, 1, 0⟩]

/-- `BoxFilter2DXZStencilCollection`, NeboStencilBuilder.h:378-383. -/
def box2DXZ : Pts IntVec :=
  mkPts ⟨-1, 0, -1⟩ [⟨0, 0, -1⟩, ⟨1, 0, -1⟩, ⟨-1, 0, 0⟩, ⟨0, 0, 0⟩, ⟨1, 0, 0⟩, ⟨-1, 0, 1⟩,
    ⟨0, 0, 1⟩, ⟨1, 0, 1⟩]

/-- `BoxFilter2DYZStencilCollection`, NeboStencilBuilder.h:385-390. -/
def box2DYZ : Pts IntVec :=
  mkPts ⟨0, -1, -1⟩ [⟨0, 0, -1⟩, ⟨0, 1, -1⟩, ⟨0, -1, 0⟩, ⟨0, 0, 0⟩, ⟨0, 1, 0⟩, ⟨0, -1, 1⟩,
    ⟨0, 0, 1⟩, ⟨0, 1, 1⟩]

/-- `BoxFilter1DXStencilCollection`, NeboStencilBuilder.h:392-395. -/
def box1DX : Pts IntVec :=
  mkPts ⟨-1, 0, 0⟩ [⟨0, 0, 0⟩, ⟨1, 0, 0⟩]

/-- `BoxFilter1DYStencilCollection`, NeboStencilBuilder.h:397-400. -/
def box1DY : Pts IntVec :=
  mkPts ⟨0, -1, 0⟩ [⟨0, 0, 0⟩, ⟨0, 1, 0⟩]

/-- `BoxFilter1DZStencilCollection`, NeboStencilBuilder.h:402-405. -/
def box1DZ : Pts IntVec :=
  mkPts ⟨0, 0, -1⟩ [⟨0, 0, 0⟩, ⟨0, 0, 1⟩]

/-- `MaskShiftPoints::MinusPoint`, NeboStencilBuilder.h:407-419. -/
def maskMinus (src dest : IntVec) : IntVec := lessThan src dest
/-- `MaskShiftPoints::PlusPoint`, NeboStencilBuilder.h:407-419. -/
def maskPlus (src dest : IntVec) : IntVec := negate (greaterThan src dest)

/-! ## Coefficients -/

section
variable {K : Type}

/-- `length` of a collection, NeboStencils.h:158. -/
def len {α : Type} : Pts α → Nat
  | .one _ => 1
  | .more e _ => len e + 1

/-- `NeboStencilCoefCollection<Length>::get_coef`, NeboStencils.h:44-66 and, for length
one, 92-112. -/
def getCoef : Pts K → Int → Outcome K
  | .one c, i => do
    Outcome.throwIf (i < 0)
    Outcome.throwIf (i > 1)
    return c
  | .more e c, i => do
    Outcome.throwIf (i < 0)
    Outcome.throwIf (i ≥ (len e + 1 : Nat))
    if i = ((len e + 1 : Nat) : Int) - 1 then return c else getCoef e i

/-- `build_coef_collection`, NeboStencils.h:120-123. -/
def coef1 (c : K) : Pts K := .one c
/-- `operator()(c)`: one more coefficient, NeboStencils.h:37-40, 85-87. -/
def addCoef (cs : Pts K) (c : K) : Pts K := .more cs c
/-- `build_two_point_coef_collection`, NeboStencils.h:125-132. -/
def coef2 (c1 c2 : K) : Pts K := addCoef (coef1 c1) c2
/-- `build_four_point_coef_collection`, NeboStencils.h:134-147. -/
def coef4 (c1 c2 c3 c4 : K) : Pts K := addCoef (addCoef (addCoef (coef1 c1) c2) c3) c4

/-- The points paired with the coefficients as `in_sq_construct` pairs them: the last
point with the last coefficient, then the earlier ones, NeboStencils.h:186-230. `none`:
different lengths, which the C++ types exclude (`CoefCollection`,
NeboStencilBuilder.h:73-74). -/
def pair : Pts IntVec → Pts K → Option (Pts (IntVec × K))
  | .one p, .one c => some (.one (p, c))
  | .more ps p, .more cs c => (pair ps cs).map fun e => .more e (p, c)
  | _, _ => none

end

/-! ## Operator types -/

deriving instance DecidableEq for Pts

/-- The operator tags, SpatialOpsDefs.h:75-134 (`Restriction` has no operators). -/
inductive Tag where
  | interpolant | gradient | divergence | filter
  | interpolantD (d : Dir) | gradientD (d : Dir)
  deriving DecidableEq, Repr

/-- The C++ operator types: `NeboStencilBuilder<OP, Points, Src, Dest>`,
NeboStencilBuilder.h:66-131; `NeboSumStencilBuilder<Points, Src, Dest>`, 224-279;
`NeboAverageStencilBuilder<Points, Src, Dest>`, 293-356. -/
inductive OpType where
  | coefs (op : Tag) (pts : Pts IntVec) (src dest : FieldType)
  | sum (pts : Pts IntVec) (src dest : FieldType)
  | average (pts : Pts IntVec) (src dest : FieldType)
  deriving DecidableEq

/-- The source and destination pairs given the `Stencil2Collection` for `Interpolant` and
`Gradient` outside BASIC_OPTYPE_BUILDER, FVStaggeredOperatorTypes.h:158-189. -/
def stencil2Pairs : List (FieldType × FieldType) :=
  [(.xVol, .ySurfX), (.xVol, .zSurfX), (.yVol, .xSurfY), (.yVol, .zSurfY),
   (.zVol, .xSurfZ), (.zVol, .ySurfZ), (.sVol, .xVol), (.sVol, .yVol), (.sVol, .zVol),
   (.xVol, .sVol), (.yVol, .sVol), (.zVol, .sVol)]

/-- NULL_OP_BUILDER uses, FVStaggeredOperatorTypes.h:201-211. -/
def nullPairs : List (FieldType × FieldType) :=
  [(.xVol, .sSurfX), (.yVol, .sSurfY), (.zVol, .sSurfZ),
   (.sVol, .xSurfX), (.sVol, .ySurfY), (.sVol, .zSurfZ),
   (.xSurfX, .sVol), (.ySurfY, .sVol), (.zSurfZ, .sVol)]

/-- `Stencil4Collection` uses, FVStaggeredOperatorTypes.h:213-234. -/
def stencil4Pairs : List (FieldType × FieldType) :=
  [(.sVol, .xSurfY), (.sVol, .xSurfZ), (.sVol, .ySurfX), (.sVol, .ySurfZ),
   (.sVol, .zSurfX), (.sVol, .zSurfY),
   (.xSurfY, .sVol), (.xSurfZ, .sVol), (.ySurfX, .sVol), (.ySurfZ, .sVol),
   (.zSurfX, .sVol), (.zSurfY, .sVol),
   (.xVol, .yVol), (.xVol, .zVol), (.yVol, .xVol), (.yVol, .zVol), (.zVol, .xVol), (.zVol, .yVol)]

/-- The volumes BASIC_OPTYPE_BUILDER, AVE_OP_BUILDER and FD_ALL_VOL_FIELDS are used with,
FVStaggeredOperatorTypes.h:152-155, 245-248, 260-264. -/
def volumes : List FieldType := [.sVol, .xVol, .yVol, .zVol]

/-- `f` is a face of the volume `v`, FVStaggeredFieldTypes.h:152-180. -/
def isFaceOf (v f : FieldType) : Bool :=
  v.face .x == some f || v.face .y == some f || v.face .z == some f

/-- `OP_BUILDER(STYLE, OP, SRC, DEST)`, FVStaggeredOperatorTypes.h:111-119. -/
def opBuilder (style : IntVec → IntVec → Pts IntVec) (op : Tag) (src dest : FieldType) : OpType :=
  .coefs op (style src.offset dest.offset) src dest

/-- `OperatorTypeBuilder<OpT,SrcT,DestT>::type`, FVStaggeredOperatorTypes.h:62-271. Explicit
specialisations come before the partial one for `Interpolant` with equal fields (66-71). -/
def operatorType (op : Tag) (src dest : FieldType) : Option OpType :=
  match op with
  | .interpolant =>
    if (src ∈ volumes ∧ isFaceOf src dest) ∨ (dest ∈ volumes ∧ isFaceOf dest src) ∨
        (src, dest) ∈ stencil2Pairs then some (opBuilder stencil2 op src dest)
    else if (src, dest) ∈ nullPairs then some (.sum nullStencil src dest)
    else if (src, dest) ∈ stencil4Pairs then some (opBuilder stencil4 op src dest)
    else if src = dest then some (.sum nullStencil src dest)
    else none
  | .gradient =>
    if (src ∈ volumes ∧ isFaceOf src dest) ∨ (src, dest) ∈ stencil2Pairs then
      some (opBuilder stencil2 op src dest)
    else none
  | .divergence =>
    if dest ∈ volumes ∧ isFaceOf dest src then some (opBuilder stencil2 op src dest) else none
  | .filter => if src = dest ∧ src ∈ volumes then some (.average box3D src dest) else none
  | .interpolantD d | .gradientD d =>
    if src = dest ∧ src ∈ volumes then some (.coefs op (fdStencil d) src dest) else none

/-! ## build_stencils -/

/-- The coefficient collections of `build_stencils`, StencilBuilder.cpp:64-71; `absent`: the
operator's constructor takes no coefficients. -/
inductive Coef where
  | half | per (d : Dir) | quarter | halfPer (d : Dir) | absent
  deriving DecidableEq, Repr

/-- `new OperatorTypeBuilder<op,src,dest>::type(coef)` handed to `register_new_operator`,
StencilBuilder.cpp:35-46, 81-197. -/
structure Reg where
  op : Tag
  src : FieldType
  dest : FieldType
  coef : Coef
  deriving DecidableEq, Repr

/-- REG_BASIC_OP_TYPES with BasicOpTypes, StencilBuilder.cpp:32-47 and
FVStaggeredOperatorTypes.h:134-149; `fx`, `fy`, `fz` are the faces of `vol`. -/
def regBasic (vol fx fy fz : FieldType) : List Reg :=
  [⟨.interpolant, vol, fx, .half⟩, ⟨.interpolant, vol, fy, .half⟩, ⟨.interpolant, vol, fz, .half⟩,
   ⟨.interpolant, fx, vol, .half⟩, ⟨.interpolant, fy, vol, .half⟩, ⟨.interpolant, fz, vol, .half⟩,
   ⟨.gradient, vol, fx, .per .x⟩, ⟨.gradient, vol, fy, .per .y⟩, ⟨.gradient, vol, fz, .per .z⟩,
   ⟨.divergence, fx, vol, .per .x⟩, ⟨.divergence, fy, vol, .per .y⟩, ⟨.divergence, fz, vol, .per .z⟩]

/-- REG_BASIC_OP_TYPES(VOL) with `FaceTypes<VOL>`, StencilBuilder.cpp:76-79. -/
def regBasicOf (vol : FieldType) : List Reg :=
  match vol.face .x, vol.face .y, vol.face .z with
  | some fx, some fy, some fz => regBasic vol fx fy fz
  | _, _, _ => []

/-- The registrations of `build_stencils` in order, StencilBuilder.cpp:76-197. -/
def registrations : List Reg :=
  regBasicOf .sVol ++ regBasicOf .xVol ++ regBasicOf .yVol ++ regBasicOf .zVol ++
  [⟨.interpolant, .xVol, .ySurfX, .half⟩, ⟨.gradient, .xVol, .ySurfX, .per .y⟩,
   ⟨.interpolant, .xVol, .zSurfX, .half⟩, ⟨.gradient, .xVol, .zSurfX, .per .z⟩,
   ⟨.interpolant, .yVol, .xSurfY, .half⟩, ⟨.gradient, .yVol, .xSurfY, .per .x⟩,
   ⟨.interpolant, .yVol, .zSurfY, .half⟩, ⟨.gradient, .yVol, .zSurfY, .per .z⟩,
   ⟨.interpolant, .zVol, .xSurfZ, .half⟩, ⟨.gradient, .zVol, .xSurfZ, .per .x⟩,
   ⟨.interpolant, .zVol, .ySurfZ, .half⟩, ⟨.gradient, .zVol, .ySurfZ, .per .y⟩,
   ⟨.interpolant, .sVol, .xVol, .half⟩, ⟨.gradient, .sVol, .xVol, .per .x⟩,
   ⟨.interpolant, .sVol, .yVol, .half⟩, ⟨.gradient, .sVol, .yVol, .per .y⟩,
   ⟨.interpolant, .sVol, .zVol, .half⟩, ⟨.gradient, .sVol, .zVol, .per .z⟩,
   ⟨.interpolant, .xVol, .sVol, .half⟩, ⟨.gradient, .xVol, .sVol, .per .x⟩,
   ⟨.interpolant, .yVol, .sVol, .half⟩, ⟨.gradient, .yVol, .sVol, .per .y⟩,
   ⟨.interpolant, .zVol, .sVol, .half⟩, ⟨.gradient, .zVol, .sVol, .per .z⟩,
   ⟨.interpolant, .sVol, .sVol, .absent⟩, ⟨.interpolant, .xVol, .xVol, .absent⟩,
   ⟨.interpolant, .yVol, .yVol, .absent⟩, ⟨.interpolant, .zVol, .zVol, .absent⟩,
   ⟨.interpolant, .xVol, .sSurfX, .absent⟩, ⟨.interpolant, .yVol, .sSurfY, .absent⟩,
   ⟨.interpolant, .zVol, .sSurfZ, .absent⟩, ⟨.interpolant, .sVol, .xSurfX, .absent⟩,
   ⟨.interpolant, .sVol, .ySurfY, .absent⟩, ⟨.interpolant, .sVol, .zSurfZ, .absent⟩,
   ⟨.interpolant, .xSurfX, .sVol, .absent⟩, ⟨.interpolant, .ySurfY, .sVol, .absent⟩,
   ⟨.interpolant, .zSurfZ, .sVol, .absent⟩, ⟨.interpolant, .sVol, .xSurfY, .quarter⟩,
   ⟨.interpolant, .sVol, .xSurfZ, .quarter⟩, ⟨.interpolant, .sVol, .ySurfX, .quarter⟩,
   ⟨.interpolant, .sVol, .ySurfZ, .quarter⟩, ⟨.interpolant, .sVol, .zSurfX, .quarter⟩,
   ⟨.interpolant, .sVol, .zSurfY, .quarter⟩, ⟨.interpolant, .xSurfY, .sVol, .quarter⟩,
   ⟨.interpolant, .xSurfZ, .sVol, .quarter⟩, ⟨.interpolant, .ySurfX, .sVol, .quarter⟩,
   ⟨.interpolant, .ySurfZ, .sVol, .quarter⟩, ⟨.interpolant, .zSurfX, .sVol, .quarter⟩,
   ⟨.interpolant, .zSurfY, .sVol, .quarter⟩, ⟨.interpolant, .xVol, .yVol, .quarter⟩,
   ⟨.interpolant, .xVol, .zVol, .quarter⟩, ⟨.interpolant, .yVol, .xVol, .quarter⟩,
   ⟨.interpolant, .yVol, .zVol, .quarter⟩, ⟨.interpolant, .zVol, .xVol, .quarter⟩,
   ⟨.interpolant, .zVol, .yVol, .quarter⟩, ⟨.filter, .sVol, .sVol, .absent⟩,
   ⟨.filter, .xVol, .xVol, .absent⟩, ⟨.filter, .yVol, .yVol, .absent⟩,
   ⟨.filter, .zVol, .zVol, .absent⟩, ⟨.interpolantD .x, .sVol, .sVol, .half⟩,
   ⟨.interpolantD .y, .sVol, .sVol, .half⟩, ⟨.interpolantD .z, .sVol, .sVol, .half⟩,
   ⟨.gradientD .x, .sVol, .sVol, .halfPer .x⟩, ⟨.gradientD .y, .sVol, .sVol, .halfPer .y⟩,
   ⟨.gradientD .z, .sVol, .sVol, .halfPer .z⟩, ⟨.interpolantD .x, .xVol, .xVol, .half⟩,
   ⟨.interpolantD .y, .xVol, .xVol, .half⟩, ⟨.interpolantD .z, .xVol, .xVol, .half⟩,
   ⟨.gradientD .x, .xVol, .xVol, .halfPer .x⟩, ⟨.gradientD .y, .xVol, .xVol, .halfPer .y⟩,
   ⟨.gradientD .z, .xVol, .xVol, .halfPer .z⟩, ⟨.interpolantD .x, .yVol, .yVol, .half⟩,
   ⟨.interpolantD .y, .yVol, .yVol, .half⟩, ⟨.interpolantD .z, .yVol, .yVol, .half⟩,
   ⟨.gradientD .x, .yVol, .yVol, .halfPer .x⟩, ⟨.gradientD .y, .yVol, .yVol, .halfPer .y⟩,
   ⟨.gradientD .z, .yVol, .yVol, .halfPer .z⟩, ⟨.interpolantD .x, .zVol, .zVol, .half⟩,
   ⟨.interpolantD .y, .zVol, .zVol, .half⟩, ⟨.interpolantD .z, .zVol, .zVol, .half⟩,
   ⟨.gradientD .x, .zVol, .zVol, .halfPer .x⟩, ⟨.gradientD .y, .zVol, .zVol, .halfPer .y⟩,
   ⟨.gradientD .z, .zVol, .zVol, .halfPer .z⟩]

section
variable {K : Type} [NatCast K] [One K] [Neg K] [Mul K] [Div K]

/-- The mesh spacing `Lx/nx`, `Ly/ny`, `Lz/nz`, StencilBuilder.cpp:59-61. -/
def spacing (n : Dir → Nat) (L : Dir → K) (d : Dir) : K := L d / (n d : K)

/-- The coefficient collections, StencilBuilder.cpp:64-71. -/
def Coef.build (h : Dir → K) : Coef → Option (Pts K)
  | .half => some (coef2 (1 / 2) (1 / 2))
  | .per d => some (coef2 (-1 / h d) (1 / h d))
  | .quarter => some (coef4 (1 / 4) (1 / 4) (1 / 4) (1 / 4))
  | .halfPer d => some (coef2 (-(1 / 2) / h d) (1 / 2 / h d))
  | .absent => none

/-- Applying an operator of type `t` with coefficients `cs` to an expression:
NeboStencilBuilder::operator(), NeboStencilBuilder.h:114-128; NeboSumStencilBuilder, 262-278;
NeboAverageStencilBuilder, 333-355. `none`: the constructor does not take these
coefficients (does not compile). -/
def OpType.apply (t : OpType) (cs : Option (Pts K)) (arg : Expr K .num) : Option (Expr K .num) :=
  match t, cs with
  | .coefs _ pts _ _, some cs => (pair pts cs).map fun ps => .stencil ps arg
  | .sum pts _ _, none => some (.sumStencil pts arg)
  | .average pts _ _, none =>
    some (.bin (s := .num) (t := .num) (fun a b : K => a * b) (.sumStencil pts arg) (.scalar (t := .num) (1 / (len pts : K))))
  | _, _ => none

/-- The expression `op(arg)` for the operator of registration `r`,
StencilBuilder.cpp:51-198. -/
def Reg.apply (h : Dir → K) (r : Reg) (arg : Expr K .num) : Option (Expr K .num) :=
  (operatorType r.op r.src r.dest).bind fun t => t.apply (r.coef.build h) arg

end

/-- The C++ type of a registration's operator, StencilBuilder.cpp:76-197. -/
def Reg.type (r : Reg) : Option OpType := operatorType r.op r.src r.dest

/-- `build_stencils`: the calls it makes on the database, StencilBuilder.cpp:51-198. The
`i`-th operator created lives at `ptr i`; the key is the operator's type. -/
def buildStencils (ptr : Nat → Nat) : List (OpDb.Call (Option OpType)) :=
  registrations.zipIdx.map fun ri => .register ri.1.type (ptr ri.2)

end Stencil
end SpatialOps
