import Verif.NeboOps.Model

/-!
# Operator tables

Written by a script that parses spatialops/NeboOperators.h (14419 lines, itself
generated); the script stops on anything it does not recognise. Every entry ends
with the lines of NeboOperators.h it was read from.
-/

namespace SpatialOps
namespace NeboOps

/-- The members of each operator struct. NeboOperators.h:29-14300. -/
def members : Node → Members
  -- NeboOperators.h:32-230
  | .sumOp => { arity := 2, toSeq := [1, 2], toResize := [1, 2], resizeToSeq := [1, 2], toGpu := [1, 2], toRed := [1, 2], ctorInitial := [1, 2], ctorResize := [1, 2], ctorSeq := [1, 2], ctorGpu := [1, 2], ctorRed := [1, 2], evalSeq := .bin .add (.slot 1) (.slot 2), evalGpu := .bin .add (.slot 1) (.slot 2), evalRed := .bin .add (.slot 1) (.slot 2), boolean := false }
  -- NeboOperators.h:817-1015
  | .diffOp => { arity := 2, toSeq := [1, 2], toResize := [1, 2], resizeToSeq := [1, 2], toGpu := [1, 2], toRed := [1, 2], ctorInitial := [1, 2], ctorResize := [1, 2], ctorSeq := [1, 2], ctorGpu := [1, 2], ctorRed := [1, 2], evalSeq := .bin .sub (.slot 1) (.slot 2), evalGpu := .bin .sub (.slot 1) (.slot 2), evalRed := .bin .sub (.slot 1) (.slot 2), boolean := false }
  -- NeboOperators.h:1602-1800
  | .prodOp => { arity := 2, toSeq := [1, 2], toResize := [1, 2], resizeToSeq := [1, 2], toGpu := [1, 2], toRed := [1, 2], ctorInitial := [1, 2], ctorResize := [1, 2], ctorSeq := [1, 2], ctorGpu := [1, 2], ctorRed := [1, 2], evalSeq := .bin .mul (.slot 1) (.slot 2), evalGpu := .bin .mul (.slot 1) (.slot 2), evalRed := .bin .mul (.slot 1) (.slot 2), boolean := false }
  -- NeboOperators.h:2387-2585
  | .divOp => { arity := 2, toSeq := [1, 2], toResize := [1, 2], resizeToSeq := [1, 2], toGpu := [1, 2], toRed := [1, 2], ctorInitial := [1, 2], ctorResize := [1, 2], ctorSeq := [1, 2], ctorGpu := [1, 2], ctorRed := [1, 2], evalSeq := .bin .div (.slot 1) (.slot 2), evalGpu := .bin .div (.slot 1) (.slot 2), evalRed := .bin .div (.slot 1) (.slot 2), boolean := false }
  -- NeboOperators.h:3172-3329
  | .sinFcn => { arity := 1, toSeq := [1], toResize := [1], resizeToSeq := [1], toGpu := [1], toRed := [1], ctorInitial := [1], ctorResize := [1], ctorSeq := [1], ctorGpu := [1], ctorRed := [1], evalSeq := .un .sin (.slot 1), evalGpu := .un .sin (.slot 1), evalRed := .un .sin (.slot 1), boolean := false }
  -- NeboOperators.h:3396-3553
  | .cosFcn => { arity := 1, toSeq := [1], toResize := [1], resizeToSeq := [1], toGpu := [1], toRed := [1], ctorInitial := [1], ctorResize := [1], ctorSeq := [1], ctorGpu := [1], ctorRed := [1], evalSeq := .un .cos (.slot 1), evalGpu := .un .cos (.slot 1), evalRed := .un .cos (.slot 1), boolean := false }
  -- NeboOperators.h:3620-3777
  | .tanFcn => { arity := 1, toSeq := [1], toResize := [1], resizeToSeq := [1], toGpu := [1], toRed := [1], ctorInitial := [1], ctorResize := [1], ctorSeq := [1], ctorGpu := [1], ctorRed := [1], evalSeq := .un .tan (.slot 1), evalGpu := .un .tan (.slot 1), evalRed := .un .tan (.slot 1), boolean := false }
  -- NeboOperators.h:3844-4001
  | .expFcn => { arity := 1, toSeq := [1], toResize := [1], resizeToSeq := [1], toGpu := [1], toRed := [1], ctorInitial := [1], ctorResize := [1], ctorSeq := [1], ctorGpu := [1], ctorRed := [1], evalSeq := .un .exp (.slot 1), evalGpu := .un .exp (.slot 1), evalRed := .un .exp (.slot 1), boolean := false }
  -- NeboOperators.h:4068-4227
  | .tanhFcn => { arity := 1, toSeq := [1], toResize := [1], resizeToSeq := [1], toGpu := [1], toRed := [1], ctorInitial := [1], ctorResize := [1], ctorSeq := [1], ctorGpu := [1], ctorRed := [1], evalSeq := .un .tanh (.slot 1), evalGpu := .un .tanh (.slot 1), evalRed := .un .tanh (.slot 1), boolean := false }
  -- NeboOperators.h:4294-4451
  | .absFcn => { arity := 1, toSeq := [1], toResize := [1], resizeToSeq := [1], toGpu := [1], toRed := [1], ctorInitial := [1], ctorResize := [1], ctorSeq := [1], ctorGpu := [1], ctorRed := [1], evalSeq := .un .abs (.slot 1), evalGpu := .un .abs (.slot 1), evalRed := .un .abs (.slot 1), boolean := false }
  -- NeboOperators.h:4518-4671
  | .negFcn => { arity := 1, toSeq := [1], toResize := [1], resizeToSeq := [1], toGpu := [1], toRed := [1], ctorInitial := [1], ctorResize := [1], ctorSeq := [1], ctorGpu := [1], ctorRed := [1], evalSeq := .un .neg (.slot 1), evalGpu := .un .neg (.slot 1), evalRed := .un .neg (.slot 1), boolean := false }
  -- NeboOperators.h:4741-4939
  | .powFcn => { arity := 2, toSeq := [1, 2], toResize := [1, 2], resizeToSeq := [1, 2], toGpu := [1, 2], toRed := [1, 2], ctorInitial := [1, 2], ctorResize := [1, 2], ctorSeq := [1, 2], ctorGpu := [1, 2], ctorRed := [1, 2], evalSeq := .bin .pow (.slot 1) (.slot 2), evalGpu := .bin .pow (.slot 1) (.slot 2), evalRed := .bin .pow (.slot 1) (.slot 2), boolean := false }
  -- NeboOperators.h:5531-5690
  | .sqrtFcn => { arity := 1, toSeq := [1], toResize := [1], resizeToSeq := [1], toGpu := [1], toRed := [1], ctorInitial := [1], ctorResize := [1], ctorSeq := [1], ctorGpu := [1], ctorRed := [1], evalSeq := .un .sqrt (.slot 1), evalGpu := .un .sqrt (.slot 1), evalRed := .un .sqrt (.slot 1), boolean := false }
  -- NeboOperators.h:5757-5914
  | .logFcn => { arity := 1, toSeq := [1], toResize := [1], resizeToSeq := [1], toGpu := [1], toRed := [1], ctorInitial := [1], ctorResize := [1], ctorSeq := [1], ctorGpu := [1], ctorRed := [1], evalSeq := .un .log (.slot 1), evalGpu := .un .log (.slot 1), evalRed := .un .log (.slot 1), boolean := false }
  -- NeboOperators.h:5981-6140
  | .log10Fcn => { arity := 1, toSeq := [1], toResize := [1], resizeToSeq := [1], toGpu := [1], toRed := [1], ctorInitial := [1], ctorResize := [1], ctorSeq := [1], ctorGpu := [1], ctorRed := [1], evalSeq := .un .log10 (.slot 1), evalGpu := .un .log10 (.slot 1), evalRed := .un .log10 (.slot 1), boolean := false }
  -- NeboOperators.h:6208-6361
  | .erfFcn => { arity := 1, toSeq := [1], toResize := [1], resizeToSeq := [1], toGpu := [1], toRed := [1], ctorInitial := [1], ctorResize := [1], ctorSeq := [1], ctorGpu := [1], ctorRed := [1], evalSeq := .un .erf (.slot 1), evalGpu := .un .erf (.slot 1), evalRed := .un .erf (.slot 1), boolean := false }
  -- NeboOperators.h:6428-6583
  | .erfcFcn => { arity := 1, toSeq := [1], toResize := [1], resizeToSeq := [1], toGpu := [1], toRed := [1], ctorInitial := [1], ctorResize := [1], ctorSeq := [1], ctorGpu := [1], ctorRed := [1], evalSeq := .un .erfc (.slot 1), evalGpu := .un .erfc (.slot 1), evalRed := .un .erfc (.slot 1), boolean := false }
  -- NeboOperators.h:6650-6848
  | .equalCmp => { arity := 2, toSeq := [1, 2], toResize := [1, 2], resizeToSeq := [1, 2], toGpu := [1, 2], toRed := [1, 2], ctorInitial := [1, 2], ctorResize := [1, 2], ctorSeq := [1, 2], ctorGpu := [1, 2], ctorRed := [1, 2], evalSeq := .bin .eq (.slot 1) (.slot 2), evalGpu := .bin .eq (.slot 1) (.slot 2), evalRed := .bin .eq (.slot 1) (.slot 2), boolean := true }
  -- NeboOperators.h:7513-7711
  | .inequalCmp => { arity := 2, toSeq := [1, 2], toResize := [1, 2], resizeToSeq := [1, 2], toGpu := [1, 2], toRed := [1, 2], ctorInitial := [1, 2], ctorResize := [1, 2], ctorSeq := [1, 2], ctorGpu := [1, 2], ctorRed := [1, 2], evalSeq := .bin .ne (.slot 1) (.slot 2), evalGpu := .bin .ne (.slot 1) (.slot 2), evalRed := .bin .ne (.slot 1) (.slot 2), boolean := true }
  -- NeboOperators.h:8379-8577
  | .lessThanCmp => { arity := 2, toSeq := [1, 2], toResize := [1, 2], resizeToSeq := [1, 2], toGpu := [1, 2], toRed := [1, 2], ctorInitial := [1, 2], ctorResize := [1, 2], ctorSeq := [1, 2], ctorGpu := [1, 2], ctorRed := [1, 2], evalSeq := .bin .lt (.slot 1) (.slot 2), evalGpu := .bin .lt (.slot 1) (.slot 2), evalRed := .bin .lt (.slot 1) (.slot 2), boolean := true }
  -- NeboOperators.h:9227-9430
  | .lessThanEqualCmp => { arity := 2, toSeq := [1, 2], toResize := [1, 2], resizeToSeq := [1, 2], toGpu := [1, 2], toRed := [1, 2], ctorInitial := [1, 2], ctorResize := [1, 2], ctorSeq := [1, 2], ctorGpu := [1, 2], ctorRed := [1, 2], evalSeq := .bin .le (.slot 1) (.slot 2), evalGpu := .bin .le (.slot 1) (.slot 2), evalRed := .bin .le (.slot 1) (.slot 2), boolean := true }
  -- NeboOperators.h:10120-10319
  | .greaterThanCmp => { arity := 2, toSeq := [1, 2], toResize := [1, 2], resizeToSeq := [1, 2], toGpu := [1, 2], toRed := [1, 2], ctorInitial := [1, 2], ctorResize := [1, 2], ctorSeq := [1, 2], ctorGpu := [1, 2], ctorRed := [1, 2], evalSeq := .bin .gt (.slot 1) (.slot 2), evalGpu := .bin .gt (.slot 1) (.slot 2), evalRed := .bin .gt (.slot 1) (.slot 2), boolean := true }
  -- NeboOperators.h:10980-11188
  | .greaterThanEqualCmp => { arity := 2, toSeq := [1, 2], toResize := [1, 2], resizeToSeq := [1, 2], toGpu := [1, 2], toRed := [1, 2], ctorInitial := [1, 2], ctorResize := [1, 2], ctorSeq := [1, 2], ctorGpu := [1, 2], ctorRed := [1, 2], evalSeq := .bin .ge (.slot 1) (.slot 2), evalGpu := .bin .ge (.slot 1) (.slot 2), evalRed := .bin .ge (.slot 1) (.slot 2), boolean := true }
  -- NeboOperators.h:11888-12086
  | .andOp => { arity := 2, toSeq := [1, 2], toResize := [1, 2], resizeToSeq := [1, 2], toGpu := [1, 2], toRed := [1, 2], ctorInitial := [1, 2], ctorResize := [1, 2], ctorSeq := [1, 2], ctorGpu := [1, 2], ctorRed := [1, 2], evalSeq := .bin .and (.slot 1) (.slot 2), evalGpu := .bin .and (.slot 1) (.slot 2), evalRed := .bin .and (.slot 1) (.slot 2), boolean := true }
  -- NeboOperators.h:12268-12466
  | .orOp => { arity := 2, toSeq := [1, 2], toResize := [1, 2], resizeToSeq := [1, 2], toGpu := [1, 2], toRed := [1, 2], ctorInitial := [1, 2], ctorResize := [1, 2], ctorSeq := [1, 2], ctorGpu := [1, 2], ctorRed := [1, 2], evalSeq := .bin .or (.slot 1) (.slot 2), evalGpu := .bin .or (.slot 1) (.slot 2), evalRed := .bin .or (.slot 1) (.slot 2), boolean := true }
  -- NeboOperators.h:12646-12799
  | .notOp => { arity := 1, toSeq := [1], toResize := [1], resizeToSeq := [1], toGpu := [1], toRed := [1], ctorInitial := [1], ctorResize := [1], ctorSeq := [1], ctorGpu := [1], ctorRed := [1], evalSeq := .un .not (.slot 1), evalGpu := .un .not (.slot 1), evalRed := .un .not (.slot 1), boolean := true }
  -- NeboOperators.h:12834-13035
  | .maxFcn => { arity := 2, toSeq := [1, 2], toResize := [1, 2], resizeToSeq := [1, 2], toGpu := [1, 2], toRed := [1, 2], ctorInitial := [1, 2], ctorResize := [1, 2], ctorSeq := [1, 2], ctorGpu := [1, 2], ctorRed := [1, 2], evalSeq := .ite (.bin .gt (.slot 1) (.slot 2)) (.slot 1) (.slot 2), evalGpu := .ite (.bin .gt (.slot 1) (.slot 2)) (.slot 1) (.slot 2), evalRed := .ite (.bin .gt (.slot 1) (.slot 2)) (.slot 1) (.slot 2), boolean := false }
  -- NeboOperators.h:13627-13828
  | .minFcn => { arity := 2, toSeq := [1, 2], toResize := [1, 2], resizeToSeq := [1, 2], toGpu := [1, 2], toRed := [1, 2], ctorInitial := [1, 2], ctorResize := [1, 2], ctorSeq := [1, 2], ctorGpu := [1, 2], ctorRed := [1, 2], evalSeq := .ite (.bin .lt (.slot 1) (.slot 2)) (.slot 1) (.slot 2), evalGpu := .ite (.bin .lt (.slot 1) (.slot 2)) (.slot 1) (.slot 2), evalRed := .ite (.bin .lt (.slot 1) (.slot 2)) (.slot 1) (.slot 2), boolean := false }

/-- The overloads of `plus`. NeboOperators.h:232-812. -/
def ov_plus : List Overload := [
  { fn := .plus, params := [.scalar, .field], node := .sumOp, slots := [(.scalar, 1), (.constField, 2)], result := .expr, line := 232 },
  { fn := .plus, params := [.scalar, .expr], node := .sumOp, slots := [(.scalar, 1), (.inner, 2)], result := .expr, line := 257 },
  { fn := .plus, params := [.scalar, .single], node := .sumOp, slots := [(.scalar, 1), (.constSingle, 2)], result := .singleExpr, line := 279 },
  { fn := .plus, params := [.scalar, .singleExpr], node := .sumOp, slots := [(.scalar, 1), (.inner, 2)], result := .singleExpr, line := 307 },
  { fn := .plus, params := [.field, .scalar], node := .sumOp, slots := [(.constField, 1), (.scalar, 2)], result := .expr, line := 328 },
  { fn := .plus, params := [.field, .field], node := .sumOp, slots := [(.constField, 1), (.constField, 2)], result := .expr, line := 354 },
  { fn := .plus, params := [.field, .expr], node := .sumOp, slots := [(.constField, 1), (.inner, 2)], result := .expr, line := 381 },
  { fn := .plus, params := [.field, .single], node := .sumOp, slots := [(.constField, 1), (.constSingle, 2)], result := .expr, line := 404 },
  { fn := .plus, params := [.field, .singleExpr], node := .sumOp, slots := [(.constField, 1), (.inner, 2)], result := .expr, line := 440 },
  { fn := .plus, params := [.expr, .scalar], node := .sumOp, slots := [(.inner, 1), (.scalar, 2)], result := .expr, line := 465 },
  { fn := .plus, params := [.expr, .field], node := .sumOp, slots := [(.inner, 1), (.constField, 2)], result := .expr, line := 488 },
  { fn := .plus, params := [.expr, .expr], node := .sumOp, slots := [(.inner, 1), (.inner, 2)], result := .expr, line := 511 },
  { fn := .plus, params := [.expr, .single], node := .sumOp, slots := [(.inner, 1), (.constSingle, 2)], result := .expr, line := 523 },
  { fn := .plus, params := [.expr, .singleExpr], node := .sumOp, slots := [(.inner, 1), (.inner, 2)], result := .expr, line := 556 },
  { fn := .plus, params := [.single, .scalar], node := .sumOp, slots := [(.constSingle, 1), (.scalar, 2)], result := .singleExpr, line := 570 },
  { fn := .plus, params := [.single, .field], node := .sumOp, slots := [(.constSingle, 1), (.constField, 2)], result := .expr, line := 598 },
  { fn := .plus, params := [.single, .expr], node := .sumOp, slots := [(.constSingle, 1), (.inner, 2)], result := .expr, line := 633 },
  { fn := .plus, params := [.single, .single], node := .sumOp, slots := [(.constSingle, 1), (.constSingle, 2)], result := .singleExpr, line := 665 },
  { fn := .plus, params := [.single, .singleExpr], node := .sumOp, slots := [(.constSingle, 1), (.inner, 2)], result := .singleExpr, line := 694 },
  { fn := .plus, params := [.singleExpr, .scalar], node := .sumOp, slots := [(.inner, 1), (.scalar, 2)], result := .singleExpr, line := 718 },
  { fn := .plus, params := [.singleExpr, .field], node := .sumOp, slots := [(.inner, 1), (.constField, 2)], result := .expr, line := 739 },
  { fn := .plus, params := [.singleExpr, .expr], node := .sumOp, slots := [(.inner, 1), (.inner, 2)], result := .expr, line := 764 },
  { fn := .plus, params := [.singleExpr, .single], node := .sumOp, slots := [(.inner, 1), (.constSingle, 2)], result := .singleExpr, line := 778 },
  { fn := .plus, params := [.singleExpr, .singleExpr], node := .sumOp, slots := [(.inner, 1), (.inner, 2)], result := .singleExpr, line := 802 }]

/-- The overloads of `minus`. NeboOperators.h:1017-1597. -/
def ov_minus : List Overload := [
  { fn := .minus, params := [.scalar, .field], node := .diffOp, slots := [(.scalar, 1), (.constField, 2)], result := .expr, line := 1017 },
  { fn := .minus, params := [.scalar, .expr], node := .diffOp, slots := [(.scalar, 1), (.inner, 2)], result := .expr, line := 1042 },
  { fn := .minus, params := [.scalar, .single], node := .diffOp, slots := [(.scalar, 1), (.constSingle, 2)], result := .singleExpr, line := 1064 },
  { fn := .minus, params := [.scalar, .singleExpr], node := .diffOp, slots := [(.scalar, 1), (.inner, 2)], result := .singleExpr, line := 1092 },
  { fn := .minus, params := [.field, .scalar], node := .diffOp, slots := [(.constField, 1), (.scalar, 2)], result := .expr, line := 1113 },
  { fn := .minus, params := [.field, .field], node := .diffOp, slots := [(.constField, 1), (.constField, 2)], result := .expr, line := 1139 },
  { fn := .minus, params := [.field, .expr], node := .diffOp, slots := [(.constField, 1), (.inner, 2)], result := .expr, line := 1166 },
  { fn := .minus, params := [.field, .single], node := .diffOp, slots := [(.constField, 1), (.constSingle, 2)], result := .expr, line := 1189 },
  { fn := .minus, params := [.field, .singleExpr], node := .diffOp, slots := [(.constField, 1), (.inner, 2)], result := .expr, line := 1225 },
  { fn := .minus, params := [.expr, .scalar], node := .diffOp, slots := [(.inner, 1), (.scalar, 2)], result := .expr, line := 1250 },
  { fn := .minus, params := [.expr, .field], node := .diffOp, slots := [(.inner, 1), (.constField, 2)], result := .expr, line := 1273 },
  { fn := .minus, params := [.expr, .expr], node := .diffOp, slots := [(.inner, 1), (.inner, 2)], result := .expr, line := 1296 },
  { fn := .minus, params := [.expr, .single], node := .diffOp, slots := [(.inner, 1), (.constSingle, 2)], result := .expr, line := 1308 },
  { fn := .minus, params := [.expr, .singleExpr], node := .diffOp, slots := [(.inner, 1), (.inner, 2)], result := .expr, line := 1341 },
  { fn := .minus, params := [.single, .scalar], node := .diffOp, slots := [(.constSingle, 1), (.scalar, 2)], result := .singleExpr, line := 1355 },
  { fn := .minus, params := [.single, .field], node := .diffOp, slots := [(.constSingle, 1), (.constField, 2)], result := .expr, line := 1383 },
  { fn := .minus, params := [.single, .expr], node := .diffOp, slots := [(.constSingle, 1), (.inner, 2)], result := .expr, line := 1418 },
  { fn := .minus, params := [.single, .single], node := .diffOp, slots := [(.constSingle, 1), (.constSingle, 2)], result := .singleExpr, line := 1450 },
  { fn := .minus, params := [.single, .singleExpr], node := .diffOp, slots := [(.constSingle, 1), (.inner, 2)], result := .singleExpr, line := 1479 },
  { fn := .minus, params := [.singleExpr, .scalar], node := .diffOp, slots := [(.inner, 1), (.scalar, 2)], result := .singleExpr, line := 1503 },
  { fn := .minus, params := [.singleExpr, .field], node := .diffOp, slots := [(.inner, 1), (.constField, 2)], result := .expr, line := 1524 },
  { fn := .minus, params := [.singleExpr, .expr], node := .diffOp, slots := [(.inner, 1), (.inner, 2)], result := .expr, line := 1549 },
  { fn := .minus, params := [.singleExpr, .single], node := .diffOp, slots := [(.inner, 1), (.constSingle, 2)], result := .singleExpr, line := 1563 },
  { fn := .minus, params := [.singleExpr, .singleExpr], node := .diffOp, slots := [(.inner, 1), (.inner, 2)], result := .singleExpr, line := 1587 }]

/-- The overloads of `times`. NeboOperators.h:1802-2382. -/
def ov_times : List Overload := [
  { fn := .times, params := [.scalar, .field], node := .prodOp, slots := [(.scalar, 1), (.constField, 2)], result := .expr, line := 1802 },
  { fn := .times, params := [.scalar, .expr], node := .prodOp, slots := [(.scalar, 1), (.inner, 2)], result := .expr, line := 1827 },
  { fn := .times, params := [.scalar, .single], node := .prodOp, slots := [(.scalar, 1), (.constSingle, 2)], result := .singleExpr, line := 1849 },
  { fn := .times, params := [.scalar, .singleExpr], node := .prodOp, slots := [(.scalar, 1), (.inner, 2)], result := .singleExpr, line := 1877 },
  { fn := .times, params := [.field, .scalar], node := .prodOp, slots := [(.constField, 1), (.scalar, 2)], result := .expr, line := 1898 },
  { fn := .times, params := [.field, .field], node := .prodOp, slots := [(.constField, 1), (.constField, 2)], result := .expr, line := 1924 },
  { fn := .times, params := [.field, .expr], node := .prodOp, slots := [(.constField, 1), (.inner, 2)], result := .expr, line := 1951 },
  { fn := .times, params := [.field, .single], node := .prodOp, slots := [(.constField, 1), (.constSingle, 2)], result := .expr, line := 1974 },
  { fn := .times, params := [.field, .singleExpr], node := .prodOp, slots := [(.constField, 1), (.inner, 2)], result := .expr, line := 2010 },
  { fn := .times, params := [.expr, .scalar], node := .prodOp, slots := [(.inner, 1), (.scalar, 2)], result := .expr, line := 2035 },
  { fn := .times, params := [.expr, .field], node := .prodOp, slots := [(.inner, 1), (.constField, 2)], result := .expr, line := 2058 },
  { fn := .times, params := [.expr, .expr], node := .prodOp, slots := [(.inner, 1), (.inner, 2)], result := .expr, line := 2081 },
  { fn := .times, params := [.expr, .single], node := .prodOp, slots := [(.inner, 1), (.constSingle, 2)], result := .expr, line := 2093 },
  { fn := .times, params := [.expr, .singleExpr], node := .prodOp, slots := [(.inner, 1), (.inner, 2)], result := .expr, line := 2126 },
  { fn := .times, params := [.single, .scalar], node := .prodOp, slots := [(.constSingle, 1), (.scalar, 2)], result := .singleExpr, line := 2140 },
  { fn := .times, params := [.single, .field], node := .prodOp, slots := [(.constSingle, 1), (.constField, 2)], result := .expr, line := 2168 },
  { fn := .times, params := [.single, .expr], node := .prodOp, slots := [(.constSingle, 1), (.inner, 2)], result := .expr, line := 2203 },
  { fn := .times, params := [.single, .single], node := .prodOp, slots := [(.constSingle, 1), (.constSingle, 2)], result := .singleExpr, line := 2235 },
  { fn := .times, params := [.single, .singleExpr], node := .prodOp, slots := [(.constSingle, 1), (.inner, 2)], result := .singleExpr, line := 2264 },
  { fn := .times, params := [.singleExpr, .scalar], node := .prodOp, slots := [(.inner, 1), (.scalar, 2)], result := .singleExpr, line := 2288 },
  { fn := .times, params := [.singleExpr, .field], node := .prodOp, slots := [(.inner, 1), (.constField, 2)], result := .expr, line := 2309 },
  { fn := .times, params := [.singleExpr, .expr], node := .prodOp, slots := [(.inner, 1), (.inner, 2)], result := .expr, line := 2334 },
  { fn := .times, params := [.singleExpr, .single], node := .prodOp, slots := [(.inner, 1), (.constSingle, 2)], result := .singleExpr, line := 2348 },
  { fn := .times, params := [.singleExpr, .singleExpr], node := .prodOp, slots := [(.inner, 1), (.inner, 2)], result := .singleExpr, line := 2372 }]

/-- The overloads of `over`. NeboOperators.h:2587-3167. -/
def ov_over : List Overload := [
  { fn := .over, params := [.scalar, .field], node := .divOp, slots := [(.scalar, 1), (.constField, 2)], result := .expr, line := 2587 },
  { fn := .over, params := [.scalar, .expr], node := .divOp, slots := [(.scalar, 1), (.inner, 2)], result := .expr, line := 2612 },
  { fn := .over, params := [.scalar, .single], node := .divOp, slots := [(.scalar, 1), (.constSingle, 2)], result := .singleExpr, line := 2634 },
  { fn := .over, params := [.scalar, .singleExpr], node := .divOp, slots := [(.scalar, 1), (.inner, 2)], result := .singleExpr, line := 2662 },
  { fn := .over, params := [.field, .scalar], node := .divOp, slots := [(.constField, 1), (.scalar, 2)], result := .expr, line := 2683 },
  { fn := .over, params := [.field, .field], node := .divOp, slots := [(.constField, 1), (.constField, 2)], result := .expr, line := 2709 },
  { fn := .over, params := [.field, .expr], node := .divOp, slots := [(.constField, 1), (.inner, 2)], result := .expr, line := 2736 },
  { fn := .over, params := [.field, .single], node := .divOp, slots := [(.constField, 1), (.constSingle, 2)], result := .expr, line := 2759 },
  { fn := .over, params := [.field, .singleExpr], node := .divOp, slots := [(.constField, 1), (.inner, 2)], result := .expr, line := 2795 },
  { fn := .over, params := [.expr, .scalar], node := .divOp, slots := [(.inner, 1), (.scalar, 2)], result := .expr, line := 2820 },
  { fn := .over, params := [.expr, .field], node := .divOp, slots := [(.inner, 1), (.constField, 2)], result := .expr, line := 2843 },
  { fn := .over, params := [.expr, .expr], node := .divOp, slots := [(.inner, 1), (.inner, 2)], result := .expr, line := 2866 },
  { fn := .over, params := [.expr, .single], node := .divOp, slots := [(.inner, 1), (.constSingle, 2)], result := .expr, line := 2878 },
  { fn := .over, params := [.expr, .singleExpr], node := .divOp, slots := [(.inner, 1), (.inner, 2)], result := .expr, line := 2911 },
  { fn := .over, params := [.single, .scalar], node := .divOp, slots := [(.constSingle, 1), (.scalar, 2)], result := .singleExpr, line := 2925 },
  { fn := .over, params := [.single, .field], node := .divOp, slots := [(.constSingle, 1), (.constField, 2)], result := .expr, line := 2953 },
  { fn := .over, params := [.single, .expr], node := .divOp, slots := [(.constSingle, 1), (.inner, 2)], result := .expr, line := 2988 },
  { fn := .over, params := [.single, .single], node := .divOp, slots := [(.constSingle, 1), (.constSingle, 2)], result := .singleExpr, line := 3020 },
  { fn := .over, params := [.single, .singleExpr], node := .divOp, slots := [(.constSingle, 1), (.inner, 2)], result := .singleExpr, line := 3049 },
  { fn := .over, params := [.singleExpr, .scalar], node := .divOp, slots := [(.inner, 1), (.scalar, 2)], result := .singleExpr, line := 3073 },
  { fn := .over, params := [.singleExpr, .field], node := .divOp, slots := [(.inner, 1), (.constField, 2)], result := .expr, line := 3094 },
  { fn := .over, params := [.singleExpr, .expr], node := .divOp, slots := [(.inner, 1), (.inner, 2)], result := .expr, line := 3119 },
  { fn := .over, params := [.singleExpr, .single], node := .divOp, slots := [(.inner, 1), (.constSingle, 2)], result := .singleExpr, line := 3133 },
  { fn := .over, params := [.singleExpr, .singleExpr], node := .divOp, slots := [(.inner, 1), (.inner, 2)], result := .singleExpr, line := 3157 }]

/-- The overloads of `sin`. NeboOperators.h:3331-3391. -/
def ov_sin : List Overload := [
  { fn := .sin, params := [.field], node := .sinFcn, slots := [(.constField, 1)], result := .expr, line := 3331 },
  { fn := .sin, params := [.expr], node := .sinFcn, slots := [(.inner, 1)], result := .expr, line := 3349 },
  { fn := .sin, params := [.single], node := .sinFcn, slots := [(.constSingle, 1)], result := .singleExpr, line := 3362 },
  { fn := .sin, params := [.singleExpr], node := .sinFcn, slots := [(.inner, 1)], result := .singleExpr, line := 3380 }]

/-- The overloads of `cos`. NeboOperators.h:3555-3615. -/
def ov_cos : List Overload := [
  { fn := .cos, params := [.field], node := .cosFcn, slots := [(.constField, 1)], result := .expr, line := 3555 },
  { fn := .cos, params := [.expr], node := .cosFcn, slots := [(.inner, 1)], result := .expr, line := 3573 },
  { fn := .cos, params := [.single], node := .cosFcn, slots := [(.constSingle, 1)], result := .singleExpr, line := 3586 },
  { fn := .cos, params := [.singleExpr], node := .cosFcn, slots := [(.inner, 1)], result := .singleExpr, line := 3604 }]

/-- The overloads of `tan`. NeboOperators.h:3779-3839. -/
def ov_tan : List Overload := [
  { fn := .tan, params := [.field], node := .tanFcn, slots := [(.constField, 1)], result := .expr, line := 3779 },
  { fn := .tan, params := [.expr], node := .tanFcn, slots := [(.inner, 1)], result := .expr, line := 3797 },
  { fn := .tan, params := [.single], node := .tanFcn, slots := [(.constSingle, 1)], result := .singleExpr, line := 3810 },
  { fn := .tan, params := [.singleExpr], node := .tanFcn, slots := [(.inner, 1)], result := .singleExpr, line := 3828 }]

/-- The overloads of `exp`. NeboOperators.h:4003-4063. -/
def ov_exp : List Overload := [
  { fn := .exp, params := [.field], node := .expFcn, slots := [(.constField, 1)], result := .expr, line := 4003 },
  { fn := .exp, params := [.expr], node := .expFcn, slots := [(.inner, 1)], result := .expr, line := 4021 },
  { fn := .exp, params := [.single], node := .expFcn, slots := [(.constSingle, 1)], result := .singleExpr, line := 4034 },
  { fn := .exp, params := [.singleExpr], node := .expFcn, slots := [(.inner, 1)], result := .singleExpr, line := 4052 }]

/-- The overloads of `tanh`. NeboOperators.h:4229-4289. -/
def ov_tanh : List Overload := [
  { fn := .tanh, params := [.field], node := .tanhFcn, slots := [(.constField, 1)], result := .expr, line := 4229 },
  { fn := .tanh, params := [.expr], node := .tanhFcn, slots := [(.inner, 1)], result := .expr, line := 4247 },
  { fn := .tanh, params := [.single], node := .tanhFcn, slots := [(.constSingle, 1)], result := .singleExpr, line := 4260 },
  { fn := .tanh, params := [.singleExpr], node := .tanhFcn, slots := [(.inner, 1)], result := .singleExpr, line := 4278 }]

/-- The overloads of `abs`. NeboOperators.h:4453-4513. -/
def ov_abs : List Overload := [
  { fn := .abs, params := [.field], node := .absFcn, slots := [(.constField, 1)], result := .expr, line := 4453 },
  { fn := .abs, params := [.expr], node := .absFcn, slots := [(.inner, 1)], result := .expr, line := 4471 },
  { fn := .abs, params := [.single], node := .absFcn, slots := [(.constSingle, 1)], result := .singleExpr, line := 4484 },
  { fn := .abs, params := [.singleExpr], node := .absFcn, slots := [(.inner, 1)], result := .singleExpr, line := 4502 }]

/-- The overloads of `negate`. NeboOperators.h:4673-4736. -/
def ov_negate : List Overload := [
  { fn := .negate, params := [.field], node := .negFcn, slots := [(.constField, 1)], result := .expr, line := 4673 },
  { fn := .negate, params := [.expr], node := .negFcn, slots := [(.inner, 1)], result := .expr, line := 4691 },
  { fn := .negate, params := [.single], node := .negFcn, slots := [(.constSingle, 1)], result := .singleExpr, line := 4705 },
  { fn := .negate, params := [.singleExpr], node := .negFcn, slots := [(.inner, 1)], result := .singleExpr, line := 4724 }]

/-- The overloads of `pow`. NeboOperators.h:4941-5526. -/
def ov_pow : List Overload := [
  { fn := .pow, params := [.scalar, .field], node := .powFcn, slots := [(.scalar, 1), (.constField, 2)], result := .expr, line := 4941 },
  { fn := .pow, params := [.scalar, .expr], node := .powFcn, slots := [(.scalar, 1), (.inner, 2)], result := .expr, line := 4966 },
  { fn := .pow, params := [.scalar, .single], node := .powFcn, slots := [(.scalar, 1), (.constSingle, 2)], result := .singleExpr, line := 4987 },
  { fn := .pow, params := [.scalar, .singleExpr], node := .powFcn, slots := [(.scalar, 1), (.inner, 2)], result := .singleExpr, line := 5014 },
  { fn := .pow, params := [.field, .scalar], node := .powFcn, slots := [(.constField, 1), (.scalar, 2)], result := .expr, line := 5035 },
  { fn := .pow, params := [.field, .field], node := .powFcn, slots := [(.constField, 1), (.constField, 2)], result := .expr, line := 5061 },
  { fn := .pow, params := [.field, .expr], node := .powFcn, slots := [(.constField, 1), (.inner, 2)], result := .expr, line := 5088 },
  { fn := .pow, params := [.field, .single], node := .powFcn, slots := [(.constField, 1), (.constSingle, 2)], result := .expr, line := 5110 },
  { fn := .pow, params := [.field, .singleExpr], node := .powFcn, slots := [(.constField, 1), (.inner, 2)], result := .expr, line := 5145 },
  { fn := .pow, params := [.expr, .scalar], node := .powFcn, slots := [(.inner, 1), (.scalar, 2)], result := .expr, line := 5170 },
  { fn := .pow, params := [.expr, .field], node := .powFcn, slots := [(.inner, 1), (.constField, 2)], result := .expr, line := 5192 },
  { fn := .pow, params := [.expr, .expr], node := .powFcn, slots := [(.inner, 1), (.inner, 2)], result := .expr, line := 5214 },
  { fn := .pow, params := [.expr, .single], node := .powFcn, slots := [(.inner, 1), (.constSingle, 2)], result := .expr, line := 5233 },
  { fn := .pow, params := [.expr, .singleExpr], node := .powFcn, slots := [(.inner, 1), (.inner, 2)], result := .expr, line := 5264 },
  { fn := .pow, params := [.single, .scalar], node := .powFcn, slots := [(.constSingle, 1), (.scalar, 2)], result := .singleExpr, line := 5285 },
  { fn := .pow, params := [.single, .field], node := .powFcn, slots := [(.constSingle, 1), (.constField, 2)], result := .expr, line := 5312 },
  { fn := .pow, params := [.single, .expr], node := .powFcn, slots := [(.constSingle, 1), (.inner, 2)], result := .expr, line := 5346 },
  { fn := .pow, params := [.single, .single], node := .powFcn, slots := [(.constSingle, 1), (.constSingle, 2)], result := .singleExpr, line := 5376 },
  { fn := .pow, params := [.single, .singleExpr], node := .powFcn, slots := [(.constSingle, 1), (.inner, 2)], result := .singleExpr, line := 5403 },
  { fn := .pow, params := [.singleExpr, .scalar], node := .powFcn, slots := [(.inner, 1), (.scalar, 2)], result := .singleExpr, line := 5426 },
  { fn := .pow, params := [.singleExpr, .field], node := .powFcn, slots := [(.inner, 1), (.constField, 2)], result := .expr, line := 5447 },
  { fn := .pow, params := [.singleExpr, .expr], node := .powFcn, slots := [(.inner, 1), (.inner, 2)], result := .expr, line := 5472 },
  { fn := .pow, params := [.singleExpr, .single], node := .powFcn, slots := [(.inner, 1), (.constSingle, 2)], result := .singleExpr, line := 5493 },
  { fn := .pow, params := [.singleExpr, .singleExpr], node := .powFcn, slots := [(.inner, 1), (.inner, 2)], result := .singleExpr, line := 5516 }]

/-- The overloads of `sqrt`. NeboOperators.h:5692-5752. -/
def ov_sqrt : List Overload := [
  { fn := .sqrt, params := [.field], node := .sqrtFcn, slots := [(.constField, 1)], result := .expr, line := 5692 },
  { fn := .sqrt, params := [.expr], node := .sqrtFcn, slots := [(.inner, 1)], result := .expr, line := 5710 },
  { fn := .sqrt, params := [.single], node := .sqrtFcn, slots := [(.constSingle, 1)], result := .singleExpr, line := 5723 },
  { fn := .sqrt, params := [.singleExpr], node := .sqrtFcn, slots := [(.inner, 1)], result := .singleExpr, line := 5741 }]

/-- The overloads of `log`. NeboOperators.h:5916-5976. -/
def ov_log : List Overload := [
  { fn := .log, params := [.field], node := .logFcn, slots := [(.constField, 1)], result := .expr, line := 5916 },
  { fn := .log, params := [.expr], node := .logFcn, slots := [(.inner, 1)], result := .expr, line := 5934 },
  { fn := .log, params := [.single], node := .logFcn, slots := [(.constSingle, 1)], result := .singleExpr, line := 5947 },
  { fn := .log, params := [.singleExpr], node := .logFcn, slots := [(.inner, 1)], result := .singleExpr, line := 5965 }]

/-- The overloads of `log10`. NeboOperators.h:6142-6203. -/
def ov_log10 : List Overload := [
  { fn := .log10, params := [.field], node := .log10Fcn, slots := [(.constField, 1)], result := .expr, line := 6142 },
  { fn := .log10, params := [.expr], node := .log10Fcn, slots := [(.inner, 1)], result := .expr, line := 6160 },
  { fn := .log10, params := [.single], node := .log10Fcn, slots := [(.constSingle, 1)], result := .singleExpr, line := 6173 },
  { fn := .log10, params := [.singleExpr], node := .log10Fcn, slots := [(.inner, 1)], result := .singleExpr, line := 6191 }]

/-- The overloads of `erf`. NeboOperators.h:6363-6423. -/
def ov_erf : List Overload := [
  { fn := .erf, params := [.field], node := .erfFcn, slots := [(.constField, 1)], result := .expr, line := 6363 },
  { fn := .erf, params := [.expr], node := .erfFcn, slots := [(.inner, 1)], result := .expr, line := 6381 },
  { fn := .erf, params := [.single], node := .erfFcn, slots := [(.constSingle, 1)], result := .singleExpr, line := 6394 },
  { fn := .erf, params := [.singleExpr], node := .erfFcn, slots := [(.inner, 1)], result := .singleExpr, line := 6412 }]

/-- The overloads of `erfc`. NeboOperators.h:6585-6645. -/
def ov_erfc : List Overload := [
  { fn := .erfc, params := [.field], node := .erfcFcn, slots := [(.constField, 1)], result := .expr, line := 6585 },
  { fn := .erfc, params := [.expr], node := .erfcFcn, slots := [(.inner, 1)], result := .expr, line := 6603 },
  { fn := .erfc, params := [.single], node := .erfcFcn, slots := [(.constSingle, 1)], result := .singleExpr, line := 6616 },
  { fn := .erfc, params := [.singleExpr], node := .erfcFcn, slots := [(.inner, 1)], result := .singleExpr, line := 6634 }]

/-- The overloads of `eqTo`. NeboOperators.h:6850-7508. -/
def ov_eqTo : List Overload := [
  { fn := .eqTo, params := [.scalar, .field], node := .equalCmp, slots := [(.scalar, 1), (.constField, 2)], result := .boolExpr, line := 6850 },
  { fn := .eqTo, params := [.scalar, .expr], node := .equalCmp, slots := [(.scalar, 1), (.inner, 2)], result := .boolExpr, line := 6879 },
  { fn := .eqTo, params := [.scalar, .single], node := .equalCmp, slots := [(.scalar, 1), (.constSingle, 2)], result := .boolSingleExpr, line := 6903 },
  { fn := .eqTo, params := [.scalar, .singleExpr], node := .equalCmp, slots := [(.scalar, 1), (.inner, 2)], result := .boolSingleExpr, line := 6936 },
  { fn := .eqTo, params := [.field, .scalar], node := .equalCmp, slots := [(.constField, 1), (.scalar, 2)], result := .boolExpr, line := 6960 },
  { fn := .eqTo, params := [.field, .field], node := .equalCmp, slots := [(.constField, 1), (.constField, 2)], result := .boolExpr, line := 6990 },
  { fn := .eqTo, params := [.field, .expr], node := .equalCmp, slots := [(.constField, 1), (.inner, 2)], result := .boolExpr, line := 7021 },
  { fn := .eqTo, params := [.field, .single], node := .equalCmp, slots := [(.constField, 1), (.constSingle, 2)], result := .boolExpr, line := 7046 },
  { fn := .eqTo, params := [.field, .singleExpr], node := .equalCmp, slots := [(.constField, 1), (.inner, 2)], result := .boolExpr, line := 7087 },
  { fn := .eqTo, params := [.expr, .scalar], node := .equalCmp, slots := [(.inner, 1), (.scalar, 2)], result := .boolExpr, line := 7114 },
  { fn := .eqTo, params := [.expr, .field], node := .equalCmp, slots := [(.inner, 1), (.constField, 2)], result := .boolExpr, line := 7139 },
  { fn := .eqTo, params := [.expr, .expr], node := .equalCmp, slots := [(.inner, 1), (.inner, 2)], result := .boolExpr, line := 7164 },
  { fn := .eqTo, params := [.expr, .single], node := .equalCmp, slots := [(.inner, 1), (.constSingle, 2)], result := .boolExpr, line := 7180 },
  { fn := .eqTo, params := [.expr, .singleExpr], node := .equalCmp, slots := [(.inner, 1), (.inner, 2)], result := .boolExpr, line := 7216 },
  { fn := .eqTo, params := [.single, .scalar], node := .equalCmp, slots := [(.constSingle, 1), (.scalar, 2)], result := .boolSingleExpr, line := 7234 },
  { fn := .eqTo, params := [.single, .field], node := .equalCmp, slots := [(.constSingle, 1), (.constField, 2)], result := .boolExpr, line := 7266 },
  { fn := .eqTo, params := [.single, .expr], node := .equalCmp, slots := [(.constSingle, 1), (.inner, 2)], result := .boolExpr, line := 7305 },
  { fn := .eqTo, params := [.single, .single], node := .equalCmp, slots := [(.constSingle, 1), (.constSingle, 2)], result := .boolSingleExpr, line := 7339 },
  { fn := .eqTo, params := [.single, .singleExpr], node := .equalCmp, slots := [(.constSingle, 1), (.inner, 2)], result := .boolSingleExpr, line := 7371 },
  { fn := .eqTo, params := [.singleExpr, .scalar], node := .equalCmp, slots := [(.inner, 1), (.scalar, 2)], result := .boolSingleExpr, line := 7396 },
  { fn := .eqTo, params := [.singleExpr, .field], node := .equalCmp, slots := [(.inner, 1), (.constField, 2)], result := .boolExpr, line := 7421 },
  { fn := .eqTo, params := [.singleExpr, .expr], node := .equalCmp, slots := [(.inner, 1), (.inner, 2)], result := .boolExpr, line := 7448 },
  { fn := .eqTo, params := [.singleExpr, .single], node := .equalCmp, slots := [(.inner, 1), (.constSingle, 2)], result := .boolSingleExpr, line := 7466 },
  { fn := .eqTo, params := [.singleExpr, .singleExpr], node := .equalCmp, slots := [(.inner, 1), (.inner, 2)], result := .boolSingleExpr, line := 7492 }]

/-- The overloads of `neTo`. NeboOperators.h:7713-8374. -/
def ov_neTo : List Overload := [
  { fn := .neTo, params := [.scalar, .field], node := .inequalCmp, slots := [(.scalar, 1), (.constField, 2)], result := .boolExpr, line := 7713 },
  { fn := .neTo, params := [.scalar, .expr], node := .inequalCmp, slots := [(.scalar, 1), (.inner, 2)], result := .boolExpr, line := 7742 },
  { fn := .neTo, params := [.scalar, .single], node := .inequalCmp, slots := [(.scalar, 1), (.constSingle, 2)], result := .boolSingleExpr, line := 7766 },
  { fn := .neTo, params := [.scalar, .singleExpr], node := .inequalCmp, slots := [(.scalar, 1), (.inner, 2)], result := .boolSingleExpr, line := 7799 },
  { fn := .neTo, params := [.field, .scalar], node := .inequalCmp, slots := [(.constField, 1), (.scalar, 2)], result := .boolExpr, line := 7824 },
  { fn := .neTo, params := [.field, .field], node := .inequalCmp, slots := [(.constField, 1), (.constField, 2)], result := .boolExpr, line := 7854 },
  { fn := .neTo, params := [.field, .expr], node := .inequalCmp, slots := [(.constField, 1), (.inner, 2)], result := .boolExpr, line := 7885 },
  { fn := .neTo, params := [.field, .single], node := .inequalCmp, slots := [(.constField, 1), (.constSingle, 2)], result := .boolExpr, line := 7910 },
  { fn := .neTo, params := [.field, .singleExpr], node := .inequalCmp, slots := [(.constField, 1), (.inner, 2)], result := .boolExpr, line := 7951 },
  { fn := .neTo, params := [.expr, .scalar], node := .inequalCmp, slots := [(.inner, 1), (.scalar, 2)], result := .boolExpr, line := 7978 },
  { fn := .neTo, params := [.expr, .field], node := .inequalCmp, slots := [(.inner, 1), (.constField, 2)], result := .boolExpr, line := 8003 },
  { fn := .neTo, params := [.expr, .expr], node := .inequalCmp, slots := [(.inner, 1), (.inner, 2)], result := .boolExpr, line := 8028 },
  { fn := .neTo, params := [.expr, .single], node := .inequalCmp, slots := [(.inner, 1), (.constSingle, 2)], result := .boolExpr, line := 8044 },
  { fn := .neTo, params := [.expr, .singleExpr], node := .inequalCmp, slots := [(.inner, 1), (.inner, 2)], result := .boolExpr, line := 8080 },
  { fn := .neTo, params := [.single, .scalar], node := .inequalCmp, slots := [(.constSingle, 1), (.scalar, 2)], result := .boolSingleExpr, line := 8098 },
  { fn := .neTo, params := [.single, .field], node := .inequalCmp, slots := [(.constSingle, 1), (.constField, 2)], result := .boolExpr, line := 8131 },
  { fn := .neTo, params := [.single, .expr], node := .inequalCmp, slots := [(.constSingle, 1), (.inner, 2)], result := .boolExpr, line := 8170 },
  { fn := .neTo, params := [.single, .single], node := .inequalCmp, slots := [(.constSingle, 1), (.constSingle, 2)], result := .boolSingleExpr, line := 8204 },
  { fn := .neTo, params := [.single, .singleExpr], node := .inequalCmp, slots := [(.constSingle, 1), (.inner, 2)], result := .boolSingleExpr, line := 8236 },
  { fn := .neTo, params := [.singleExpr, .scalar], node := .inequalCmp, slots := [(.inner, 1), (.scalar, 2)], result := .boolSingleExpr, line := 8261 },
  { fn := .neTo, params := [.singleExpr, .field], node := .inequalCmp, slots := [(.inner, 1), (.constField, 2)], result := .boolExpr, line := 8287 },
  { fn := .neTo, params := [.singleExpr, .expr], node := .inequalCmp, slots := [(.inner, 1), (.inner, 2)], result := .boolExpr, line := 8314 },
  { fn := .neTo, params := [.singleExpr, .single], node := .inequalCmp, slots := [(.inner, 1), (.constSingle, 2)], result := .boolSingleExpr, line := 8332 },
  { fn := .neTo, params := [.singleExpr, .singleExpr], node := .inequalCmp, slots := [(.inner, 1), (.inner, 2)], result := .boolSingleExpr, line := 8358 }]

/-- The overloads of `lessThan`. NeboOperators.h:8579-9222. -/
def ov_lessThan : List Overload := [
  { fn := .lessThan, params := [.scalar, .field], node := .lessThanCmp, slots := [(.scalar, 1), (.constField, 2)], result := .boolExpr, line := 8579 },
  { fn := .lessThan, params := [.scalar, .expr], node := .lessThanCmp, slots := [(.scalar, 1), (.inner, 2)], result := .boolExpr, line := 8607 },
  { fn := .lessThan, params := [.scalar, .single], node := .lessThanCmp, slots := [(.scalar, 1), (.constSingle, 2)], result := .boolSingleExpr, line := 8631 },
  { fn := .lessThan, params := [.scalar, .singleExpr], node := .lessThanCmp, slots := [(.scalar, 1), (.inner, 2)], result := .boolSingleExpr, line := 8663 },
  { fn := .lessThan, params := [.field, .scalar], node := .lessThanCmp, slots := [(.constField, 1), (.scalar, 2)], result := .boolExpr, line := 8687 },
  { fn := .lessThan, params := [.field, .field], node := .lessThanCmp, slots := [(.constField, 1), (.constField, 2)], result := .boolExpr, line := 8716 },
  { fn := .lessThan, params := [.field, .expr], node := .lessThanCmp, slots := [(.constField, 1), (.inner, 2)], result := .boolExpr, line := 8745 },
  { fn := .lessThan, params := [.field, .single], node := .lessThanCmp, slots := [(.constField, 1), (.constSingle, 2)], result := .boolExpr, line := 8769 },
  { fn := .lessThan, params := [.field, .singleExpr], node := .lessThanCmp, slots := [(.constField, 1), (.inner, 2)], result := .boolExpr, line := 8808 },
  { fn := .lessThan, params := [.expr, .scalar], node := .lessThanCmp, slots := [(.inner, 1), (.scalar, 2)], result := .boolExpr, line := 8834 },
  { fn := .lessThan, params := [.expr, .field], node := .lessThanCmp, slots := [(.inner, 1), (.constField, 2)], result := .boolExpr, line := 8859 },
  { fn := .lessThan, params := [.expr, .expr], node := .lessThanCmp, slots := [(.inner, 1), (.inner, 2)], result := .boolExpr, line := 8883 },
  { fn := .lessThan, params := [.expr, .single], node := .lessThanCmp, slots := [(.inner, 1), (.constSingle, 2)], result := .boolExpr, line := 8899 },
  { fn := .lessThan, params := [.expr, .singleExpr], node := .lessThanCmp, slots := [(.inner, 1), (.inner, 2)], result := .boolExpr, line := 8934 },
  { fn := .lessThan, params := [.single, .scalar], node := .lessThanCmp, slots := [(.constSingle, 1), (.scalar, 2)], result := .boolSingleExpr, line := 8952 },
  { fn := .lessThan, params := [.single, .field], node := .lessThanCmp, slots := [(.constSingle, 1), (.constField, 2)], result := .boolExpr, line := 8984 },
  { fn := .lessThan, params := [.single, .expr], node := .lessThanCmp, slots := [(.constSingle, 1), (.inner, 2)], result := .boolExpr, line := 9021 },
  { fn := .lessThan, params := [.single, .single], node := .lessThanCmp, slots := [(.constSingle, 1), (.constSingle, 2)], result := .boolSingleExpr, line := 9054 },
  { fn := .lessThan, params := [.single, .singleExpr], node := .lessThanCmp, slots := [(.constSingle, 1), (.inner, 2)], result := .boolSingleExpr, line := 9086 },
  { fn := .lessThan, params := [.singleExpr, .scalar], node := .lessThanCmp, slots := [(.inner, 1), (.scalar, 2)], result := .boolSingleExpr, line := 9111 },
  { fn := .lessThan, params := [.singleExpr, .field], node := .lessThanCmp, slots := [(.inner, 1), (.constField, 2)], result := .boolExpr, line := 9136 },
  { fn := .lessThan, params := [.singleExpr, .expr], node := .lessThanCmp, slots := [(.inner, 1), (.inner, 2)], result := .boolExpr, line := 9162 },
  { fn := .lessThan, params := [.singleExpr, .single], node := .lessThanCmp, slots := [(.inner, 1), (.constSingle, 2)], result := .boolSingleExpr, line := 9180 },
  { fn := .lessThan, params := [.singleExpr, .singleExpr], node := .lessThanCmp, slots := [(.inner, 1), (.inner, 2)], result := .boolSingleExpr, line := 9206 }]

/-- The overloads of `lessEq`. NeboOperators.h:9432-10115. -/
def ov_lessEq : List Overload := [
  { fn := .lessEq, params := [.scalar, .field], node := .lessThanEqualCmp, slots := [(.scalar, 1), (.constField, 2)], result := .boolExpr, line := 9432 },
  { fn := .lessEq, params := [.scalar, .expr], node := .lessThanEqualCmp, slots := [(.scalar, 1), (.inner, 2)], result := .boolExpr, line := 9463 },
  { fn := .lessEq, params := [.scalar, .single], node := .lessThanEqualCmp, slots := [(.scalar, 1), (.constSingle, 2)], result := .boolSingleExpr, line := 9488 },
  { fn := .lessEq, params := [.scalar, .singleExpr], node := .lessThanEqualCmp, slots := [(.scalar, 1), (.inner, 2)], result := .boolSingleExpr, line := 9523 },
  { fn := .lessEq, params := [.field, .scalar], node := .lessThanEqualCmp, slots := [(.constField, 1), (.scalar, 2)], result := .boolExpr, line := 9549 },
  { fn := .lessEq, params := [.field, .field], node := .lessThanEqualCmp, slots := [(.constField, 1), (.constField, 2)], result := .boolExpr, line := 9580 },
  { fn := .lessEq, params := [.field, .expr], node := .lessThanEqualCmp, slots := [(.constField, 1), (.inner, 2)], result := .boolExpr, line := 9612 },
  { fn := .lessEq, params := [.field, .single], node := .lessThanEqualCmp, slots := [(.constField, 1), (.constSingle, 2)], result := .boolExpr, line := 9637 },
  { fn := .lessEq, params := [.field, .singleExpr], node := .lessThanEqualCmp, slots := [(.constField, 1), (.inner, 2)], result := .boolExpr, line := 9679 },
  { fn := .lessEq, params := [.expr, .scalar], node := .lessThanEqualCmp, slots := [(.inner, 1), (.scalar, 2)], result := .boolExpr, line := 9706 },
  { fn := .lessEq, params := [.expr, .field], node := .lessThanEqualCmp, slots := [(.inner, 1), (.constField, 2)], result := .boolExpr, line := 9732 },
  { fn := .lessEq, params := [.expr, .expr], node := .lessThanEqualCmp, slots := [(.inner, 1), (.inner, 2)], result := .boolExpr, line := 9759 },
  { fn := .lessEq, params := [.expr, .single], node := .lessThanEqualCmp, slots := [(.inner, 1), (.constSingle, 2)], result := .boolExpr, line := 9775 },
  { fn := .lessEq, params := [.expr, .singleExpr], node := .lessThanEqualCmp, slots := [(.inner, 1), (.inner, 2)], result := .boolExpr, line := 9812 },
  { fn := .lessEq, params := [.single, .scalar], node := .lessThanEqualCmp, slots := [(.constSingle, 1), (.scalar, 2)], result := .boolSingleExpr, line := 9830 },
  { fn := .lessEq, params := [.single, .field], node := .lessThanEqualCmp, slots := [(.constSingle, 1), (.constField, 2)], result := .boolExpr, line := 9863 },
  { fn := .lessEq, params := [.single, .expr], node := .lessThanEqualCmp, slots := [(.constSingle, 1), (.inner, 2)], result := .boolExpr, line := 9904 },
  { fn := .lessEq, params := [.single, .single], node := .lessThanEqualCmp, slots := [(.constSingle, 1), (.constSingle, 2)], result := .boolSingleExpr, line := 9939 },
  { fn := .lessEq, params := [.single, .singleExpr], node := .lessThanEqualCmp, slots := [(.constSingle, 1), (.inner, 2)], result := .boolSingleExpr, line := 9972 },
  { fn := .lessEq, params := [.singleExpr, .scalar], node := .lessThanEqualCmp, slots := [(.inner, 1), (.scalar, 2)], result := .boolSingleExpr, line := 9998 },
  { fn := .lessEq, params := [.singleExpr, .field], node := .lessThanEqualCmp, slots := [(.inner, 1), (.constField, 2)], result := .boolExpr, line := 10024 },
  { fn := .lessEq, params := [.singleExpr, .expr], node := .lessThanEqualCmp, slots := [(.inner, 1), (.inner, 2)], result := .boolExpr, line := 10053 },
  { fn := .lessEq, params := [.singleExpr, .single], node := .lessThanEqualCmp, slots := [(.inner, 1), (.constSingle, 2)], result := .boolSingleExpr, line := 10071 },
  { fn := .lessEq, params := [.singleExpr, .singleExpr], node := .lessThanEqualCmp, slots := [(.inner, 1), (.inner, 2)], result := .boolSingleExpr, line := 10099 }]

/-- The overloads of `greaterThan`. NeboOperators.h:10321-10975. -/
def ov_greaterThan : List Overload := [
  { fn := .greaterThan, params := [.scalar, .field], node := .greaterThanCmp, slots := [(.scalar, 1), (.constField, 2)], result := .boolExpr, line := 10321 },
  { fn := .greaterThan, params := [.scalar, .expr], node := .greaterThanCmp, slots := [(.scalar, 1), (.inner, 2)], result := .boolExpr, line := 10349 },
  { fn := .greaterThan, params := [.scalar, .single], node := .greaterThanCmp, slots := [(.scalar, 1), (.constSingle, 2)], result := .boolSingleExpr, line := 10373 },
  { fn := .greaterThan, params := [.scalar, .singleExpr], node := .greaterThanCmp, slots := [(.scalar, 1), (.inner, 2)], result := .boolSingleExpr, line := 10407 },
  { fn := .greaterThan, params := [.field, .scalar], node := .greaterThanCmp, slots := [(.constField, 1), (.scalar, 2)], result := .boolExpr, line := 10432 },
  { fn := .greaterThan, params := [.field, .field], node := .greaterThanCmp, slots := [(.constField, 1), (.constField, 2)], result := .boolExpr, line := 10461 },
  { fn := .greaterThan, params := [.field, .expr], node := .greaterThanCmp, slots := [(.constField, 1), (.inner, 2)], result := .boolExpr, line := 10490 },
  { fn := .greaterThan, params := [.field, .single], node := .greaterThanCmp, slots := [(.constField, 1), (.constSingle, 2)], result := .boolExpr, line := 10514 },
  { fn := .greaterThan, params := [.field, .singleExpr], node := .greaterThanCmp, slots := [(.constField, 1), (.inner, 2)], result := .boolExpr, line := 10554 },
  { fn := .greaterThan, params := [.expr, .scalar], node := .greaterThanCmp, slots := [(.inner, 1), (.scalar, 2)], result := .boolExpr, line := 10580 },
  { fn := .greaterThan, params := [.expr, .field], node := .greaterThanCmp, slots := [(.inner, 1), (.constField, 2)], result := .boolExpr, line := 10605 },
  { fn := .greaterThan, params := [.expr, .expr], node := .greaterThanCmp, slots := [(.inner, 1), (.inner, 2)], result := .boolExpr, line := 10629 },
  { fn := .greaterThan, params := [.expr, .single], node := .greaterThanCmp, slots := [(.inner, 1), (.constSingle, 2)], result := .boolExpr, line := 10645 },
  { fn := .greaterThan, params := [.expr, .singleExpr], node := .greaterThanCmp, slots := [(.inner, 1), (.inner, 2)], result := .boolExpr, line := 10681 },
  { fn := .greaterThan, params := [.single, .scalar], node := .greaterThanCmp, slots := [(.constSingle, 1), (.scalar, 2)], result := .boolSingleExpr, line := 10699 },
  { fn := .greaterThan, params := [.single, .field], node := .greaterThanCmp, slots := [(.constSingle, 1), (.constField, 2)], result := .boolExpr, line := 10731 },
  { fn := .greaterThan, params := [.single, .expr], node := .greaterThanCmp, slots := [(.constSingle, 1), (.inner, 2)], result := .boolExpr, line := 10769 },
  { fn := .greaterThan, params := [.single, .single], node := .greaterThanCmp, slots := [(.constSingle, 1), (.constSingle, 2)], result := .boolSingleExpr, line := 10803 },
  { fn := .greaterThan, params := [.single, .singleExpr], node := .greaterThanCmp, slots := [(.constSingle, 1), (.inner, 2)], result := .boolSingleExpr, line := 10836 },
  { fn := .greaterThan, params := [.singleExpr, .scalar], node := .greaterThanCmp, slots := [(.inner, 1), (.scalar, 2)], result := .boolSingleExpr, line := 10862 },
  { fn := .greaterThan, params := [.singleExpr, .field], node := .greaterThanCmp, slots := [(.inner, 1), (.constField, 2)], result := .boolExpr, line := 10887 },
  { fn := .greaterThan, params := [.singleExpr, .expr], node := .greaterThanCmp, slots := [(.inner, 1), (.inner, 2)], result := .boolExpr, line := 10913 },
  { fn := .greaterThan, params := [.singleExpr, .single], node := .greaterThanCmp, slots := [(.inner, 1), (.constSingle, 2)], result := .boolSingleExpr, line := 10931 },
  { fn := .greaterThan, params := [.singleExpr, .singleExpr], node := .greaterThanCmp, slots := [(.inner, 1), (.inner, 2)], result := .boolSingleExpr, line := 10959 }]

/-- The overloads of `greaterEq`. NeboOperators.h:11190-11883. -/
def ov_greaterEq : List Overload := [
  { fn := .greaterEq, params := [.scalar, .field], node := .greaterThanEqualCmp, slots := [(.scalar, 1), (.constField, 2)], result := .boolExpr, line := 11190 },
  { fn := .greaterEq, params := [.scalar, .expr], node := .greaterThanEqualCmp, slots := [(.scalar, 1), (.inner, 2)], result := .boolExpr, line := 11221 },
  { fn := .greaterEq, params := [.scalar, .single], node := .greaterThanEqualCmp, slots := [(.scalar, 1), (.constSingle, 2)], result := .boolSingleExpr, line := 11246 },
  { fn := .greaterEq, params := [.scalar, .singleExpr], node := .greaterThanEqualCmp, slots := [(.scalar, 1), (.inner, 2)], result := .boolSingleExpr, line := 11281 },
  { fn := .greaterEq, params := [.field, .scalar], node := .greaterThanEqualCmp, slots := [(.constField, 1), (.scalar, 2)], result := .boolExpr, line := 11307 },
  { fn := .greaterEq, params := [.field, .field], node := .greaterThanEqualCmp, slots := [(.constField, 1), (.constField, 2)], result := .boolExpr, line := 11338 },
  { fn := .greaterEq, params := [.field, .expr], node := .greaterThanEqualCmp, slots := [(.constField, 1), (.inner, 2)], result := .boolExpr, line := 11370 },
  { fn := .greaterEq, params := [.field, .single], node := .greaterThanEqualCmp, slots := [(.constField, 1), (.constSingle, 2)], result := .boolExpr, line := 11396 },
  { fn := .greaterEq, params := [.field, .singleExpr], node := .greaterThanEqualCmp, slots := [(.constField, 1), (.inner, 2)], result := .boolExpr, line := 11438 },
  { fn := .greaterEq, params := [.expr, .scalar], node := .greaterThanEqualCmp, slots := [(.inner, 1), (.scalar, 2)], result := .boolExpr, line := 11466 },
  { fn := .greaterEq, params := [.expr, .field], node := .greaterThanEqualCmp, slots := [(.inner, 1), (.constField, 2)], result := .boolExpr, line := 11492 },
  { fn := .greaterEq, params := [.expr, .expr], node := .greaterThanEqualCmp, slots := [(.inner, 1), (.inner, 2)], result := .boolExpr, line := 11519 },
  { fn := .greaterEq, params := [.expr, .single], node := .greaterThanEqualCmp, slots := [(.inner, 1), (.constSingle, 2)], result := .boolExpr, line := 11537 },
  { fn := .greaterEq, params := [.expr, .singleExpr], node := .greaterThanEqualCmp, slots := [(.inner, 1), (.inner, 2)], result := .boolExpr, line := 11574 },
  { fn := .greaterEq, params := [.single, .scalar], node := .greaterThanEqualCmp, slots := [(.constSingle, 1), (.scalar, 2)], result := .boolSingleExpr, line := 11594 },
  { fn := .greaterEq, params := [.single, .field], node := .greaterThanEqualCmp, slots := [(.constSingle, 1), (.constField, 2)], result := .boolExpr, line := 11628 },
  { fn := .greaterEq, params := [.single, .expr], node := .greaterThanEqualCmp, slots := [(.constSingle, 1), (.inner, 2)], result := .boolExpr, line := 11669 },
  { fn := .greaterEq, params := [.single, .single], node := .greaterThanEqualCmp, slots := [(.constSingle, 1), (.constSingle, 2)], result := .boolSingleExpr, line := 11704 },
  { fn := .greaterEq, params := [.single, .singleExpr], node := .greaterThanEqualCmp, slots := [(.constSingle, 1), (.inner, 2)], result := .boolSingleExpr, line := 11737 },
  { fn := .greaterEq, params := [.singleExpr, .scalar], node := .greaterThanEqualCmp, slots := [(.inner, 1), (.scalar, 2)], result := .boolSingleExpr, line := 11763 },
  { fn := .greaterEq, params := [.singleExpr, .field], node := .greaterThanEqualCmp, slots := [(.inner, 1), (.constField, 2)], result := .boolExpr, line := 11790 },
  { fn := .greaterEq, params := [.singleExpr, .expr], node := .greaterThanEqualCmp, slots := [(.inner, 1), (.inner, 2)], result := .boolExpr, line := 11819 },
  { fn := .greaterEq, params := [.singleExpr, .single], node := .greaterThanEqualCmp, slots := [(.inner, 1), (.constSingle, 2)], result := .boolSingleExpr, line := 11839 },
  { fn := .greaterEq, params := [.singleExpr, .singleExpr], node := .greaterThanEqualCmp, slots := [(.inner, 1), (.inner, 2)], result := .boolSingleExpr, line := 11867 }]

/-- The overloads of `land`. NeboOperators.h:12088-12263. -/
def ov_land : List Overload := [
  { fn := .land, params := [.bool, .boolExpr], node := .andOp, slots := [(.boolScalar, 1), (.inner, 2)], result := .boolExpr, line := 12088 },
  { fn := .land, params := [.bool, .mask], node := .andOp, slots := [(.boolScalar, 1), (.mask, 2)], result := .boolExpr, line := 12105 },
  { fn := .land, params := [.boolExpr, .bool], node := .andOp, slots := [(.inner, 1), (.boolScalar, 2)], result := .boolExpr, line := 12129 },
  { fn := .land, params := [.boolExpr, .boolExpr], node := .andOp, slots := [(.inner, 1), (.inner, 2)], result := .boolExpr, line := 12146 },
  { fn := .land, params := [.boolExpr, .mask], node := .andOp, slots := [(.inner, 1), (.mask, 2)], result := .boolExpr, line := 12162 },
  { fn := .land, params := [.mask, .bool], node := .andOp, slots := [(.mask, 1), (.boolScalar, 2)], result := .boolExpr, line := 12186 },
  { fn := .land, params := [.mask, .boolExpr], node := .andOp, slots := [(.mask, 1), (.inner, 2)], result := .boolExpr, line := 12210 },
  { fn := .land, params := [.mask, .mask], node := .andOp, slots := [(.mask, 1), (.mask, 2)], result := .boolExpr, line := 12234 }]

/-- The overloads of `lor`. NeboOperators.h:12468-12641. -/
def ov_lor : List Overload := [
  { fn := .lor, params := [.bool, .boolExpr], node := .orOp, slots := [(.boolScalar, 1), (.inner, 2)], result := .boolExpr, line := 12468 },
  { fn := .lor, params := [.bool, .mask], node := .orOp, slots := [(.boolScalar, 1), (.mask, 2)], result := .boolExpr, line := 12485 },
  { fn := .lor, params := [.boolExpr, .bool], node := .orOp, slots := [(.inner, 1), (.boolScalar, 2)], result := .boolExpr, line := 12508 },
  { fn := .lor, params := [.boolExpr, .boolExpr], node := .orOp, slots := [(.inner, 1), (.inner, 2)], result := .boolExpr, line := 12525 },
  { fn := .lor, params := [.boolExpr, .mask], node := .orOp, slots := [(.inner, 1), (.mask, 2)], result := .boolExpr, line := 12541 },
  { fn := .lor, params := [.mask, .bool], node := .orOp, slots := [(.mask, 1), (.boolScalar, 2)], result := .boolExpr, line := 12565 },
  { fn := .lor, params := [.mask, .boolExpr], node := .orOp, slots := [(.mask, 1), (.inner, 2)], result := .boolExpr, line := 12588 },
  { fn := .lor, params := [.mask, .mask], node := .orOp, slots := [(.mask, 1), (.mask, 2)], result := .boolExpr, line := 12612 }]

/-- The overloads of `lnot`. NeboOperators.h:12801-12829. -/
def ov_lnot : List Overload := [
  { fn := .lnot, params := [.boolExpr], node := .notOp, slots := [(.inner, 1)], result := .boolExpr, line := 12801 },
  { fn := .lnot, params := [.mask], node := .notOp, slots := [(.mask, 1)], result := .boolExpr, line := 12812 }]

/-- The overloads of `max`. NeboOperators.h:13037-13622. -/
def ov_max : List Overload := [
  { fn := .max, params := [.scalar, .field], node := .maxFcn, slots := [(.scalar, 1), (.constField, 2)], result := .expr, line := 13037 },
  { fn := .max, params := [.scalar, .expr], node := .maxFcn, slots := [(.scalar, 1), (.inner, 2)], result := .expr, line := 13062 },
  { fn := .max, params := [.scalar, .single], node := .maxFcn, slots := [(.scalar, 1), (.constSingle, 2)], result := .singleExpr, line := 13083 },
  { fn := .max, params := [.scalar, .singleExpr], node := .maxFcn, slots := [(.scalar, 1), (.inner, 2)], result := .singleExpr, line := 13110 },
  { fn := .max, params := [.field, .scalar], node := .maxFcn, slots := [(.constField, 1), (.scalar, 2)], result := .expr, line := 13131 },
  { fn := .max, params := [.field, .field], node := .maxFcn, slots := [(.constField, 1), (.constField, 2)], result := .expr, line := 13157 },
  { fn := .max, params := [.field, .expr], node := .maxFcn, slots := [(.constField, 1), (.inner, 2)], result := .expr, line := 13184 },
  { fn := .max, params := [.field, .single], node := .maxFcn, slots := [(.constField, 1), (.constSingle, 2)], result := .expr, line := 13206 },
  { fn := .max, params := [.field, .singleExpr], node := .maxFcn, slots := [(.constField, 1), (.inner, 2)], result := .expr, line := 13241 },
  { fn := .max, params := [.expr, .scalar], node := .maxFcn, slots := [(.inner, 1), (.scalar, 2)], result := .expr, line := 13266 },
  { fn := .max, params := [.expr, .field], node := .maxFcn, slots := [(.inner, 1), (.constField, 2)], result := .expr, line := 13288 },
  { fn := .max, params := [.expr, .expr], node := .maxFcn, slots := [(.inner, 1), (.inner, 2)], result := .expr, line := 13310 },
  { fn := .max, params := [.expr, .single], node := .maxFcn, slots := [(.inner, 1), (.constSingle, 2)], result := .expr, line := 13329 },
  { fn := .max, params := [.expr, .singleExpr], node := .maxFcn, slots := [(.inner, 1), (.inner, 2)], result := .expr, line := 13360 },
  { fn := .max, params := [.single, .scalar], node := .maxFcn, slots := [(.constSingle, 1), (.scalar, 2)], result := .singleExpr, line := 13381 },
  { fn := .max, params := [.single, .field], node := .maxFcn, slots := [(.constSingle, 1), (.constField, 2)], result := .expr, line := 13408 },
  { fn := .max, params := [.single, .expr], node := .maxFcn, slots := [(.constSingle, 1), (.inner, 2)], result := .expr, line := 13442 },
  { fn := .max, params := [.single, .single], node := .maxFcn, slots := [(.constSingle, 1), (.constSingle, 2)], result := .singleExpr, line := 13472 },
  { fn := .max, params := [.single, .singleExpr], node := .maxFcn, slots := [(.constSingle, 1), (.inner, 2)], result := .singleExpr, line := 13499 },
  { fn := .max, params := [.singleExpr, .scalar], node := .maxFcn, slots := [(.inner, 1), (.scalar, 2)], result := .singleExpr, line := 13522 },
  { fn := .max, params := [.singleExpr, .field], node := .maxFcn, slots := [(.inner, 1), (.constField, 2)], result := .expr, line := 13543 },
  { fn := .max, params := [.singleExpr, .expr], node := .maxFcn, slots := [(.inner, 1), (.inner, 2)], result := .expr, line := 13568 },
  { fn := .max, params := [.singleExpr, .single], node := .maxFcn, slots := [(.inner, 1), (.constSingle, 2)], result := .singleExpr, line := 13589 },
  { fn := .max, params := [.singleExpr, .singleExpr], node := .maxFcn, slots := [(.inner, 1), (.inner, 2)], result := .singleExpr, line := 13612 }]

/-- The overloads of `min`. NeboOperators.h:13830-14415. -/
def ov_min : List Overload := [
  { fn := .min, params := [.scalar, .field], node := .minFcn, slots := [(.scalar, 1), (.constField, 2)], result := .expr, line := 13830 },
  { fn := .min, params := [.scalar, .expr], node := .minFcn, slots := [(.scalar, 1), (.inner, 2)], result := .expr, line := 13855 },
  { fn := .min, params := [.scalar, .single], node := .minFcn, slots := [(.scalar, 1), (.constSingle, 2)], result := .singleExpr, line := 13876 },
  { fn := .min, params := [.scalar, .singleExpr], node := .minFcn, slots := [(.scalar, 1), (.inner, 2)], result := .singleExpr, line := 13903 },
  { fn := .min, params := [.field, .scalar], node := .minFcn, slots := [(.constField, 1), (.scalar, 2)], result := .expr, line := 13924 },
  { fn := .min, params := [.field, .field], node := .minFcn, slots := [(.constField, 1), (.constField, 2)], result := .expr, line := 13950 },
  { fn := .min, params := [.field, .expr], node := .minFcn, slots := [(.constField, 1), (.inner, 2)], result := .expr, line := 13977 },
  { fn := .min, params := [.field, .single], node := .minFcn, slots := [(.constField, 1), (.constSingle, 2)], result := .expr, line := 13999 },
  { fn := .min, params := [.field, .singleExpr], node := .minFcn, slots := [(.constField, 1), (.inner, 2)], result := .expr, line := 14034 },
  { fn := .min, params := [.expr, .scalar], node := .minFcn, slots := [(.inner, 1), (.scalar, 2)], result := .expr, line := 14059 },
  { fn := .min, params := [.expr, .field], node := .minFcn, slots := [(.inner, 1), (.constField, 2)], result := .expr, line := 14081 },
  { fn := .min, params := [.expr, .expr], node := .minFcn, slots := [(.inner, 1), (.inner, 2)], result := .expr, line := 14103 },
  { fn := .min, params := [.expr, .single], node := .minFcn, slots := [(.inner, 1), (.constSingle, 2)], result := .expr, line := 14122 },
  { fn := .min, params := [.expr, .singleExpr], node := .minFcn, slots := [(.inner, 1), (.inner, 2)], result := .expr, line := 14153 },
  { fn := .min, params := [.single, .scalar], node := .minFcn, slots := [(.constSingle, 1), (.scalar, 2)], result := .singleExpr, line := 14174 },
  { fn := .min, params := [.single, .field], node := .minFcn, slots := [(.constSingle, 1), (.constField, 2)], result := .expr, line := 14201 },
  { fn := .min, params := [.single, .expr], node := .minFcn, slots := [(.constSingle, 1), (.inner, 2)], result := .expr, line := 14235 },
  { fn := .min, params := [.single, .single], node := .minFcn, slots := [(.constSingle, 1), (.constSingle, 2)], result := .singleExpr, line := 14265 },
  { fn := .min, params := [.single, .singleExpr], node := .minFcn, slots := [(.constSingle, 1), (.inner, 2)], result := .singleExpr, line := 14292 },
  { fn := .min, params := [.singleExpr, .scalar], node := .minFcn, slots := [(.inner, 1), (.scalar, 2)], result := .singleExpr, line := 14315 },
  { fn := .min, params := [.singleExpr, .field], node := .minFcn, slots := [(.inner, 1), (.constField, 2)], result := .expr, line := 14336 },
  { fn := .min, params := [.singleExpr, .expr], node := .minFcn, slots := [(.inner, 1), (.inner, 2)], result := .expr, line := 14361 },
  { fn := .min, params := [.singleExpr, .single], node := .minFcn, slots := [(.inner, 1), (.constSingle, 2)], result := .singleExpr, line := 14382 },
  { fn := .min, params := [.singleExpr, .singleExpr], node := .minFcn, slots := [(.inner, 1), (.inner, 2)], result := .singleExpr, line := 14405 }]

/-- All overloads. NeboOperators.h:232-14419. -/
def overloads : List Overload :=
  ov_plus ++
  ov_minus ++
  ov_times ++
  ov_over ++
  ov_sin ++
  ov_cos ++
  ov_tan ++
  ov_exp ++
  ov_tanh ++
  ov_abs ++
  ov_negate ++
  ov_pow ++
  ov_sqrt ++
  ov_log ++
  ov_log10 ++
  ov_erf ++
  ov_erfc ++
  ov_eqTo ++
  ov_neTo ++
  ov_lessThan ++
  ov_lessEq ++
  ov_greaterThan ++
  ov_greaterEq ++
  ov_land ++
  ov_lor ++
  ov_lnot ++
  ov_max ++
  ov_min

end NeboOps
end SpatialOps
