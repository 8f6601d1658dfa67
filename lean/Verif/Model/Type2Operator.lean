import Verif.Model.Base
/-!
# Type 2 operators

Transcribed by script from the `operator!` invocation in
src/type2/operation.rs:36-113; the expansion rules are lines 14-34.
-/
namespace PS.Type2

/-- `type2::Operator`, src/type2/operation.rs:20-22, variants from lines 37-112. -/
inductive Operator where
  | opHStem
  | opVStem
  | opVMoveTo
  | opRLineTo
  | opHLineTo
  | opVLineTo
  | opRRCurveTo
  | opCallSubr
  | opReturn
  | opEndChar
  | opHStemHM
  | opHintMask
  | opCntrMask
  | opRMoveTo
  | opHMoveTo
  | opVStemHM
  | opRCurveLine
  | opRLineCurve
  | opVVCurveTo
  | opHHCurveTo
  | opCallGSubr
  | opVHCurveTo
  | opHVCurveTo
  | opAnd
  | opOr
  | opNot
  | opAbs
  | opAdd
  | opSub
  | opDiv
  | opNeg
  | opEq
  | opDrop
  | opPut
  | opGet
  | opIfElse
  | opRandom
  | opMul
  | opSqrt
  | opDup
  | opExch
  | opIndex
  | opRoll
  | opHFlex
  | opFlex
  | opHFlex1
  | opFlex1
deriving DecidableEq, Repr

namespace Operator

/-- The arms of the `match` in `Operator::from`, src/type2/operation.rs:28-31, in order. -/
def codes : List (Nat × Operator) := [
  (0x01, .opHStem),
  (0x03, .opVStem),
  (0x04, .opVMoveTo),
  (0x05, .opRLineTo),
  (0x06, .opHLineTo),
  (0x07, .opVLineTo),
  (0x08, .opRRCurveTo),
  (0x0a, .opCallSubr),
  (0x0b, .opReturn),
  (0x0e, .opEndChar),
  (0x12, .opHStemHM),
  (0x13, .opHintMask),
  (0x14, .opCntrMask),
  (0x15, .opRMoveTo),
  (0x16, .opHMoveTo),
  (0x17, .opVStemHM),
  (0x18, .opRCurveLine),
  (0x19, .opRLineCurve),
  (0x1a, .opVVCurveTo),
  (0x1b, .opHHCurveTo),
  (0x1d, .opCallGSubr),
  (0x1e, .opVHCurveTo),
  (0x1f, .opHVCurveTo),
  (0x0c03, .opAnd),
  (0x0c04, .opOr),
  (0x0c05, .opNot),
  (0x0c09, .opAbs),
  (0x0c0a, .opAdd),
  (0x0c0b, .opSub),
  (0x0c0c, .opDiv),
  (0x0c0e, .opNeg),
  (0x0c0f, .opEq),
  (0x0c12, .opDrop),
  (0x0c14, .opPut),
  (0x0c15, .opGet),
  (0x0c16, .opIfElse),
  (0x0c17, .opRandom),
  (0x0c18, .opMul),
  (0x0c1a, .opSqrt),
  (0x0c1b, .opDup),
  (0x0c1c, .opExch),
  (0x0c1d, .opIndex),
  (0x0c1e, .opRoll),
  (0x0c22, .opHFlex),
  (0x0c23, .opFlex),
  (0x0c24, .opHFlex1),
  (0x0c25, .opFlex1)]

/-- `Operator::from`, src/type2/operation.rs:26-32: the first arm that matches. -/
def «from» (code : UInt16) : Res Operator :=
  match codes.lookup code.toNat with
  | some operator => .ok operator
  | none => .err (.raised .unknownOperator)

end Operator

end PS.Type2
