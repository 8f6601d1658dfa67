import Verif.Model.Number
/-!
# Dictionary operators

Transcribed by script from the `operator!` invocation in
src/compact1/operation.rs:135-214; the expansion rules are lines 95-133.
-/
namespace PS

/-- `compact1::Operator`, src/compact1/operation.rs:108-112, variants from lines 137-212. -/
inductive Operator where
  | opVersion
  | opNotice
  | opFullName
  | opFamilyName
  | opWeight
  | opFontBBox
  | opBlueValues
  | opOtherBlues
  | opFamilyBlues
  | opFamilyOtherBlues
  | opStdHW
  | opStdVW
  | opUniqueID
  | opXUID
  | opCharSet
  | opEncoding
  | opCharStrings
  | opPrivate
  | opSubrs
  | opDefaultWidthX
  | opNominalWidthX
  | opCopyright
  | opIsFixedPitch
  | opItalicAngle
  | opUnderlinePosition
  | opUnderlineThickness
  | opPaintType
  | opCharStringType
  | opFontMatrix
  | opStrokeWidth
  | opBlueScale
  | opBlueShift
  | opBlueFuzz
  | opStemSnapH
  | opStemSnapV
  | opForceBold
  | opLanguageGroup
  | opExpansionFactor
  | opInitialRandomSeed
  | opSyntheticBase
  | opPostScript
  | opBaseFontName
  | opBaseFontBlend
  | opROS
  | opCIDFontVersion
  | opCIDFontRevision
  | opCIDFontType
  | opCIDCount
  | opUIDBase
  | opFDArray
  | opFDSelect
  | opFontName
deriving DecidableEq, Repr

namespace Operator

/-- The arms of the `match` in `Operator::from`, src/compact1/operation.rs:118-121, in order. -/
def codes : List (Nat × Operator) := [
  (0x00, .opVersion),
  (0x01, .opNotice),
  (0x02, .opFullName),
  (0x03, .opFamilyName),
  (0x04, .opWeight),
  (0x05, .opFontBBox),
  (0x06, .opBlueValues),
  (0x07, .opOtherBlues),
  (0x08, .opFamilyBlues),
  (0x09, .opFamilyOtherBlues),
  (0x0a, .opStdHW),
  (0x0b, .opStdVW),
  (0x0d, .opUniqueID),
  (0x0e, .opXUID),
  (0x0f, .opCharSet),
  (0x10, .opEncoding),
  (0x11, .opCharStrings),
  (0x12, .opPrivate),
  (0x13, .opSubrs),
  (0x14, .opDefaultWidthX),
  (0x15, .opNominalWidthX),
  (0x0c00, .opCopyright),
  (0x0c01, .opIsFixedPitch),
  (0x0c02, .opItalicAngle),
  (0x0c03, .opUnderlinePosition),
  (0x0c04, .opUnderlineThickness),
  (0x0c05, .opPaintType),
  (0x0c06, .opCharStringType),
  (0x0c07, .opFontMatrix),
  (0x0c08, .opStrokeWidth),
  (0x0c09, .opBlueScale),
  (0x0c0a, .opBlueShift),
  (0x0c0b, .opBlueFuzz),
  (0x0c0c, .opStemSnapH),
  (0x0c0d, .opStemSnapV),
  (0x0c0e, .opForceBold),
  (0x0c11, .opLanguageGroup),
  (0x0c12, .opExpansionFactor),
  (0x0c13, .opInitialRandomSeed),
  (0x0c14, .opSyntheticBase),
  (0x0c15, .opPostScript),
  (0x0c16, .opBaseFontName),
  (0x0c17, .opBaseFontBlend),
  (0x0c1e, .opROS),
  (0x0c1f, .opCIDFontVersion),
  (0x0c20, .opCIDFontRevision),
  (0x0c21, .opCIDFontType),
  (0x0c22, .opCIDCount),
  (0x0c23, .opUIDBase),
  (0x0c24, .opFDArray),
  (0x0c25, .opFDSelect),
  (0x0c26, .opFontName)]

/-- `Operator::from`, src/compact1/operation.rs:115-122: the first arm that matches. -/
def «from» (code : UInt16) : Res Operator :=
  match codes.lookup code.toNat with
  | some operator => .ok operator
  | none => .err (.raised .unknownOperator)

/-- `Operator::default`, src/compact1/operation.rs:125-131 (macro `default!`, lines 95-101), table lines 137-212.
`false as i32` is written `0`; reals are the nearest binary32 of the literal. -/
def default : Operator → Option (List Number)
  | .opVersion => none
  | .opNotice => none
  | .opFullName => none
  | .opFamilyName => none
  | .opWeight => none
  | .opFontBBox => some [.integer 0, .integer 0, .integer 0, .integer 0]
  | .opBlueValues => none
  | .opOtherBlues => none
  | .opFamilyBlues => none
  | .opFamilyOtherBlues => none
  | .opStdHW => none
  | .opStdVW => none
  | .opUniqueID => none
  | .opXUID => none
  | .opCharSet => some [.integer 0]
  | .opEncoding => some [.integer 0]
  | .opCharStrings => none
  | .opPrivate => none
  | .opSubrs => none
  | .opDefaultWidthX => some [.integer 0]
  | .opNominalWidthX => some [.integer 0]
  | .opCopyright => none
  | .opIsFixedPitch => some [.integer 0]
  | .opItalicAngle => some [.integer 0]
  | .opUnderlinePosition => some [.integer (-100)]
  | .opUnderlineThickness => some [.integer 50]
  | .opPaintType => some [.integer 0]
  | .opCharStringType => some [.integer 2]
  | .opFontMatrix => some [.real (F32.ofDecimal false 1 (-3)), .real (F32.ofDecimal false 0 0), .real (F32.ofDecimal false 0 0), .real (F32.ofDecimal false 1 (-3)), .real (F32.ofDecimal false 0 0), .real (F32.ofDecimal false 0 0)]
  | .opStrokeWidth => some [.integer 0]
  | .opBlueScale => some [.real (F32.ofDecimal false 39625 (-6))]
  | .opBlueShift => some [.integer 7]
  | .opBlueFuzz => some [.integer 1]
  | .opStemSnapH => none
  | .opStemSnapV => none
  | .opForceBold => some [.integer 0]
  | .opLanguageGroup => some [.integer 0]
  | .opExpansionFactor => some [.real (F32.ofDecimal false 6 (-2))]
  | .opInitialRandomSeed => some [.integer 0]
  | .opSyntheticBase => none
  | .opPostScript => none
  | .opBaseFontName => none
  | .opBaseFontBlend => none
  | .opROS => none
  | .opCIDFontVersion => some [.integer 0]
  | .opCIDFontRevision => some [.integer 0]
  | .opCIDFontType => some [.integer 0]
  | .opCIDCount => some [.integer 8720]
  | .opUIDBase => none
  | .opFDArray => none
  | .opFDSelect => none
  | .opFontName => none

end Operator

end PS
