import Verif.Model.Operator
import Verif.Spec.Number
import Verif.Spec.Float
/-!
# Specification: dictionaries

Section 4 of the CFF specification (Technical Note #5176) for the format, and
its Tables 9 (Top DICT), 10 (CIDFont extensions) and 23 (Private DICT) for the
operators and their default operands.
-/
namespace PS.Spec

/-- The bytes of an operator: one byte, or 12 and one byte. -/
def opCode : Operator → List UInt8
  -- Table 9
  | .opVersion => [0]
  | .opNotice => [1]
  | .opCopyright => [12, 0]
  | .opFullName => [2]
  | .opFamilyName => [3]
  | .opWeight => [4]
  | .opIsFixedPitch => [12, 1]
  | .opItalicAngle => [12, 2]
  | .opUnderlinePosition => [12, 3]
  | .opUnderlineThickness => [12, 4]
  | .opPaintType => [12, 5]
  | .opCharStringType => [12, 6]
  | .opFontMatrix => [12, 7]
  | .opUniqueID => [13]
  | .opFontBBox => [5]
  | .opStrokeWidth => [12, 8]
  | .opXUID => [14]
  | .opCharSet => [15]
  | .opEncoding => [16]
  | .opCharStrings => [17]
  | .opPrivate => [18]
  | .opSyntheticBase => [12, 20]
  | .opPostScript => [12, 21]
  | .opBaseFontName => [12, 22]
  | .opBaseFontBlend => [12, 23]
  -- Table 10
  | .opROS => [12, 30]
  | .opCIDFontVersion => [12, 31]
  | .opCIDFontRevision => [12, 32]
  | .opCIDFontType => [12, 33]
  | .opCIDCount => [12, 34]
  | .opUIDBase => [12, 35]
  | .opFDArray => [12, 36]
  | .opFDSelect => [12, 37]
  | .opFontName => [12, 38]
  -- Table 23
  | .opBlueValues => [6]
  | .opOtherBlues => [7]
  | .opFamilyBlues => [8]
  | .opFamilyOtherBlues => [9]
  | .opBlueScale => [12, 9]
  | .opBlueShift => [12, 10]
  | .opBlueFuzz => [12, 11]
  | .opStdHW => [10]
  | .opStdVW => [11]
  | .opStemSnapH => [12, 12]
  | .opStemSnapV => [12, 13]
  | .opForceBold => [12, 14]
  | .opLanguageGroup => [12, 17]
  | .opExpansionFactor => [12, 18]
  | .opInitialRandomSeed => [12, 19]
  | .opSubrs => [19]
  | .opDefaultWidthX => [20]
  | .opNominalWidthX => [21]

/-- The default operands, as exact numbers; the empty list where the
specification gives none. -/
def opDefault : Operator → List ℚ
  | .opIsFixedPitch => [0]
  | .opItalicAngle => [0]
  | .opUnderlinePosition => [-100]
  | .opUnderlineThickness => [50]
  | .opPaintType => [0]
  | .opCharStringType => [2]
  | .opFontMatrix => [0.001, 0, 0, 0.001, 0, 0]
  | .opFontBBox => [0, 0, 0, 0]
  | .opStrokeWidth => [0]
  | .opCharSet => [0]
  | .opEncoding => [0]
  | .opCIDFontVersion => [0]
  | .opCIDFontRevision => [0]
  | .opCIDFontType => [0]
  | .opCIDCount => [8720]
  | .opBlueScale => [0.039625]
  | .opBlueShift => [7]
  | .opBlueFuzz => [1]
  | .opForceBold => [0]
  | .opLanguageGroup => [0]
  | .opExpansionFactor => [0.06]
  | .opInitialRandomSeed => [0]
  | .opDefaultWidthX => [0]
  | .opNominalWidthX => [0]
  | _ => []

/-- A number stands for an exact value: equal to it if an integer, nearest to it
if a real. -/
def Stands (q : ℚ) : Number → Prop
  | .integer i => q = i
  | .real x => Nearest (decide (q < 0)) |q| x

/-- `Operand n bs`: `bs` encodes the operand `n`. -/
def Operand : Number → List UInt8 → Prop
  | .integer i, bs => DictInt i bs
  | .real x, bs => ∃ (d : Decimal) (packed : List UInt8), d.Valid ∧ Packed d.text packed ∧
      bs = 0x1e :: packed ∧ Nearest d.neg d.magnitude x

/-- An operation: operands followed by their operator. -/
def Operation (x : Operator × List Number) (bs : List UInt8) : Prop :=
  ∃ operands, Seq Operand x.2 operands ∧ bs = operands ++ opCode x.1

/-- A dictionary: operations, one after another. -/
def Dict (ops : List (Operator × List Number)) (bs : List UInt8) : Prop := Seq Operation ops bs

/-- `Last ops op operands`: the last operation with the operator `op` has `operands`. -/
def Last (ops : List (Operator × List Number)) (op : Operator) (operands : List Number) : Prop :=
  ∃ before after, ops = before ++ (op, operands) :: after ∧ ∀ x ∈ after, x.1 ≠ op

/-- An operand cut short: its first byte announces more bytes than there are. -/
inductive CutOperand : List UInt8 → Prop
  | twoByte (b0 : UInt8) : 247 ≤ b0.toNat → b0.toNat ≤ 254 → CutOperand [b0]
  | word (bs : List UInt8) : bs.length < 2 → CutOperand (28 :: bs)
  | long (bs : List UInt8) : bs.length < 4 → CutOperand (29 :: bs)
  /-- a real operand without the end mark -/
  | real (bs : List UInt8) (t : List Char) : spell (nibbles bs) = some t → CutOperand (0x1e :: bs)

/-- An operation cut short: operands followed by nothing, by an operand cut
short, or by the first byte of a two-byte operator. -/
def CutOperation (bs : List UInt8) : Prop :=
  ∃ ns operands tail, Seq Operand ns operands ∧ bs = operands ++ tail ∧
    (tail = [] ∨ CutOperand tail ∨ tail = [12])

/-- The bytes an operand may start with. -/
def OperandByte (b : UInt8) : Prop :=
  b.toNat = 28 ∨ b.toNat = 29 ∨ b.toNat = 30 ∨ (32 ≤ b.toNat ∧ b.toNat ≤ 254)

/-- A malformed operand: it starts like an operand, but is neither a complete
operand nor one cut short. -/
def BadOperand (tail : List UInt8) : Prop :=
  (∃ b l, tail = b :: l ∧ OperandByte b) ∧ (∀ n bs, Operand n bs → ¬ bs <+: tail) ∧ ¬ CutOperand tail

/-- An unknown operator: it does not start like an operand, and is neither a
complete operator nor the first byte of a two-byte one. -/
def BadOperator (tail : List UInt8) : Prop :=
  (∃ b l, tail = b :: l ∧ ¬ OperandByte b) ∧ tail ≠ [12] ∧ ∀ op, ¬ opCode op <+: tail

end PS.Spec
