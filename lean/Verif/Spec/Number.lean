import Verif.Spec.Bytes
import Mathlib.Data.Rat.Defs
import Mathlib.Algebra.Order.Field.Rat
/-!
# Specification: operands of dictionaries and of Type 2 programs

From "The Compact Font Format Specification" (Technical Note #5176), section 4,
and "The Type 2 Charstring Format" (Technical Note #5177), section 3.2.
-/
namespace PS.Spec

/-- The forms common to dictionaries and Type 2 programs: `ShortInt i bs` says
that `bs` encodes `i` in one byte, in two bytes, or as 28 and 16 bits. -/
inductive ShortInt : Int → List UInt8 → Prop
  /-- `b0` in 32..246 stands for `b0 - 139`. -/
  | oneByte (b0 : UInt8) : 32 ≤ b0.toNat → b0.toNat ≤ 246 → ShortInt (b0.toNat - 139) [b0]
  /-- `b0` in 247..250 stands for `(b0 - 247) * 256 + b1 + 108`. -/
  | positive (b0 b1 : UInt8) : 247 ≤ b0.toNat → b0.toNat ≤ 250 →
    ShortInt ((b0.toNat - 247) * 256 + b1.toNat + 108) [b0, b1]
  /-- `b0` in 251..254 stands for `-(b0 - 251) * 256 - b1 - 108`. -/
  | negative (b0 b1 : UInt8) : 251 ≤ b0.toNat → b0.toNat ≤ 254 →
    ShortInt (-((b0.toNat - 251) * 256) - b1.toNat - 108) [b0, b1]
  /-- 28 and a 16-bit two's complement number. -/
  | word (i : Int) : -32768 ≤ i → i ≤ 32767 → ShortInt i (28 :: beSigned 2 i)

/-- `DictInt i bs`: `bs` encodes the integer `i` as an operand of a dictionary. -/
inductive DictInt : Int → List UInt8 → Prop
  | short {i bs} : ShortInt i bs → DictInt i bs
  /-- 29 and a 32-bit two's complement number. -/
  | long (i : Int) : -2147483648 ≤ i → i ≤ 2147483647 → DictInt i (29 :: beSigned 4 i)

/-- The encoder of integers with the fewest bytes. -/
def encodeShortInt (i : Int) : List UInt8 :=
  if -107 ≤ i ∧ i ≤ 107 then [UInt8.ofNat (i + 139).toNat]
  else if 108 ≤ i ∧ i ≤ 1131 then
    [UInt8.ofNat ((i - 108).toNat / 256 + 247), UInt8.ofNat ((i - 108).toNat % 256)]
  else if -1131 ≤ i ∧ i ≤ -108 then
    [UInt8.ofNat ((-i - 108).toNat / 256 + 251), UInt8.ofNat ((-i - 108).toNat % 256)]
  else 28 :: beSigned 2 i

/-- The encoder of dictionary integers with the fewest bytes. -/
def encodeDictInt (i : Int) : List UInt8 :=
  if -32768 ≤ i ∧ i ≤ 32767 then encodeShortInt i else 29 :: beSigned 4 i

/-! ## Real operands -/

/-- A decimal literal: a sign, digits with an optional point, and an optional
exponent with its sign. -/
structure Decimal where
  neg : Bool
  int : List (Fin 10)
  frac : Option (List (Fin 10))
  exp : Option (Bool × List (Fin 10))

namespace Decimal

/-- There is a digit in the mantissa and, if there is an exponent, in it. -/
def Valid (d : Decimal) : Prop :=
  d.int ++ d.frac.getD [] ≠ [] ∧ ∀ x ∈ d.exp, x.2 ≠ []

/-- The character of a digit. -/
def digit (n : Fin 10) : Char := Char.ofNat (48 + n.val)

/-- A minus sign or nothing. -/
def sign (neg : Bool) : List Char := if neg then ['-'] else []

/-- The point with the digits after it. -/
def fracText : Option (List (Fin 10)) → List Char
  | none => []
  | some ds => '.' :: ds.map digit

/-- The exponent. -/
def expText : Option (Bool × List (Fin 10)) → List Char
  | none => []
  | some (neg, ds) => 'e' :: (sign neg ++ ds.map digit)

/-- The literal as text. -/
def text (d : Decimal) : List Char :=
  sign d.neg ++ d.int.map digit ++ fracText d.frac ++ expText d.exp

/-- The number spelled by a list of digits. -/
def number : List (Fin 10) → Nat
  | [] => 0
  | d :: ds => d.val * 10 ^ ds.length + number ds

/-- The digits of the mantissa read as an integer. -/
def mantissa (d : Decimal) : Nat := number (d.int ++ d.frac.getD [])

/-- The exponent as a number. -/
def expValue : Option (Bool × List (Fin 10)) → Int
  | none => 0
  | some (true, ds) => -(number ds : Int)
  | some (false, ds) => number ds

/-- The power of ten applied to `mantissa`. -/
def exponent (d : Decimal) : Int := expValue d.exp - (d.frac.getD []).length

/-- The absolute value of the literal. -/
def magnitude (d : Decimal) : ℚ := (d.mantissa : ℚ) * (10 : ℚ) ^ d.exponent

end Decimal

/-- The meaning of a nibble of a real operand (Table 5 of the CFF
specification); 13 is reserved and 15 ends the operand. -/
def nibbleText (n : Nat) : Option (List Char) :=
  match n with
  | 0 => some ['0']
  | 1 => some ['1']
  | 2 => some ['2']
  | 3 => some ['3']
  | 4 => some ['4']
  | 5 => some ['5']
  | 6 => some ['6']
  | 7 => some ['7']
  | 8 => some ['8']
  | 9 => some ['9']
  | 10 => some ['.']
  | 11 => some ['e']
  | 12 => some ['e', '-']
  | 14 => some ['-']
  | _ => none

/-- The text spelled by nibbles without the end mark. -/
def spell : List Nat → Option (List Char)
  | [] => some []
  | n :: ns =>
    match nibbleText n, spell ns with
    | some t, some u => some (t ++ u)
    | _, _ => none

/-- The nibbles of bytes, the high one first. -/
def nibbles (bs : List UInt8) : List Nat :=
  bs.flatMap fun b => [b.toNat / 16, b.toNat % 16]

/-- `bs` is the packed form of `text`: its nibbles spell the text, followed by
the end mark 15 and, if the number of nibbles would otherwise be odd, any
nibble. -/
def Packed (text : List Char) (bs : List UInt8) : Prop :=
  ∃ ns pad, nibbles bs = ns ++ 15 :: pad ∧ pad.length ≤ 1 ∧ spell ns = some text

end PS.Spec
