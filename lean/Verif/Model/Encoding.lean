import Verif.Model.Tables
import Verif.Model.Index
/-!
# Glyph encodings
-/
namespace PS

/-- `encoding::Range1`, src/compact1/encoding.rs:52-59. -/
structure EncRange1 where
  firstCode : UInt8
  leftCount : UInt8
deriving DecidableEq, Repr

/-- `encoding::Supplement`, src/compact1/encoding.rs:61-68. -/
structure Supplement where
  code : UInt8
  glyph : UInt16
deriving DecidableEq, Repr

/-- `Encoding` with `Encoding0`, `Encoding1` and `EncodingSupplemental`,
src/compact1/encoding.rs:6-50. -/
inductive Encoding where
  | standard
  | expert
  | format0 (format codeCount : UInt8) (codes : List UInt8)
  | format1 (format rangeCount : UInt8) (ranges : List EncRange1)
  | supplemental (format supplementCount : UInt8) (supplements : List Supplement)
deriving DecidableEq, Repr

namespace Encoding

/-- `Encoding::get`, src/compact1/encoding.rs:72-80 with the macro `get!`
(lines 115-122) and the tables of lines 124-644; the custom formats return
`None` (lines 94-113).  The argument is called `glyph_id` in the source. -/
def get (e : Encoding) (glyphID : UInt16) : Option UInt16 :=
  match e with
  | standard => (Tables.standardEncoding.lookup glyphID.toNat).map fun x => UInt16.ofNat x.1
  | expert => (Tables.expertEncoding.lookup glyphID.toNat).map fun x => UInt16.ofNat x.1
  | format0 .. => none
  | format1 .. => none
  | supplemental .. => none

/-- `Encoding0::read`, generated by `table!`, src/compact1/encoding.rs:16-26. -/
def read0 : Rd Encoding := do
  let format ← Rd.u8
  if format ≠ 0 then Rd.raise .malformedTable
  else do
    let codeCount ← Rd.u8
    let codes ← Rd.vec 1 codeCount.toNat Rd.u8
    pure (format0 format codeCount codes)

/-- `Range1::read`, generated by `table!`, src/compact1/encoding.rs:52-59. -/
def readRange1 : Rd EncRange1 := do
  let firstCode ← Rd.u8
  let leftCount ← Rd.u8
  pure { firstCode, leftCount }

/-- `Encoding1::read`, generated by `table!`, src/compact1/encoding.rs:28-38. -/
def read1 : Rd Encoding := do
  let format ← Rd.u8
  if format ≠ 1 then Rd.raise .malformedTable
  else do
    let rangeCount ← Rd.u8
    let ranges ← Rd.vec 2 rangeCount.toNat readRange1
    pure (format1 format rangeCount ranges)

/-- `Supplement::read`, generated by `table!`, src/compact1/encoding.rs:61-68. -/
def readSupplement : Rd Supplement := do
  let code ← Rd.u8
  let glyph ← Rd.u16
  pure { code, glyph }

/-- `EncodingSupplemental::read`, generated by `table!`, src/compact1/encoding.rs:40-50. -/
def readSupplemental : Rd Encoding := do
  let format ← Rd.u8
  let supplementCount ← Rd.u8
  let supplements ← Rd.vec 4 supplementCount.toNat readSupplement
  pure (supplemental format supplementCount supplements)

/-- `Encoding::read`, src/compact1/encoding.rs:83-92. -/
def read : Rd Encoding := do
  let format ← Rd.peek Rd.u8
  if format = 0 then read0
  else if format = 1 then read1
  else if format &&& 0x80 > 0 then readSupplemental
  else Rd.raise .unknownEncodingFormat

end Encoding

end PS
