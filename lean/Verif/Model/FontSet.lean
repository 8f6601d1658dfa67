import Verif.Model.Operations
import Verif.Model.Strings
import Verif.Model.CharacterSet
import Verif.Model.Encoding
/-!
# Font sets
-/
namespace PS

/-- `compact1::Header`, src/compact1/header.rs:3-12. -/
structure Header where
  major : UInt8
  minor : UInt8
  headerSize : UInt8
  offsetSize : UInt8
deriving DecidableEq, Repr

/-- `Header::read`, generated by `table!`, src/compact1/header.rs:3-12. -/
def Header.read : Rd Header := do
  let major ← Rd.u8
  let minor ← Rd.u8
  let headerSize ← Rd.u8
  let offsetSize ← Rd.u8
  pure { major, minor, headerSize, offsetSize }

/-- The jump in `jump_take!` and `jump_take_given!` of `typeface`:
`tape.jump(position + offset as u64)?`, where `offset` is an `i32` (or a `u8`).
Used in src/compact1/font_set/mod.rs:60,69,78-100,
src/compact1/font_set/character_id_keyed.rs:78-110 and
src/compact1/font_set/character_name_keyed.rs:26-29. -/
def jumpTo (position : Nat) (offset : Int) : Rd Unit := do
  let c ← Rd.cfg
  let q ← Rd.ofRes (addU64 c.checks position (toU 64 offset))
  Rd.jump q

/-- `get!(@single operations, operator)`, src/compact1/font_set/mod.rs:4-10. -/
def getI (operations : Operations) (operator : Operator) : Res Int :=
  match operations.getSingle operator with
  | some (.integer value) => .ok value
  | some _ => .err (.raised .malformedOperation)
  | none => .err (.raised .missingOperation)

/-- `get!(@try @single operations, operator)`, src/compact1/font_set/mod.rs:11-17. -/
def tryGetI (operations : Operations) (operator : Operator) : Res (Option Int) :=
  match operations.getSingle operator with
  | some (.integer value) => .ok (some value)
  | some _ => .err (.raised .malformedOperation)
  | none => .ok none

/-- `get!(@double operations, operator)`, src/compact1/font_set/mod.rs:18-24. -/
def getII (operations : Operations) (operator : Operator) : Res (Int × Int) :=
  match operations.getDouble operator with
  | some (.integer value0, .integer value1) => .ok (value0, value1)
  | some _ => .err (.raised .malformedOperation)
  | none => .err (.raised .missingOperation)

/-- `character_name_keyed::Record`, src/compact1/font_set/character_name_keyed.rs:9-14,
and `character_id_keyed::RecordInner`, src/compact1/font_set/character_id_keyed.rs:20-25:
the same two fields. -/
structure PrivateRecord where
  operations : Operations
  subroutines : Index

/-- `character_name_keyed::Record::read`,
src/compact1/font_set/character_name_keyed.rs:16-37, and
`character_id_keyed::RecordInner::read`,
src/compact1/font_set/character_id_keyed.rs:97-118: the same body.
`size as usize` sign-extends; `offset + another_offset` is an `i32` addition. -/
def PrivateRecord.read (position : Nat) (topOperations : Operations) : Rd PrivateRecord := do
  let c ← Rd.cfg
  let (size, offset) ← Rd.ofRes (getII topOperations .opPrivate)
  jumpTo position offset
  let chunk ← Rd.bytes (toU 64 size)
  let operations ← Rd.ofRes (Operations.ofBytes c chunk)
  let another ← Rd.ofRes (tryGetI operations .opSubrs)
  let subroutines ← (match another with
    | some anotherOffset => do
      let sum ← Rd.ofRes (addI32 c.checks offset anotherOffset)
      jumpTo position sum
      Index.read
    | none => pure Index.empty : Rd Index)
  pure { operations, subroutines }

/-- `character_id_keyed::Range3`, src/compact1/font_set/character_id_keyed.rs:57-64. -/
structure Range3 where
  firstGlyphID : UInt16
  dictionaryID : UInt8
deriving DecidableEq, Repr

/-- `character_id_keyed::Encoding` with `Encoding0` and `Encoding3`,
src/compact1/font_set/character_id_keyed.rs:27-55. -/
inductive DictEncoding where
  | format0 (format : UInt8) (dictionaryIDs : List UInt8)
  | format3 (format : UInt8) (rangeCount : UInt16) (ranges : List Range3) (glyphCount : UInt16)
deriving DecidableEq, Repr

namespace DictEncoding

/-- `Encoding0::read`, src/compact1/font_set/character_id_keyed.rs:137-151.  The
`debug_assert_eq!` holds because the format was peeked. -/
def read0 (characterStrings : Index) : Rd DictEncoding := do
  let format ← Rd.u8
  let dictionaryIDs ← Rd.vec 1 characterStrings.count.toNat Rd.u8
  pure (format0 format dictionaryIDs)

/-- `Range3::read`, generated by `table!`,
src/compact1/font_set/character_id_keyed.rs:57-64. -/
def readRange3 : Rd Range3 := do
  let firstGlyphID ← Rd.u16
  let dictionaryID ← Rd.u8
  pure { firstGlyphID, dictionaryID }

/-- `Encoding3::read`, generated by `table!`,
src/compact1/font_set/character_id_keyed.rs:43-55. -/
def read3 : Rd DictEncoding := do
  let format ← Rd.u8
  if format ≠ 3 then Rd.raise .malformedTable
  else do
    let rangeCount ← Rd.u16
    let ranges ← Rd.vec 4 rangeCount.toNat readRange3
    let glyphCount ← Rd.u16
    pure (format3 format rangeCount ranges glyphCount)

/-- `Encoding::read`, src/compact1/font_set/character_id_keyed.rs:120-135. -/
def read (characterStrings : Index) : Rd DictEncoding := do
  let format ← Rd.peek Rd.u8
  if format = 0 then read0 characterStrings
  else if format = 3 then read3
  else Rd.raise .unknownDictionaryEncodingFormat

end DictEncoding

/-- `character_id_keyed::Record`, src/compact1/font_set/character_id_keyed.rs:9-18. -/
structure CIDRecord where
  registry : UInt16
  ordering : UInt16
  supplement : Number
  encoding : DictEncoding
  operations : List Operations
  records : List PrivateRecord

/-- The loop of src/compact1/font_set/character_id_keyed.rs:82-85. -/
def readPrivateRecords (position : Nat) : List Operations → Rd (List PrivateRecord)
  | [] => pure []
  | topOperations :: rest => do
    let record ← PrivateRecord.read position topOperations
    let records ← readPrivateRecords position rest
    pure (record :: records)

/-- `character_id_keyed::Record::read`,
src/compact1/font_set/character_id_keyed.rs:66-95. -/
def CIDRecord.read (position : Nat) (topOperations : Operations) (characterStrings : Index) :
    Rd CIDRecord :=
  match topOperations.get .opROS with
  | some [registry, ordering, supplement] => do
    let c ← Rd.cfg
    let offset ← Rd.ofRes (getI topOperations .opFDSelect)
    jumpTo position offset
    let encoding ← DictEncoding.read characterStrings
    let offset ← Rd.ofRes (getI topOperations .opFDArray)
    jumpTo position offset
    let dictionaries ← Index.read
    let operations ← Rd.ofRes (dictionaries.toOperations c)
    let records ← readPrivateRecords position operations
    let registry ← Rd.ofRes (stringIDOfNumber registry)
    let ordering ← Rd.ofRes (stringIDOfNumber ordering)
    pure { registry, ordering, supplement, encoding, operations, records }
  | _ => Rd.raise .malformedRecord

/-- `font_set::Record`, src/compact1/font_set/mod.rs:48-53. -/
inductive Record where
  | characterIDKeyed (record : CIDRecord)
  | characterNameKeyed (record : PrivateRecord)

/-- `Record::read`, src/compact1/font_set/mod.rs:118-137. -/
def Record.read (position : Nat) (operations : Operations) (characterStrings : Index) :
    Rd Record :=
  if operations.containsKey .opROS then do
    let record ← CIDRecord.read position operations characterStrings
    pure (.characterIDKeyed record)
  else do
    let record ← PrivateRecord.read position operations
    pure (.characterNameKeyed record)

/-- `FontSet`, src/compact1/font_set/mod.rs:34-46. -/
structure FontSet where
  header : Header
  names : Index
  operations : List Operations
  strings : Index
  subroutines : Index
  encodings : List Encoding
  characterStrings : List Index
  characterSets : List CharacterSet
  records : List Record

/-- What one iteration of the loop of `FontSet::read` pushes to the vectors.
src/compact1/font_set/mod.rs:77-103. -/
structure FontEntry where
  characterStrings : Index
  characterSet : CharacterSet
  encoding : Encoding
  record : Record

/-- The body of the loop of `FontSet::read`, src/compact1/font_set/mod.rs:78-102. -/
def FontEntry.read (position : Nat) (operations : Operations) : Rd FontEntry := do
  let offset ← Rd.ofRes (getI operations .opCharStrings)
  jumpTo position offset
  let format ← Rd.ofRes (getI operations .opCharStringType)
  let characterStrings ← readCharacterStrings format
  let offset ← Rd.ofRes (getI operations .opCharSet)
  let characterSet ←
    (if offset = 0 then pure CharacterSet.isoAdobe
    else if offset = 1 then pure CharacterSet.expert
    else if offset = 2 then pure CharacterSet.expertSubset
    else do
      jumpTo position offset
      CharacterSet.read characterStrings.count.toNat : Rd CharacterSet)
  let offset ← Rd.ofRes (getI operations .opEncoding)
  let encoding ←
    (if offset = 0 then pure Encoding.standard
    else if offset = 1 then pure Encoding.expert
    else do
      jumpTo position offset
      Encoding.read : Rd Encoding)
  let record ← Record.read position operations characterStrings
  pure { characterStrings, characterSet, encoding, record }

/-- The loop of `FontSet::read`, src/compact1/font_set/mod.rs:77-103. -/
def readEntries (position : Nat) : List Operations → Rd (List FontEntry)
  | [] => pure []
  | operations :: rest => do
    let entry ← FontEntry.read position operations
    let entries ← readEntries position rest
    pure (entry :: entries)

/-- `FontSet::read`, src/compact1/font_set/mod.rs:65-116. -/
def FontSet.read : Rd FontSet := do
  let c ← Rd.cfg
  let position ← Rd.position
  let header ← Header.read
  jumpTo position header.headerSize.toNat
  let names ← Index.read
  let dictionaries ← Index.read
  let operations ← Rd.ofRes (dictionaries.toOperations c)
  let strings ← Index.read
  let subroutines ← Index.read
  let entries ← readEntries position operations
  pure {
    header, names, operations, strings, subroutines
    encodings := entries.map FontEntry.encoding
    characterStrings := entries.map FontEntry.characterStrings
    characterSets := entries.map FontEntry.characterSet
    records := entries.map FontEntry.record }

/-- `FontSet::count`, src/compact1/font_set/mod.rs:57-62. -/
def FontSet.count : Rd Nat := do
  let position ← Rd.position
  let header ← Header.read
  jumpTo position header.headerSize.toNat
  let count ← Rd.u16
  pure count.toNat

end PS
