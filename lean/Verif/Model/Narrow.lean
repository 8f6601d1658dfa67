import Verif.Model.FontSet
/-!
# Font sets on 32-bit targets

The readers that depend on the width of `usize`, as they are on targets where `usize` has
32 bits: memory for at most `2^31 - 1` bytes can be reserved, and `as usize` keeps 32 bits.
The readers that only count up to 65536 elements of at most 4 bytes are the same there.
-/
namespace PS.Narrow

/-- `tape.take_given::<Vec<_>>(count)`, as `Rd.vec`; `isize::MAX` is `2^31 - 1`.
Used in src/compact1/encoding.rs:23,35,47, src/compact1/font_set/character_id_keyed.rs:50,148
and src/compact1/character_set.rs:101. -/
def vec (width count : Nat) (m : Rd α) : Rd (List α) := do
  let c ← Rd.cfg
  if c.prealloc ∧ count * width > 2 ^ 31 - 1 then Rd.panic .capacity
  else Rd.replicate count m

/-- `tape.take_given::<Vec<u8>>(size)`, as `Rd.bytes`.
Used in src/compact1/index/mod.rs:45, src/compact1/font_set/character_id_keyed.rs:107,
src/compact1/font_set/character_name_keyed.rs:26 and src/type2/program.rs:180. -/
def bytes (size : Nat) : Rd (List UInt8) := vec 1 size Rd.u8

/-- The second loop of `Index::read`, src/compact1/index/mod.rs:40-46, over the
offsets from number `i` on.  `as usize` keeps all values of `u32`. -/
def readData : List UInt32 → Rd (List (List UInt8))
  | a :: b :: rest =>
    if b < a then Rd.raise .malformedIndex
    else do
      let c ← Rd.cfg
      let size ← Rd.ofRes (subU32 c.checks b a)
      let chunk ← bytes size.toNat
      let data ← readData (b :: rest)
      pure (chunk :: data)
  | _ => pure []

/-- `Index::read`, src/compact1/index/mod.rs:19-54. -/
def readIndex : Rd Index := do
  let count ← Rd.u16
  if count = 0 then pure Index.empty
  else do
    let offsetSize ← Rd.u8
    let offsets ← Rd.replicate (count.toNat + 1) (readOffset offsetSize)
    match offsets with
    | [] => Rd.panic .bounds
    | first :: _ =>
      if first ≠ 1 then Rd.raise .malformedIndex
      else do
        let data ← readData offsets
        pure { count, offsetSize, offsets, data }

/-- `CharacterStrings::read`, src/compact1/index/character_strings.rs:9-18. -/
def readCharacterStrings (format : Int) : Rd Index :=
  if format = 2 then readIndex else Rd.raise .unknownCharacterStringFormat

/-- `CharacterSet0::read`, src/compact1/character_set.rs:91-104.
`glyph_count - 1` is a subtraction in `usize`. -/
def readSet0 (glyphCount : Nat) : Rd CharacterSet := do
  let format ← Rd.u8
  if format ≠ 0 then Rd.raise .malformedCharacterSet
  else do
    let c ← Rd.cfg
    if glyphCount = 0 ∧ c.checks then Rd.panic .overflow
    else do
      let glyphs ← vec 2 (if glyphCount = 0 then 2 ^ 32 - 1 else glyphCount - 1) Rd.u16
      pure (.format0 format glyphs)

/-- `CharacterSet::read`, src/compact1/character_set.rs:71-82. -/
def readSet (glyphCount : Nat) : Rd CharacterSet := do
  let format ← Rd.peek Rd.u8
  if format = 0 then readSet0 glyphCount
  else if format = 1 then CharacterSet.read1 glyphCount
  else if format = 2 then CharacterSet.read2 glyphCount
  else Rd.raise .unknownCharacterSetFormat

/-- `character_name_keyed::Record::read`,
src/compact1/font_set/character_name_keyed.rs:16-37, and
`character_id_keyed::RecordInner::read`,
src/compact1/font_set/character_id_keyed.rs:97-118.  `size as usize` keeps the 32 bits
of `size`. -/
def readPrivate (position : Nat) (topOperations : Operations) : Rd PrivateRecord := do
  let c ← Rd.cfg
  let (size, offset) ← Rd.ofRes (getII topOperations .opPrivate)
  jumpTo position offset
  let chunk ← bytes (toU 32 size)
  let operations ← Rd.ofRes (Operations.ofBytes c chunk)
  let another ← Rd.ofRes (tryGetI operations .opSubrs)
  let subroutines ← (match another with
    | some anotherOffset => do
      let sum ← Rd.ofRes (addI32 c.checks offset anotherOffset)
      jumpTo position sum
      readIndex
    | none => pure Index.empty : Rd Index)
  pure { operations, subroutines }

/-- The loop of src/compact1/font_set/character_id_keyed.rs:82-85. -/
def readPrivates (position : Nat) : List Operations → Rd (List PrivateRecord)
  | [] => pure []
  | topOperations :: rest => do
    let record ← readPrivate position topOperations
    let records ← readPrivates position rest
    pure (record :: records)

/-- `character_id_keyed::Record::read`,
src/compact1/font_set/character_id_keyed.rs:66-95. -/
def readCID (position : Nat) (topOperations : Operations) (characterStrings : Index) :
    Rd CIDRecord :=
  match topOperations.get .opROS with
  | some [registry, ordering, supplement] => do
    let c ← Rd.cfg
    let offset ← Rd.ofRes (getI topOperations .opFDSelect)
    jumpTo position offset
    let encoding ← DictEncoding.read characterStrings
    let offset ← Rd.ofRes (getI topOperations .opFDArray)
    jumpTo position offset
    let dictionaries ← readIndex
    let operations ← Rd.ofRes (dictionaries.toOperations c)
    let records ← readPrivates position operations
    let registry ← Rd.ofRes (stringIDOfNumber registry)
    let ordering ← Rd.ofRes (stringIDOfNumber ordering)
    pure { registry, ordering, supplement, encoding, operations, records }
  | _ => Rd.raise .malformedRecord

/-- `Record::read`, src/compact1/font_set/mod.rs:118-137. -/
def readRecord (position : Nat) (operations : Operations) (characterStrings : Index) :
    Rd Record :=
  if operations.containsKey .opROS then do
    let record ← readCID position operations characterStrings
    pure (.characterIDKeyed record)
  else do
    let record ← readPrivate position operations
    pure (.characterNameKeyed record)

/-- The body of the loop of `FontSet::read`, src/compact1/font_set/mod.rs:78-102. -/
def readEntry (position : Nat) (operations : Operations) : Rd FontEntry := do
  let offset ← Rd.ofRes (getI operations .opCharStrings)
  jumpTo position offset
  let format ← Rd.ofRes (getI operations .opCharStringType)
  let characterStrings ← readCharacterStrings format
  let offset ← Rd.ofRes (getI operations .opCharSet)
  let characterSet ←
    (if offset = 0 then pure CharacterSet.isoAdobe
    else if offset = 1 then pure CharacterSet.expert
    else if offset = 2 then pure CharacterSet.expertSubset
    else do
      jumpTo position offset
      readSet characterStrings.count.toNat : Rd CharacterSet)
  let offset ← Rd.ofRes (getI operations .opEncoding)
  let encoding ←
    (if offset = 0 then pure Encoding.standard
    else if offset = 1 then pure Encoding.expert
    else do
      jumpTo position offset
      Encoding.read : Rd Encoding)
  let record ← readRecord position operations characterStrings
  pure { characterStrings, characterSet, encoding, record }

/-- The loop of `FontSet::read`, src/compact1/font_set/mod.rs:77-103. -/
def readEntries (position : Nat) : List Operations → Rd (List FontEntry)
  | [] => pure []
  | operations :: rest => do
    let entry ← readEntry position operations
    let entries ← readEntries position rest
    pure (entry :: entries)

/-- `FontSet::read`, src/compact1/font_set/mod.rs:65-116. -/
def readFontSet : Rd FontSet := do
  let c ← Rd.cfg
  let position ← Rd.position
  let header ← Header.read
  jumpTo position header.headerSize.toNat
  let names ← readIndex
  let dictionaries ← readIndex
  let operations ← Rd.ofRes (dictionaries.toOperations c)
  let strings ← readIndex
  let subroutines ← readIndex
  let entries ← readEntries position operations
  pure {
    header, names, operations, strings, subroutines
    encodings := entries.map FontEntry.encoding
    characterStrings := entries.map FontEntry.characterStrings
    characterSets := entries.map FontEntry.characterSet
    records := entries.map FontEntry.record }

end PS.Narrow
