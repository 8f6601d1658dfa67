import Verif.Model.FontSet
/-!
# The work of reading font sets

`FontSet::read` again, with a count of what it does and of the memory it asks for.  The readers
without loops do a constant amount of work and are taken over from the other modules; here are
the loops, and what leads to them.  The running time of the standard library is not modelled
beyond this: a read from the tape, a seek, pushing to a vector, inserting into a map and parsing
the text of a number count as constant.
-/
namespace PS

/-- What has been done: readers without loops that were run together with iterations of loops
and seeks, and the greatest number of bytes that memory was reserved for at once.
Bookkeeping for the readers of src/compact1/font_set/mod.rs:56-104 and those they call; not in
the code. -/
structure Toll where
  steps : Nat
  reserved : Nat
deriving DecidableEq, Repr

namespace Toll

/-- Nothing.
Bookkeeping for the readers of src/compact1/font_set/mod.rs:56-104 and those they call; not in
the code. -/
def zero : Toll := ⟨0, 0⟩

/-- One after the other.
Bookkeeping for the readers of src/compact1/font_set/mod.rs:56-104 and those they call; not in
the code. -/
def add (a b : Toll) : Toll := ⟨a.steps + b.steps, max a.reserved b.reserved⟩

instance : Add Toll := ⟨add⟩

end Toll

/-- Readers, as `Rd`, with the work they do.
Bookkeeping for the readers of src/compact1/font_set/mod.rs:56-104 and those they call; not in
the code. -/
def Md (α : Type) : Type := Env → Nat → (Res α × Nat) × Toll

namespace Md

/-- `Ok(a)`.
Bookkeeping for the readers of src/compact1/font_set/mod.rs:56-104 and those they call; not in
the code. -/
def pure (a : α) : Md α := fun _ p => ((.ok a, p), .zero)

/-- `?` and sequencing.
Bookkeeping for the readers of src/compact1/font_set/mod.rs:56-104 and those they call; not in
the code. -/
def bind (m : Md α) (f : α → Md β) : Md β := fun env p =>
  match m env p with
  | ((.ok a, p'), w) => ((f a env p').1, w + (f a env p').2)
  | ((.err e, p'), w) => ((.err e, p'), w)
  | ((.panic x, p'), w) => ((.panic x, p'), w)

instance : Monad Md where
  pure := Md.pure
  bind := Md.bind

/-- A reader whose work does not count.
Bookkeeping for the readers of src/compact1/font_set/mod.rs:56-104 and those they call; not in
the code. -/
def lift (m : Rd α) : Md α := fun env p => (m env p, .zero)

/-- A reader without loops.
Bookkeeping for the readers of src/compact1/font_set/mod.rs:56-104 and those they call; not in
the code. -/
def once (m : Rd α) : Md α := fun env p => (m env p, ⟨1, 0⟩)

/-- Iterations of loops that count.
Bookkeeping for the readers of src/compact1/font_set/mod.rs:56-104 and those they call; not in
the code. -/
def spend (n : Nat) : Md Unit := fun _ p => ((.ok (), p), ⟨n, 0⟩)

/-- `Vec::with_capacity` for `n` bytes.
Used in src/compact1/index/mod.rs:31,39. -/
def reserve (n : Nat) : Md Unit := fun _ p => ((.ok (), p), ⟨0, n⟩)

/-- element-by-element reading of `n` values, as `Rd.replicate`.
Used in src/compact1/encoding.rs:23,35,47, src/compact1/font_set/character_id_keyed.rs:50,148
and src/compact1/character_set.rs:101. -/
def replicate (n : Nat) (m : Md α) : Md (List α) :=
  match n with
  | 0 => lift (Rd.pure [])
  | n + 1 => do
    let a ← m
    let as ← replicate n m
    lift (Rd.pure (a :: as))

/-- `tape.take_given::<Vec<_>>(count)`, as `Rd.vec`.  If memory for all elements is reserved
first, then here.
Used in src/compact1/encoding.rs:23,35,47, src/compact1/font_set/character_id_keyed.rs:50,148
and src/compact1/character_set.rs:101. -/
def vec (width count : Nat) (m : Md α) : Md (List α) := do
  let c ← lift Rd.cfg
  if c.prealloc ∧ count * width > 2 ^ 63 - 1 then lift (Rd.panic .capacity)
  else do
    reserve (if c.prealloc then count * width else 0)
    replicate count m

end Md

namespace Metered
open Md

/-- The loop of `parse`, src/compact1/number.rs:53-71, as `Number.parseLoop`. -/
def parseLoop (fuel : Nat) (byte : UInt8) (high : Bool) (buffer : List Char) : Md (List Char) :=
  match fuel with
  | 0 => lift (Rd.panic .fuel)
  | fuel + 1 => do
    spend 1
    let byte ← (if high then once Rd.u8 else lift (Rd.pure byte) : Md UInt8)
    let nibble := if high then byte >>> 4 else byte &&& 0x0f
    let n := nibble.toNat
    if n ≤ 9 then parseLoop fuel byte (!high) (buffer ++ [Char.ofNat (48 + n)])
    else if n = 0x0a then parseLoop fuel byte (!high) (buffer ++ ['.'])
    else if n = 0x0b then parseLoop fuel byte (!high) (buffer ++ ['e'])
    else if n = 0x0c then parseLoop fuel byte (!high) (buffer ++ ['e', '-'])
    else if n = 0x0e then parseLoop fuel byte (!high) (buffer ++ ['-'])
    else if n = 0x0f then lift (Rd.pure buffer)
    else lift (Rd.raise .malformedNumber)

/-- `parse`, src/compact1/number.rs:49-76, as `Number.parse`. -/
def parse : Md F32 := do
  let size ← lift Rd.size
  let buffer ← parseLoop (2 * size + 2) 0 true []
  match parseF32 buffer with
  | some value => lift (Rd.pure value)
  | none => lift (Rd.raise .malformedNumber)

/-- `Number::read`, src/compact1/number.rs:28-47, as `Number.read`. -/
def readNumber : Md Number := do
  let first ← once Rd.u8
  if 0x20 ≤ first ∧ first ≤ 0xf6 then do
    let v ← lift (Rd.i32 (first.toNat - 139))
    lift (Rd.pure (.integer v))
  else if 0xf7 ≤ first ∧ first ≤ 0xfa then do
    let v ← once (Rd.positiveTwoByte first)
    lift (Rd.pure (.integer v))
  else if 0xfb ≤ first ∧ first ≤ 0xfe then do
    let v ← once (Rd.negativeTwoByte first)
    lift (Rd.pure (.integer v))
  else if first = 0x1c then do
    let v ← once Rd.u16
    lift (Rd.pure (.integer (toS 16 v.toNat)))
  else if first = 0x1d then do
    let v ← once Rd.u32
    lift (Rd.pure (.integer (toS 32 v.toNat)))
  else if first = 0x1e then do
    let x ← parse
    lift (Rd.pure (.real x))
  else lift (Rd.raise .malformedNumber)

/-- `Operation::read`, src/compact1/operation.rs:76-93, as `Operations.readOperationLoop`. -/
def readOperationLoop (fuel : Nat) (operands : List Number) : Md (Operator × List Number) :=
  match fuel with
  | 0 => lift (Rd.panic .fuel)
  | fuel + 1 => do
    let code ← once (Rd.peek Rd.u8)
    if Operations.isOperandByte code then do
      let operand ← readNumber
      readOperationLoop fuel (operands ++ [operand])
    else do
      let code ← once (if code = 0x0c then Rd.u16 else do
        let b ← Rd.u8
        pure (UInt16.ofNat b.toNat) : Rd UInt16)
      let operator ← lift (Rd.ofRes (Operator.from code))
      lift (Rd.pure (operator, operands))

/-- `Operation::read`, src/compact1/operation.rs:76-93, as `Operations.readOperation`. -/
def readOperation : Md (Operator × List Number) := do
  let size ← lift Rd.size
  readOperationLoop (size + 1) []

/-- The loop of `Operations::read`, src/compact1/operation.rs:57-69, as `Operations.readLoop`. -/
def readLoop (fuel : Nat) (operations : Operations) : Md Operations :=
  match fuel with
  | 0 => lift (Rd.panic .fuel)
  | fuel + 1 => fun env p =>
    match readOperation env p with
    | ((.ok (operator, operands), p'), w) =>
      ((readLoop fuel (operations.insert operator operands) env p').1,
        w + (readLoop fuel (operations.insert operator operands) env p').2)
    | ((.err .eof, p'), w) => ((.ok operations, p'), w)
    | ((.err e, p'), w) => ((.err e, p'), w)
    | ((.panic x, p'), w) => ((.panic x, p'), w)

/-- `Operations::read`, src/compact1/operation.rs:52-72, as `Operations.read`. -/
def readOperations : Md Operations := do
  let size ← lift Rd.size
  readLoop (size + 1) .empty

/-- `Cursor::new(chunk).take::<Operations>()`, as `Operations.ofBytes`, as part of another reader.
Used in src/compact1/font_set/character_id_keyed.rs:108 and
src/compact1/font_set/character_name_keyed.rs:27. -/
def ofBytes (chunk : List UInt8) : Md Operations := fun env p =>
  (((readOperations { env with data := chunk } 0).1.1, p), (readOperations { env with data := chunk } 0).2)

/-- The loop of `TryFrom<&Dictionaries>`, src/compact1/index/dictionaries.rs:24-30, as
`Index.toOperationsFrom`, for the remaining entries. -/
def toOperationsFrom : List (List UInt8) → Md (List Operations)
  | [] => lift (Rd.pure [])
  | chunk :: chunks => do
    spend 1
    let operations ← ofBytes chunk
    let rest ← toOperationsFrom chunks
    lift (Rd.pure (operations :: rest))

/-- `TryFrom<&Dictionaries> for Vec<Operations>`, src/compact1/index/dictionaries.rs:21-31, as
`Index.toOperations`.  An `Operations` is taken to have 48 bytes, as it has on targets with words
of 64 bits. -/
def toOperations (dictionaries : Index) : Md (List Operations) := do
  reserve (48 * dictionaries.data.length)
  toOperationsFrom dictionaries.data

/-- `tape.take_given::<Vec<u8>>(size)`, as `Rd.bytes`.
Used in src/compact1/index/mod.rs:45, src/compact1/font_set/character_id_keyed.rs:107,
src/compact1/font_set/character_name_keyed.rs:26 and src/type2/program.rs:180. -/
def bytes (size : Nat) : Md (List UInt8) := vec 1 size (once Rd.u8)

/-- The second loop of `Index::read`, src/compact1/index/mod.rs:40-46, as `Index.readData`. -/
def readData : List UInt32 → Md (List (List UInt8))
  | a :: b :: rest => do
    spend 1
    if b < a then lift (Rd.raise .malformedIndex)
    else do
      let c ← lift Rd.cfg
      let size ← lift (Rd.ofRes (subU32 c.checks b a))
      let chunk ← bytes size.toNat
      let data ← readData (b :: rest)
      lift (Rd.pure (chunk :: data))
  | _ => lift (Rd.pure [])

/-- `Index::read`, src/compact1/index/mod.rs:19-54, as `Index.read`.  An `Offset` has 4 bytes and
a `Vec<u8>` has 24 on targets with words of 64 bits. -/
def readIndex : Md Index := do
  let count ← once Rd.u16
  if count = 0 then lift (Rd.pure .empty)
  else do
    let offsetSize ← once Rd.u8
    reserve (4 * (count.toNat + 1))
    let offsets ← replicate (count.toNat + 1) (once (readOffset offsetSize))
    match offsets with
    | [] => lift (Rd.panic .bounds)
    | first :: _ =>
      if first ≠ 1 then lift (Rd.raise .malformedIndex)
      else do
        reserve (24 * count.toNat)
        let data ← readData offsets
        lift (Rd.pure { count, offsetSize, offsets, data })

/-- `CharacterStrings::read`, src/compact1/index/character_strings.rs:9-18, as
`readCharacterStrings`. -/
def readCharacterStrings (format : Int) : Md Index :=
  if format = 2 then readIndex else lift (Rd.raise .unknownCharacterStringFormat)

/-- `CharacterSet0::read`, src/compact1/character_set.rs:91-104, as `CharacterSet.read0`. -/
def readSet0 (glyphCount : Nat) : Md CharacterSet := do
  let format ← once Rd.u8
  if format ≠ 0 then lift (Rd.raise .malformedCharacterSet)
  else do
    let c ← lift Rd.cfg
    if glyphCount = 0 ∧ c.checks then lift (Rd.panic .overflow)
    else do
      let glyphs ← vec 2 (if glyphCount = 0 then 2 ^ 64 - 1 else glyphCount - 1) (once Rd.u16)
      lift (Rd.pure (.format0 format glyphs))

/-- The `while` loop of `CharacterSet1::read`, src/compact1/character_set.rs:124-128, as
`CharacterSet.readRanges1`. -/
def readRanges1 (fuel glyphCount foundCount : Nat) : Md (Nat × List CharRange1) :=
  if foundCount < glyphCount then
    match fuel with
    | 0 => lift (Rd.panic .fuel)
    | fuel + 1 => do
      let range ← once CharacterSet.readRange1
      let (n, ranges) ← readRanges1 fuel glyphCount (foundCount + (1 + range.leftCount.toNat))
      lift (Rd.pure (n, range :: ranges))
  else lift (Rd.pure (foundCount, []))

/-- `CharacterSet1::read`, src/compact1/character_set.rs:113-134, as `CharacterSet.read1`. -/
def readSet1 (glyphCount : Nat) : Md CharacterSet := do
  let format ← once Rd.u8
  if format ≠ 1 then lift (Rd.raise .malformedCharacterSet)
  else do
    let (foundCount, ranges) ← readRanges1 glyphCount glyphCount (0 + 1)
    if foundCount ≠ glyphCount then lift (Rd.raise .malformedCharacterSet)
    else lift (Rd.pure (.format1 format ranges))

/-- The `while` loop of `CharacterSet2::read`, src/compact1/character_set.rs:155-159, as
`CharacterSet.readRanges2`. -/
def readRanges2 (fuel glyphCount foundCount : Nat) : Md (Nat × List CharRange2) :=
  if foundCount < glyphCount then
    match fuel with
    | 0 => lift (Rd.panic .fuel)
    | fuel + 1 => do
      let range ← once CharacterSet.readRange2
      let (n, ranges) ← readRanges2 fuel glyphCount (foundCount + (1 + range.leftCount.toNat))
      lift (Rd.pure (n, range :: ranges))
  else lift (Rd.pure (foundCount, []))

/-- `CharacterSet2::read`, src/compact1/character_set.rs:143-165, as `CharacterSet.read2`. -/
def readSet2 (glyphCount : Nat) : Md CharacterSet := do
  let format ← once Rd.u8
  if format ≠ 2 then lift (Rd.raise .malformedCharacterSet)
  else do
    let (foundCount, ranges) ← readRanges2 glyphCount glyphCount (0 + 1)
    if foundCount ≠ glyphCount then lift (Rd.raise .malformedCharacterSet)
    else lift (Rd.pure (.format2 format ranges))

/-- `CharacterSet::read`, src/compact1/character_set.rs:71-82, as `CharacterSet.read`. -/
def readSet (glyphCount : Nat) : Md CharacterSet := do
  let format ← once (Rd.peek Rd.u8)
  if format = 0 then readSet0 glyphCount
  else if format = 1 then readSet1 glyphCount
  else if format = 2 then readSet2 glyphCount
  else lift (Rd.raise .unknownCharacterSetFormat)

/-- `Encoding0::read`, src/compact1/encoding.rs:16-26, as `Encoding.read0`. -/
def readEncoding0 : Md Encoding := do
  let format ← once Rd.u8
  if format ≠ 0 then lift (Rd.raise .malformedTable)
  else do
    let codeCount ← once Rd.u8
    let codes ← vec 1 codeCount.toNat (once Rd.u8)
    lift (Rd.pure (.format0 format codeCount codes))

/-- `Encoding1::read`, src/compact1/encoding.rs:28-38, as `Encoding.read1`. -/
def readEncoding1 : Md Encoding := do
  let format ← once Rd.u8
  if format ≠ 1 then lift (Rd.raise .malformedTable)
  else do
    let rangeCount ← once Rd.u8
    let ranges ← vec 2 rangeCount.toNat (once Encoding.readRange1)
    lift (Rd.pure (.format1 format rangeCount ranges))

/-- `EncodingSupplemental::read`, src/compact1/encoding.rs:40-50, as `Encoding.readSupplemental`. -/
def readSupplemental : Md Encoding := do
  let format ← once Rd.u8
  let supplementCount ← once Rd.u8
  let supplements ← vec 4 supplementCount.toNat (once Encoding.readSupplement)
  lift (Rd.pure (.supplemental format supplementCount supplements))

/-- `Encoding::read`, src/compact1/encoding.rs:83-92, as `Encoding.read`. -/
def readEncoding : Md Encoding := do
  let format ← once (Rd.peek Rd.u8)
  if format = 0 then readEncoding0
  else if format = 1 then readEncoding1
  else if format &&& 0x80 > 0 then readSupplemental
  else lift (Rd.raise .unknownEncodingFormat)

/-- `character_name_keyed::Record::read`,
src/compact1/font_set/character_name_keyed.rs:16-37, and
`character_id_keyed::RecordInner::read`,
src/compact1/font_set/character_id_keyed.rs:97-118, as `PrivateRecord.read`. -/
def readPrivate (position : Nat) (topOperations : Operations) : Md PrivateRecord := do
  let c ← lift Rd.cfg
  let (size, offset) ← lift (Rd.ofRes (getII topOperations .opPrivate))
  once (jumpTo position offset)
  let chunk ← bytes (toU 64 size)
  let operations ← ofBytes chunk
  let another ← lift (Rd.ofRes (tryGetI operations .opSubrs))
  let subroutines ← (match another with
    | some anotherOffset => do
      let sum ← lift (Rd.ofRes (addI32 c.checks offset anotherOffset))
      once (jumpTo position sum)
      readIndex
    | none => lift (Rd.pure .empty) : Md Index)
  lift (Rd.pure { operations, subroutines })

/-- `Encoding0::read`, src/compact1/font_set/character_id_keyed.rs:137-151, as
`DictEncoding.read0`. -/
def readSelect0 (characterStrings : Index) : Md DictEncoding := do
  let format ← once Rd.u8
  let dictionaryIDs ← vec 1 characterStrings.count.toNat (once Rd.u8)
  lift (Rd.pure (.format0 format dictionaryIDs))

/-- `Encoding3::read`, src/compact1/font_set/character_id_keyed.rs:43-55, as
`DictEncoding.read3`. -/
def readSelect3 : Md DictEncoding := do
  let format ← once Rd.u8
  if format ≠ 3 then lift (Rd.raise .malformedTable)
  else do
    let rangeCount ← once Rd.u16
    let ranges ← vec 4 rangeCount.toNat (once DictEncoding.readRange3)
    let glyphCount ← once Rd.u16
    lift (Rd.pure (.format3 format rangeCount ranges glyphCount))

/-- `Encoding::read`, src/compact1/font_set/character_id_keyed.rs:120-135, as
`DictEncoding.read`. -/
def readSelect (characterStrings : Index) : Md DictEncoding := do
  let format ← once (Rd.peek Rd.u8)
  if format = 0 then readSelect0 characterStrings
  else if format = 3 then readSelect3
  else lift (Rd.raise .unknownDictionaryEncodingFormat)

/-- The loop of src/compact1/font_set/character_id_keyed.rs:82-85, as `readPrivateRecords`. -/
def readPrivateRecords (position : Nat) : List Operations → Md (List PrivateRecord)
  | [] => lift (Rd.pure [])
  | topOperations :: rest => do
    spend 1
    let record ← readPrivate position topOperations
    let records ← readPrivateRecords position rest
    lift (Rd.pure (record :: records))

/-- `character_id_keyed::Record::read`,
src/compact1/font_set/character_id_keyed.rs:66-95, as `CIDRecord.read`. -/
def readCIDRecord (position : Nat) (topOperations : Operations) (characterStrings : Index) : Md CIDRecord :=
  match topOperations.get .opROS with
  | some [registry, ordering, supplement] => do
    let offset ← lift (Rd.ofRes (getI topOperations .opFDSelect))
    once (jumpTo position offset)
    let encoding ← readSelect characterStrings
    let offset ← lift (Rd.ofRes (getI topOperations .opFDArray))
    once (jumpTo position offset)
    let dictionaries ← readIndex
    let operations ← toOperations dictionaries
    let records ← readPrivateRecords position operations
    let registry ← lift (Rd.ofRes (stringIDOfNumber registry))
    let ordering ← lift (Rd.ofRes (stringIDOfNumber ordering))
    lift (Rd.pure { registry, ordering, supplement, encoding, operations, records })
  | _ => lift (Rd.raise .malformedRecord)

/-- `Record::read`, src/compact1/font_set/mod.rs:118-137, as `Record.read`. -/
def readRecord (position : Nat) (operations : Operations) (characterStrings : Index) : Md Record :=
  if operations.containsKey .opROS then do
    let record ← readCIDRecord position operations characterStrings
    lift (Rd.pure (.characterIDKeyed record))
  else do
    let record ← readPrivate position operations
    lift (Rd.pure (.characterNameKeyed record))

/-- The body of the loop of `FontSet::read`, src/compact1/font_set/mod.rs:78-102, as
`FontEntry.read`. -/
def readEntry (position : Nat) (operations : Operations) : Md FontEntry := do
  let offset ← lift (Rd.ofRes (getI operations .opCharStrings))
  once (jumpTo position offset)
  let format ← lift (Rd.ofRes (getI operations .opCharStringType))
  let characterStrings ← readCharacterStrings format
  let offset ← lift (Rd.ofRes (getI operations .opCharSet))
  let characterSet ←
    (if offset = 0 then lift (Rd.pure .isoAdobe)
    else if offset = 1 then lift (Rd.pure .expert)
    else if offset = 2 then lift (Rd.pure .expertSubset)
    else do
      once (jumpTo position offset)
      readSet characterStrings.count.toNat : Md CharacterSet)
  let offset ← lift (Rd.ofRes (getI operations .opEncoding))
  let encoding ←
    (if offset = 0 then lift (Rd.pure .standard)
    else if offset = 1 then lift (Rd.pure .expert)
    else do
      once (jumpTo position offset)
      readEncoding : Md Encoding)
  let record ← readRecord position operations characterStrings
  lift (Rd.pure { characterStrings, characterSet, encoding, record })

/-- The loop of `FontSet::read`, src/compact1/font_set/mod.rs:77-103, as `readEntries`. -/
def readEntries (position : Nat) : List Operations → Md (List FontEntry)
  | [] => lift (Rd.pure [])
  | operations :: rest => do
    spend 1
    let entry ← readEntry position operations
    let entries ← readEntries position rest
    lift (Rd.pure (entry :: entries))

/-- `FontSet::read`, src/compact1/font_set/mod.rs:65-116, as `FontSet.read`. -/
def readFontSet : Md FontSet := do
  let position ← lift Rd.position
  let header ← once Header.read
  once (jumpTo position header.headerSize.toNat)
  let names ← readIndex
  let dictionaries ← readIndex
  let operations ← toOperations dictionaries
  let strings ← readIndex
  let subroutines ← readIndex
  let entries ← readEntries position operations
  lift (Rd.pure {
    header, names, operations, strings, subroutines
    encodings := entries.map FontEntry.encoding
    characterStrings := entries.map FontEntry.characterStrings
    characterSets := entries.map FontEntry.characterSet
    records := entries.map FontEntry.record })

end Metered
end PS
