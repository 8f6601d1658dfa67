import Verif.Model.FontSet
/-!
# Readers on sources that hesitate and fail

The tapes of the other modules deliver whatever is asked for.  Those of the standard library need
not: `Read::read` may deliver fewer bytes than there is room for, it may be interrupted, and it
may fail, as `Seek::seek` may.  Here is `FontSet::read` again, on a source of which every answer
is chosen by somebody else, with `Read::read_exact` as the loop that it is.
-/
namespace PS

/-- How a source answers a request.
It concerns what is behind `tape::Read` of src/lib.rs:10 in src/compact1/font_set/mod.rs:56-104. -/
inductive Answer where
  /-- a read delivers at most `n + 1` bytes; a seek is done -/
  | upTo (n : Nat)
  /-- a read fails with the kind `Interrupted`; a seek, which knows no interruptions, is done -/
  | interrupted
  /-- a read or a seek fails with an error of another kind, neither `Interrupted` nor
  `UnexpectedEof`, told from others by its number -/
  | failure (f : Nat)
deriving DecidableEq, Repr

/-- What is left: the position, and the answers to come.  Once there are no more answers, whatever
is asked for is delivered and done; since a reader that ends has made finitely many requests,
this leaves nothing out.
It concerns what is behind `tape::Read` of src/lib.rs:10 in src/compact1/font_set/mod.rs:56-104. -/
structure Feed where
  position : Nat
  answers : List Answer
deriving DecidableEq, Repr

/-- What becomes of reading: a result as from other tapes, or a failure of the source.
It concerns what is behind `tape::Read` of src/lib.rs:10 in src/compact1/font_set/mod.rs:56-104. -/
inductive Upshot (α : Type) where
  | done (r : Res α)
  | failed (f : Nat)
deriving DecidableEq, Repr

/-- Readers, as `Rd`, on such sources.
It concerns what is behind `tape::Read` of src/lib.rs:10 in src/compact1/font_set/mod.rs:56-104. -/
def Fd (α : Type) : Type := Env → Feed → Upshot α × Feed

namespace Fd

/-- `Ok(a)`.
Used in src/compact1/font_set/mod.rs:58-61 and all other readers. -/
def pure (a : α) : Fd α := fun _ s => (.done (.ok a), s)

/-- `?` and sequencing.
Used in src/compact1/font_set/mod.rs:58-61 and all other readers. -/
def bind (m : Fd α) (f : α → Fd β) : Fd β := fun env s =>
  match m env s with
  | (.done (.ok a), s') => f a env s'
  | (.done (.err e), s') => (.done (.err e), s')
  | (.done (.panic x), s') => (.done (.panic x), s')
  | (.failed f, s') => (.failed f, s')

instance : Monad Fd where
  pure := Fd.pure
  bind := Fd.bind

/-- `raise!(...)`.
Used in src/compact1/index/mod.rs:37,42 and the other uses of `raise!`, imported in
src/lib.rs:3. -/
def raise (r : Reason) : Fd α := fun _ s => (.done (.err (.raised r)), s)

/-- a panic.
See `Panic`; for instance src/compact1/index/mod.rs:44. -/
def panic (x : Panic) : Fd α := fun _ s => (.done (.panic x), s)

/-- access to the configuration (not an operation of the code).
See `Config`; for instance src/compact1/index/mod.rs:44 depends on it. -/
def cfg : Fd Config := fun env s => (.done (.ok env.cfg), s)

/-- the length of the tape, used only to bound modelled loops.
The loops are those of src/compact1/number.rs:51 and src/compact1/operation.rs:57,79. -/
def size : Fd Nat := fun env s => (.done (.ok env.data.length), s)

/-- a reader running on the result of a computation that does not touch the source.
Used in src/compact1/index/mod.rs:44. -/
def ofRes (r : Res α) : Fd α := fun _ s => (.done r, s)

/-- The loop of `std::io::Read::read_exact`: ask for the `n` bytes that are missing, after those
in `got`; ask again after an interruption and after fewer bytes; an answer without bytes is the
end of the file.
It is what `take` comes to, src/compact1/index/mod.rs:21 and elsewhere. -/
def fill (data : List UInt8) (n : Nat) (got : List UInt8) (p : Nat) (answers : List Answer) :
    Upshot (List UInt8) × Feed :=
  if n = 0 then (.done (.ok got), ⟨p, answers⟩)
  else match answers with
  | [] =>
    if n ≤ data.length - p then (.done (.ok (got ++ (data.drop p).take n)), ⟨p + n, []⟩)
    else (.done (.err .eof), ⟨max p data.length, []⟩)
  | .failure f :: answers => (.failed f, ⟨p, answers⟩)
  | .interrupted :: answers => fill data n got p answers
  | .upTo k :: answers =>
    let chunk := (data.drop p).take (min n (k + 1))
    if chunk = [] then (.done (.err .eof), ⟨p, answers⟩)
    else fill data (n - chunk.length) (got ++ chunk) (p + chunk.length) answers

/-- `std::io::Read::read_exact` into a buffer of `n` bytes, as `Rd.readExact`.
It is what `take` comes to, src/compact1/index/mod.rs:21 and elsewhere. -/
def readExact (n : Nat) : Fd (List UInt8) := fun env s => fill env.data n [] s.position s.answers

/-- `std::io::Seek::seek`, for the change of position `move`, which is a position and an outcome
if the source does not fail.
Used in `position`, `jump` and `peek`: src/compact1/font_set/mod.rs:58-100 and
src/compact1/operation.rs:80. -/
def seek (move : Env → Nat → Res α × Nat) : Fd α := fun env s =>
  match s.answers with
  | .failure f :: answers => (.failed f, ⟨s.position, answers⟩)
  | answers => (.done (move env s.position).1, ⟨(move env s.position).2, answers.tail⟩)

/-- `tape::Read::position`, i.e. `seek(SeekFrom::Current(0))`, as `Rd.position`.
Used in src/compact1/font_set/mod.rs:58,67 and src/type2/program.rs:311. -/
def position : Fd Nat := seek fun _ p => (.ok p, p)

/-- `tape::Read::jump`, i.e. `seek(SeekFrom::Start(q))`, as `Rd.jump`.
Used in `jump_take!` and `jump_take_given!`, src/compact1/font_set/mod.rs:60,69,78-100,
src/compact1/font_set/character_id_keyed.rs:78-110 and
src/compact1/font_set/character_name_keyed.rs:26-29. -/
def jump (q : Nat) : Fd Unit := seek fun env p =>
  if q ≤ env.cfg.maxSeek then (.ok (), q) else (.err .seek, p)

/-- `tape::Read::peek`, as `Rd.peek`: ask for the position, read, and restore the position, also
after an error; if this fails, then so does the whole.  A position where the source has been is
one that it can seek.
Used in src/compact1/encoding.rs:85, src/compact1/operation.rs:80,
src/compact1/character_set.rs:75, src/compact1/font_set/character_id_keyed.rs:127 and
src/type2/program.rs:81. -/
def peek (m : Fd α) : Fd α := fun env s =>
  match position env s with
  | (.done _, s') =>
    match seek (fun _ _ => (.ok (), s.position)) env (m env s').2 with
    | (.done _, s'') => ((m env s').1, s'')
    | (.failed f, s'') => (.failed f, s'')
  | (.failed f, s') => (.failed f, s')

/-- `tape.take::<u8>()`.
Used in src/compact1/number.rs:30,34,37,54, src/compact1/operation.rs:86,
src/compact1/offset.rs:15 and src/type2/number.rs:6,9,10. -/
def u8 : Fd UInt8 := do
  let bs ← readExact 1
  Pure.pure (bs.headD 0)

/-- `tape.take::<u16>()`, big-endian.
Used in src/compact1/number.rs:39, src/compact1/operation.rs:84, src/compact1/index/mod.rs:21,
src/compact1/offset.rs:16, src/type2/number.rs:11 and src/type2/program.rs:88. -/
def u16 : Fd UInt16 := do
  let bs ← readExact 2
  Pure.pure (UInt16.ofNat (beNat bs))

/-- `tape.take::<u32>()`, big-endian.
Used in src/compact1/number.rs:40 and src/compact1/offset.rs:21. -/
def u32 : Fd UInt32 := do
  let bs ← readExact 4
  Pure.pure (UInt32.ofNat (beNat bs))

/-- element-by-element reading of `n` values, as `Rd.replicate`.
Used in src/compact1/encoding.rs:23,35,47, src/compact1/font_set/character_id_keyed.rs:50,148
and src/compact1/character_set.rs:101. -/
def replicate (n : Nat) (m : Fd α) : Fd (List α) :=
  match n with
  | 0 => Pure.pure []
  | n + 1 => do
    let a ← m
    let as ← replicate n m
    Pure.pure (a :: as)

/-- `tape.take_given::<Vec<_>>(count)`, as `Rd.vec`.
Used in src/compact1/encoding.rs:23,35,47, src/compact1/font_set/character_id_keyed.rs:50,148
and src/compact1/character_set.rs:101. -/
def vec (width count : Nat) (m : Fd α) : Fd (List α) := do
  let c ← cfg
  if c.prealloc ∧ count * width > 2 ^ 63 - 1 then panic .capacity
  else replicate count m

/-- An `i32` operation with exact value `z` inside a reader, as `Rd.i32`.
Used in src/compact1/number.rs:32-37, src/type2/number.rs:8-10 and src/type2/program.rs:270. -/
def i32 (z : Int) : Fd Int := do
  let c ← cfg
  ofRes (wrapI32 c.checks z)

end Fd

namespace Source
open Fd hiding pure bind

/-- `(first as i32 - 247) * 256 + tape.take::<u8>()? as i32 + 108`, src/compact1/number.rs:33-34,
as `Rd.positiveTwoByte` -/
def positiveTwoByte (first : UInt8) : Fd Int := do
  let v ← i32 (first.toNat - 247)
  let v ← i32 (v * 256)
  let b ← u8
  let v ← i32 (v + b.toNat)
  i32 (v + 108)

/-- `-(first as i32 - 251) * 256 - tape.take::<u8>()? as i32 - 108`, src/compact1/number.rs:36-37,
as `Rd.negativeTwoByte` -/
def negativeTwoByte (first : UInt8) : Fd Int := do
  let v ← i32 (first.toNat - 251)
  let v ← i32 (-v)
  let v ← i32 (v * 256)
  let b ← u8
  let v ← i32 (v - b.toNat)
  i32 (v - 108)

/-- `Offset::read`, src/compact1/offset.rs:10-25, as `readOffset`. -/
def readOffset (size : UInt8) : Fd UInt32 :=
  if size = 1 then do
    let v ← u8
    pure (UInt32.ofNat v.toNat)
  else if size = 2 then do
    let v ← u16
    pure (UInt32.ofNat v.toNat)
  else if size = 3 then do
    let bs ← readExact 3
    pure (UInt32.ofNat (beNat (0 :: bs)))
  else if size = 4 then u32
  else raise .malformedOffset

/-- `character_set::Range1::read`, src/compact1/character_set.rs:38-45, as
`CharacterSet.readRange1`. -/
def readCharRange1 : Fd CharRange1 := do
  let firstStringID ← u16
  let leftCount ← u8
  pure { firstStringID, leftCount }

/-- `character_set::Range2::read`, src/compact1/character_set.rs:47-54, as
`CharacterSet.readRange2`. -/
def readCharRange2 : Fd CharRange2 := do
  let firstStringID ← u16
  let leftCount ← u16
  pure { firstStringID, leftCount }

/-- `encoding::Range1::read`, src/compact1/encoding.rs:52-59, as `Encoding.readRange1`. -/
def readEncRange1 : Fd EncRange1 := do
  let firstCode ← u8
  let leftCount ← u8
  pure { firstCode, leftCount }

/-- `Supplement::read`, src/compact1/encoding.rs:61-68, as `Encoding.readSupplement`. -/
def readSupplement : Fd Supplement := do
  let code ← u8
  let glyph ← u16
  pure { code, glyph }

/-- `Range3::read`, src/compact1/font_set/character_id_keyed.rs:57-64, as
`DictEncoding.readRange3`. -/
def readRange3 : Fd Range3 := do
  let firstGlyphID ← u16
  let dictionaryID ← u8
  pure { firstGlyphID, dictionaryID }

/-- `Header::read`, src/compact1/header.rs:3-12, as `Header.read`. -/
def readHeader : Fd Header := do
  let major ← u8
  let minor ← u8
  let headerSize ← u8
  let offsetSize ← u8
  pure { major, minor, headerSize, offsetSize }

/-- `tape.jump(position + offset as u64)?`, as `jumpTo`.
Used in src/compact1/font_set/mod.rs:60,69,78-100,
src/compact1/font_set/character_id_keyed.rs:78-110 and
src/compact1/font_set/character_name_keyed.rs:26-29. -/
def jumpTo (position : Nat) (offset : Int) : Fd Unit := do
  let c ← cfg
  let q ← ofRes (addU64 c.checks position (toU 64 offset))
  jump q

/-- The loop of `parse`, src/compact1/number.rs:53-71, as `Number.parseLoop`. -/
def parseLoop (fuel : Nat) (byte : UInt8) (high : Bool) (buffer : List Char) : Fd (List Char) :=
  match fuel with
  | 0 => panic .fuel
  | fuel + 1 => do
    let byte ← (if high then u8 else pure byte : Fd UInt8)
    let nibble := if high then byte >>> 4 else byte &&& 0x0f
    let n := nibble.toNat
    if n ≤ 9 then parseLoop fuel byte (!high) (buffer ++ [Char.ofNat (48 + n)])
    else if n = 0x0a then parseLoop fuel byte (!high) (buffer ++ ['.'])
    else if n = 0x0b then parseLoop fuel byte (!high) (buffer ++ ['e'])
    else if n = 0x0c then parseLoop fuel byte (!high) (buffer ++ ['e', '-'])
    else if n = 0x0e then parseLoop fuel byte (!high) (buffer ++ ['-'])
    else if n = 0x0f then pure buffer
    else raise .malformedNumber

/-- `parse`, src/compact1/number.rs:49-76, as `Number.parse`. -/
def parse : Fd F32 := do
  let size ← size
  let buffer ← parseLoop (2 * size + 2) 0 true []
  match parseF32 buffer with
  | some value => pure value
  | none => raise .malformedNumber

/-- `Number::read`, src/compact1/number.rs:28-47, as `Number.read`. -/
def readNumber : Fd Number := do
  let first ← u8
  if 0x20 ≤ first ∧ first ≤ 0xf6 then do
    let v ← i32 (first.toNat - 139)
    pure (.integer v)
  else if 0xf7 ≤ first ∧ first ≤ 0xfa then do
    let v ← positiveTwoByte first
    pure (.integer v)
  else if 0xfb ≤ first ∧ first ≤ 0xfe then do
    let v ← negativeTwoByte first
    pure (.integer v)
  else if first = 0x1c then do
    let v ← u16
    pure (.integer (toS 16 v.toNat))
  else if first = 0x1d then do
    let v ← u32
    pure (.integer (toS 32 v.toNat))
  else if first = 0x1e then do
    let x ← parse
    pure (.real x)
  else raise .malformedNumber

/-- `Operation::read`, src/compact1/operation.rs:76-93, as `Operations.readOperationLoop`. -/
def readOperationLoop (fuel : Nat) (operands : List Number) : Fd (Operator × List Number) :=
  match fuel with
  | 0 => panic .fuel
  | fuel + 1 => do
    let code ← peek u8
    if Operations.isOperandByte code then do
      let operand ← readNumber
      readOperationLoop fuel (operands ++ [operand])
    else do
      let code ← (if code = 0x0c then u16 else do
        let b ← u8
        pure (UInt16.ofNat b.toNat) : Fd UInt16)
      let operator ← ofRes (Operator.from code)
      pure (operator, operands)

/-- `Operation::read`, src/compact1/operation.rs:76-93, as `Operations.readOperation`. -/
def readOperation : Fd (Operator × List Number) := do
  let size ← size
  readOperationLoop (size + 1) []

/-- The loop of `Operations::read`, src/compact1/operation.rs:57-69, as `Operations.readLoop`. -/
def readLoop (fuel : Nat) (operations : Operations) : Fd Operations :=
  match fuel with
  | 0 => panic .fuel
  | fuel + 1 => fun env s =>
    match readOperation env s with
    | (.done (.ok (operator, operands)), s') =>
      readLoop fuel (operations.insert operator operands) env s'
    | (.done (.err .eof), s') => (.done (.ok operations), s')
    | (.done (.err e), s') => (.done (.err e), s')
    | (.done (.panic x), s') => (.done (.panic x), s')
    | (.failed f, s') => (.failed f, s')

/-- `Operations::read`, src/compact1/operation.rs:52-72, as `Operations.read`. -/
def readOperations : Fd Operations := do
  let size ← size
  readLoop (size + 1) .empty

/-- `tape.take_given::<Vec<u8>>(size)`, as `Rd.bytes`.
Used in src/compact1/index/mod.rs:45, src/compact1/font_set/character_id_keyed.rs:107,
src/compact1/font_set/character_name_keyed.rs:26 and src/type2/program.rs:180. -/
def bytes (size : Nat) : Fd (List UInt8) := vec 1 size u8

/-- The second loop of `Index::read`, src/compact1/index/mod.rs:40-46, as `Index.readData`. -/
def readData : List UInt32 → Fd (List (List UInt8))
  | a :: b :: rest =>
    if b < a then raise .malformedIndex
    else do
      let c ← cfg
      let size ← ofRes (subU32 c.checks b a)
      let chunk ← bytes size.toNat
      let data ← readData (b :: rest)
      pure (chunk :: data)
  | _ => pure []

/-- `Index::read`, src/compact1/index/mod.rs:19-54, as `Index.read`. -/
def readIndex : Fd Index := do
  let count ← u16
  if count = 0 then pure .empty
  else do
    let offsetSize ← u8
    let offsets ← replicate (count.toNat + 1) (readOffset offsetSize)
    match offsets with
    | [] => panic .bounds
    | first :: _ =>
      if first ≠ 1 then raise .malformedIndex
      else do
        let data ← readData offsets
        pure { count, offsetSize, offsets, data }

/-- `CharacterStrings::read`, src/compact1/index/character_strings.rs:9-18, as
`readCharacterStrings`. -/
def readCharacterStrings (format : Int) : Fd Index :=
  if format = 2 then readIndex else raise .unknownCharacterStringFormat

/-- `CharacterSet0::read`, src/compact1/character_set.rs:91-104, as `CharacterSet.read0`. -/
def readSet0 (glyphCount : Nat) : Fd CharacterSet := do
  let format ← u8
  if format ≠ 0 then raise .malformedCharacterSet
  else do
    let c ← cfg
    if glyphCount = 0 ∧ c.checks then panic .overflow
    else do
      let glyphs ← vec 2 (if glyphCount = 0 then 2 ^ 64 - 1 else glyphCount - 1) u16
      pure (.format0 format glyphs)

/-- The `while` loop of `CharacterSet1::read`, src/compact1/character_set.rs:124-128, as
`CharacterSet.readRanges1`. -/
def readRanges1 (fuel glyphCount foundCount : Nat) : Fd (Nat × List CharRange1) :=
  if foundCount < glyphCount then
    match fuel with
    | 0 => panic .fuel
    | fuel + 1 => do
      let range ← readCharRange1
      let (n, ranges) ← readRanges1 fuel glyphCount (foundCount + (1 + range.leftCount.toNat))
      pure (n, range :: ranges)
  else pure (foundCount, [])

/-- `CharacterSet1::read`, src/compact1/character_set.rs:113-134, as `CharacterSet.read1`. -/
def readSet1 (glyphCount : Nat) : Fd CharacterSet := do
  let format ← u8
  if format ≠ 1 then raise .malformedCharacterSet
  else do
    let (foundCount, ranges) ← readRanges1 glyphCount glyphCount (0 + 1)
    if foundCount ≠ glyphCount then raise .malformedCharacterSet
    else pure (.format1 format ranges)

/-- The `while` loop of `CharacterSet2::read`, src/compact1/character_set.rs:155-159, as
`CharacterSet.readRanges2`. -/
def readRanges2 (fuel glyphCount foundCount : Nat) : Fd (Nat × List CharRange2) :=
  if foundCount < glyphCount then
    match fuel with
    | 0 => panic .fuel
    | fuel + 1 => do
      let range ← readCharRange2
      let (n, ranges) ← readRanges2 fuel glyphCount (foundCount + (1 + range.leftCount.toNat))
      pure (n, range :: ranges)
  else pure (foundCount, [])

/-- `CharacterSet2::read`, src/compact1/character_set.rs:143-165, as `CharacterSet.read2`. -/
def readSet2 (glyphCount : Nat) : Fd CharacterSet := do
  let format ← u8
  if format ≠ 2 then raise .malformedCharacterSet
  else do
    let (foundCount, ranges) ← readRanges2 glyphCount glyphCount (0 + 1)
    if foundCount ≠ glyphCount then raise .malformedCharacterSet
    else pure (.format2 format ranges)

/-- `CharacterSet::read`, src/compact1/character_set.rs:71-82, as `CharacterSet.read`. -/
def readSet (glyphCount : Nat) : Fd CharacterSet := do
  let format ← peek u8
  if format = 0 then readSet0 glyphCount
  else if format = 1 then readSet1 glyphCount
  else if format = 2 then readSet2 glyphCount
  else raise .unknownCharacterSetFormat

/-- `Encoding0::read`, src/compact1/encoding.rs:16-26, as `Encoding.read0`. -/
def readEncoding0 : Fd Encoding := do
  let format ← u8
  if format ≠ 0 then raise .malformedTable
  else do
    let codeCount ← u8
    let codes ← vec 1 codeCount.toNat u8
    pure (.format0 format codeCount codes)

/-- `Encoding1::read`, src/compact1/encoding.rs:28-38, as `Encoding.read1`. -/
def readEncoding1 : Fd Encoding := do
  let format ← u8
  if format ≠ 1 then raise .malformedTable
  else do
    let rangeCount ← u8
    let ranges ← vec 2 rangeCount.toNat readEncRange1
    pure (.format1 format rangeCount ranges)

/-- `EncodingSupplemental::read`, src/compact1/encoding.rs:40-50, as `Encoding.readSupplemental`. -/
def readSupplemental : Fd Encoding := do
  let format ← u8
  let supplementCount ← u8
  let supplements ← vec 4 supplementCount.toNat readSupplement
  pure (.supplemental format supplementCount supplements)

/-- `Encoding::read`, src/compact1/encoding.rs:83-92, as `Encoding.read`. -/
def readEncoding : Fd Encoding := do
  let format ← peek u8
  if format = 0 then readEncoding0
  else if format = 1 then readEncoding1
  else if format &&& 0x80 > 0 then readSupplemental
  else raise .unknownEncodingFormat

/-- `character_name_keyed::Record::read`,
src/compact1/font_set/character_name_keyed.rs:16-37, and
`character_id_keyed::RecordInner::read`,
src/compact1/font_set/character_id_keyed.rs:97-118, as `PrivateRecord.read`. -/
def readPrivate (position : Nat) (topOperations : Operations) : Fd PrivateRecord := do
  let c ← cfg
  let (size, offset) ← ofRes (getII topOperations .opPrivate)
  jumpTo position offset
  let chunk ← bytes (toU 64 size)
  let operations ← ofRes (Operations.ofBytes c chunk)
  let another ← ofRes (tryGetI operations .opSubrs)
  let subroutines ← (match another with
    | some anotherOffset => do
      let sum ← ofRes (addI32 c.checks offset anotherOffset)
      jumpTo position sum
      readIndex
    | none => pure .empty : Fd Index)
  pure { operations, subroutines }

/-- `Encoding0::read`, src/compact1/font_set/character_id_keyed.rs:137-151, as
`DictEncoding.read0`. -/
def readSelect0 (characterStrings : Index) : Fd DictEncoding := do
  let format ← u8
  let dictionaryIDs ← vec 1 characterStrings.count.toNat u8
  pure (.format0 format dictionaryIDs)

/-- `Encoding3::read`, src/compact1/font_set/character_id_keyed.rs:43-55, as
`DictEncoding.read3`. -/
def readSelect3 : Fd DictEncoding := do
  let format ← u8
  if format ≠ 3 then raise .malformedTable
  else do
    let rangeCount ← u16
    let ranges ← vec 4 rangeCount.toNat readRange3
    let glyphCount ← u16
    pure (.format3 format rangeCount ranges glyphCount)

/-- `Encoding::read`, src/compact1/font_set/character_id_keyed.rs:120-135, as
`DictEncoding.read`. -/
def readSelect (characterStrings : Index) : Fd DictEncoding := do
  let format ← peek u8
  if format = 0 then readSelect0 characterStrings
  else if format = 3 then readSelect3
  else raise .unknownDictionaryEncodingFormat

/-- The loop of src/compact1/font_set/character_id_keyed.rs:82-85, as `readPrivateRecords`. -/
def readPrivateRecords (position : Nat) : List Operations → Fd (List PrivateRecord)
  | [] => pure []
  | topOperations :: rest => do
    let record ← readPrivate position topOperations
    let records ← readPrivateRecords position rest
    pure (record :: records)

/-- `character_id_keyed::Record::read`,
src/compact1/font_set/character_id_keyed.rs:66-95, as `CIDRecord.read`. -/
def readCIDRecord (position : Nat) (topOperations : Operations) (characterStrings : Index) : Fd CIDRecord :=
  match topOperations.get .opROS with
  | some [registry, ordering, supplement] => do
    let c ← cfg
    let offset ← ofRes (getI topOperations .opFDSelect)
    jumpTo position offset
    let encoding ← readSelect characterStrings
    let offset ← ofRes (getI topOperations .opFDArray)
    jumpTo position offset
    let dictionaries ← readIndex
    let operations ← ofRes (dictionaries.toOperations c)
    let records ← readPrivateRecords position operations
    let registry ← ofRes (stringIDOfNumber registry)
    let ordering ← ofRes (stringIDOfNumber ordering)
    pure { registry, ordering, supplement, encoding, operations, records }
  | _ => raise .malformedRecord

/-- `Record::read`, src/compact1/font_set/mod.rs:118-137, as `Record.read`. -/
def readRecord (position : Nat) (operations : Operations) (characterStrings : Index) : Fd Record :=
  if operations.containsKey .opROS then do
    let record ← readCIDRecord position operations characterStrings
    pure (.characterIDKeyed record)
  else do
    let record ← readPrivate position operations
    pure (.characterNameKeyed record)

/-- The body of the loop of `FontSet::read`, src/compact1/font_set/mod.rs:78-102, as
`FontEntry.read`. -/
def readEntry (position : Nat) (operations : Operations) : Fd FontEntry := do
  let offset ← ofRes (getI operations .opCharStrings)
  jumpTo position offset
  let format ← ofRes (getI operations .opCharStringType)
  let characterStrings ← readCharacterStrings format
  let offset ← ofRes (getI operations .opCharSet)
  let characterSet ←
    (if offset = 0 then pure .isoAdobe
    else if offset = 1 then pure .expert
    else if offset = 2 then pure .expertSubset
    else do
      jumpTo position offset
      readSet characterStrings.count.toNat : Fd CharacterSet)
  let offset ← ofRes (getI operations .opEncoding)
  let encoding ←
    (if offset = 0 then pure .standard
    else if offset = 1 then pure .expert
    else do
      jumpTo position offset
      readEncoding : Fd Encoding)
  let record ← readRecord position operations characterStrings
  pure { characterStrings, characterSet, encoding, record }

/-- The loop of `FontSet::read`, src/compact1/font_set/mod.rs:77-103, as `readEntries`. -/
def readEntries (position : Nat) : List Operations → Fd (List FontEntry)
  | [] => pure []
  | operations :: rest => do
    let entry ← readEntry position operations
    let entries ← readEntries position rest
    pure (entry :: entries)

/-- `FontSet::read`, src/compact1/font_set/mod.rs:65-116, as `FontSet.read`. -/
def readFontSet : Fd FontSet := do
  let c ← cfg
  let position ← position
  let header ← readHeader
  jumpTo position header.headerSize.toNat
  let names ← readIndex
  let dictionaries ← readIndex
  let operations ← ofRes (dictionaries.toOperations c)
  let strings ← readIndex
  let subroutines ← readIndex
  let entries ← readEntries position operations
  pure {
    header, names, operations, strings, subroutines
    encodings := entries.map FontEntry.encoding
    characterStrings := entries.map FontEntry.characterStrings
    characterSets := entries.map FontEntry.characterSet
    records := entries.map FontEntry.record }

/-- `FontSet::count`, src/compact1/font_set/mod.rs:57-62, as `FontSet.count`. -/
def readCount : Fd Nat := do
  let position ← position
  let header ← readHeader
  jumpTo position header.headerSize.toNat
  let count ← u16
  pure count.toNat

end Source
end PS
