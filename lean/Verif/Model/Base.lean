/-!
# Results, tapes and readers

The parsers of the crate are generic over a tape `T: tape::Read`, a trait of the
external crate `typeface` (Cargo.toml:16-17, src/lib.rs:3-10), i.e. over
`std::io::Read + std::io::Seek`.  The source of `typeface` is not part of the
repository; its behaviour used here is an assumption recorded in DESIGN.md.

A tape is modelled by an immutable byte string together with a position; a
parser is a function from a position to a result and a new position.
-/
namespace PS

/-- Why an error was raised with `raise!` (an `io::Error` of kind `Other`).
One constructor per `raise!` site that a caller can tell apart; the texts are
those of the source.
Used in src/compact1/number.rs:3, src/compact1/index/mod.rs:37,42,
src/compact1/font_set/mod.rs:7-22, src/type2/program.rs:50-287 and the other uses of `raise!`,
imported in src/lib.rs:3. -/
inductive Reason where
  /-- "found a malformed number", src/compact1/number.rs:3, src/type2/number.rs:13 -/
  | malformedNumber
  /-- "found a malformed offset", src/compact1/offset.rs:22 -/
  | malformedOffset
  /-- "found a malformed index", src/compact1/index/mod.rs:37,42 -/
  | malformedIndex
  /-- "found an unknown operator ({code})", src/compact1/operation.rs:120, src/type2/operation.rs:30 -/
  | unknownOperator
  /-- "found a malformed string ID", src/compact1/mod.rs:39 -/
  | malformedStringID
  /-- "found an unknown format of character strings", src/compact1/index/character_strings.rs:15 -/
  | unknownCharacterStringFormat
  /-- "found an unknown format of character sets", src/compact1/character_set.rs:79 -/
  | unknownCharacterSetFormat
  /-- "found a malformed character set", src/compact1/character_set.rs:97,119,130,147 -/
  | malformedCharacterSet
  /-- "found an unknown format of encodings", src/compact1/encoding.rs:89 -/
  | unknownEncodingFormat
  /-- a `field (type) = { value }` mismatch raised inside `typeface::table!`
  (src/compact1/encoding.rs:19,32, src/compact1/font_set/character_id_keyed.rs:46) -/
  | malformedTable
  /-- "found a malformed operation with operator ...", src/compact1/font_set/mod.rs:7,14,21 -/
  | malformedOperation
  /-- "found no operation with operator ...", src/compact1/font_set/mod.rs:8,22 -/
  | missingOperation
  /-- "found a malformed character-ID-keyed record", src/compact1/font_set/character_id_keyed.rs:75 -/
  | malformedRecord
  /-- "found an unknown format of the glyph-to-dictionary encoding", src/compact1/font_set/character_id_keyed.rs:131 -/
  | unknownDictionaryEncodingFormat
  /-- "expected an operand", src/type2/program.rs:50,54 -/
  | expectedOperand
  /-- "expected an operand of a different type", src/type2/program.rs:58 -/
  | expectedOtherOperand
  /-- "expected more operands", src/type2/program.rs:74,216 -/
  | expectedMoreOperands
  /-- "found malformed operands", src/type2/program.rs:128 -/
  | malformedOperands
  /-- "found trailing data after the end operator", src/type2/program.rs:162 -/
  | trailingData
  /-- "found an invalid operand", src/type2/program.rs:214 -/
  | invalidOperand
  /-- "found no subroutine", src/type2/program.rs:272 -/
  | noSubroutine
  /-- "found a return operator without a caller", src/type2/program.rs:282 -/
  | noCaller
  /-- "found an unknown operator ({operator:?})", src/type2/program.rs:287 -/
  | unsupportedOperator
deriving DecidableEq, Repr

/-- An `io::Error`, up to its kind and origin.
`Error` and `Result` are those of src/lib.rs:10. -/
inductive Err where
  /-- kind `UnexpectedEof`, from `std::io::Read::read_exact` -/
  | eof
  /-- a rejected `std::io::Seek::seek` (a position the tape does not support) -/
  | seek
  /-- kind `Other`, from `raise!` -/
  | raised (r : Reason)
deriving DecidableEq, Repr

/-- A Rust panic, by cause.
The code can panic in src/compact1/index/mod.rs:44, src/compact1/font_set/mod.rs:78,
src/type2/program.rs:267-274 and src/compact1/number.rs:34,37 and where memory is reserved,
src/compact1/index/mod.rs:31,39. -/
inductive Panic where
  /-- arithmetic overflow with overflow checks on -/
  | overflow
  /-- `Vec::with_capacity` beyond `isize::MAX` bytes -/
  | capacity
  /-- out-of-bounds indexing, `Vec::insert` or `Vec::remove` -/
  | bounds
  /-- not a panic of the code: the fuel of a modelled loop ran out.  Theorems
  show that it never does. -/
  | fuel
deriving DecidableEq, Repr

/-- `typeface::Result` with panics made explicit.
`Error` and `Result` are those of src/lib.rs:10. -/
inductive Res (α : Type) where
  | ok (a : α)
  | err (e : Err)
  | panic (p : Panic)
deriving Repr, DecidableEq

/-- Everything about the build and the libraries that the source does not fix
and that can be observed; theorems quantify over it.
It concerns src/compact1/index/mod.rs:31,39,44, src/compact1/font_set/mod.rs:60-100 and
src/compact1/operation.rs:58-66. -/
structure Config where
  /-- overflow checks: on in debug builds, off (wrapping) in release builds -/
  checks : Bool
  /-- whether reading a vector of `count` elements reserves memory for all of
  them first, so that an impossible `count` panics instead of failing with EOF -/
  prealloc : Bool
  /-- the greatest position `seek` accepts: `2^64-1` for `Cursor`, `2^63-1` for `File` -/
  maxSeek : Nat
  /-- where a failed `read_exact` leaves the position, given the position before
  and the length of the tape (differs among `File`, old and new `Cursor`) -/
  eofPos : Nat → Nat → Nat

/-- The immutable part of a tape.
It stands for the value of `tape` in src/compact1/font_set/mod.rs:56-58 and all other readers. -/
structure Env where
  cfg : Config
  data : List UInt8

/-- A parser: from a tape and a position to a result and a position.  The
position is meaningful after errors too.
It stands for functions like that in src/compact1/font_set/mod.rs:66, on `tape::Read` of
src/lib.rs:10. -/
def Rd (α : Type) : Type := Env → Nat → Res α × Nat

namespace Rd

/-- `Ok(a)`.
Used in src/compact1/font_set/mod.rs:58-61 and all other readers. -/
def pure (a : α) : Rd α := fun _ p => (.ok a, p)

/-- `?` and sequencing.
Used in src/compact1/font_set/mod.rs:58-61 and all other readers. -/
def bind (m : Rd α) (f : α → Rd β) : Rd β := fun env p =>
  match m env p with
  | (.ok a, p') => f a env p'
  | (.err e, p') => (.err e, p')
  | (.panic x, p') => (.panic x, p')

instance : Monad Rd where
  pure := Rd.pure
  bind := Rd.bind

/-- `raise!(...)`.
Used in src/compact1/index/mod.rs:37,42 and the other uses of `raise!`, imported in
src/lib.rs:3. -/
def raise (r : Reason) : Rd α := fun _ p => (.err (.raised r), p)

/-- an error value returned as is.
Used in src/compact1/operation.rs:66. -/
def fail (e : Err) : Rd α := fun _ p => (.err e, p)

/-- a panic.
See `Panic`; for instance src/compact1/index/mod.rs:44. -/
def panic (x : Panic) : Rd α := fun _ p => (.panic x, p)

/-- access to the configuration (not an operation of the code).
See `Config`; for instance src/compact1/index/mod.rs:44 depends on it. -/
def cfg : Rd Config := fun env p => (.ok env.cfg, p)

/-- the length of the tape, used only to bound modelled loops.
The loops are those of src/compact1/number.rs:51 and src/compact1/operation.rs:57,79. -/
def size : Rd Nat := fun env p => (.ok env.data.length, p)

/-- a parser running on the result of a pure computation.
Used in src/compact1/index/mod.rs:44. -/
def ofRes (r : Res α) : Rd α := fun _ p => (r, p)

/-- `std::io::Read::read_exact` into a buffer of `n` bytes.  Beyond the end of
the tape only the empty read succeeds.
It is what `take` comes to, src/compact1/index/mod.rs:21 and elsewhere. -/
def readExact (n : Nat) : Rd (List UInt8) := fun env p =>
  if n ≤ env.data.length - p then (.ok ((env.data.drop p).take n), p + n)
  else (.err .eof, env.cfg.eofPos p env.data.length)

/-- `tape::Read::position`.
Used in src/compact1/font_set/mod.rs:58,67 and src/type2/program.rs:311. -/
def position : Rd Nat := fun _ p => (.ok p, p)

/-- `tape::Read::jump`, i.e. `seek(SeekFrom::Start(q))`.
Used in `jump_take!` and `jump_take_given!`, src/compact1/font_set/mod.rs:60,69,78-100,
src/compact1/font_set/character_id_keyed.rs:78-110 and
src/compact1/font_set/character_name_keyed.rs:26-29. -/
def jump (q : Nat) : Rd Unit := fun env p =>
  if q ≤ env.cfg.maxSeek then (.ok (), q) else (.err .seek, p)

/-- `tape::Read::peek`: read and restore the position, also after an error.
Used in src/compact1/encoding.rs:85, src/compact1/operation.rs:80,
src/compact1/character_set.rs:75, src/compact1/font_set/character_id_keyed.rs:127 and
src/type2/program.rs:81. -/
def peek (m : Rd α) : Rd α := fun env p => ((m env p).1, p)

end Rd

/-- The value of a big-endian byte string.
Used in src/compact1/offset.rs:15-21 and wherever `take` reads an integer. -/
def beNat (bs : List UInt8) : Nat := bs.foldl (fun n b => n * 256 + b.toNat) 0

namespace Rd

/-- `tape.take::<u8>()`.
Used in src/compact1/number.rs:30,34,37,54, src/compact1/operation.rs:86,
src/compact1/offset.rs:15 and src/type2/number.rs:6,9,10. -/
def u8 : Rd UInt8 := do
  let bs ← readExact 1
  Pure.pure (bs.headD 0)

/-- `tape.take::<u16>()`, big-endian.
Used in src/compact1/number.rs:39, src/compact1/operation.rs:84, src/compact1/index/mod.rs:21,
src/compact1/offset.rs:16, src/type2/number.rs:11 and src/type2/program.rs:88. -/
def u16 : Rd UInt16 := do
  let bs ← readExact 2
  Pure.pure (UInt16.ofNat (beNat bs))

/-- `tape.take::<u32>()`, big-endian.
Used in src/compact1/number.rs:40 and src/compact1/offset.rs:21. -/
def u32 : Rd UInt32 := do
  let bs ← readExact 4
  Pure.pure (UInt32.ofNat (beNat bs))

/-- element-by-element reading of `n` values.
Used in src/compact1/encoding.rs:23,35,47, src/compact1/font_set/character_id_keyed.rs:50,148
and src/compact1/character_set.rs:101. -/
def replicate (n : Nat) (m : Rd α) : Rd (List α) :=
  match n with
  | 0 => Pure.pure []
  | n + 1 => do
    let a ← m
    let as ← replicate n m
    Pure.pure (a :: as)

/-- `tape.take_given::<Vec<_>>(count)` of elements of `width` bytes in memory;
`count` is a `usize`, hence below `2^64`.
Used in src/compact1/encoding.rs:23,35,47, src/compact1/font_set/character_id_keyed.rs:50,148
and src/compact1/character_set.rs:101. -/
def vec (width count : Nat) (m : Rd α) : Rd (List α) := do
  let c ← cfg
  if c.prealloc ∧ count * width > 2 ^ 63 - 1 then panic .capacity
  else replicate count m

end Rd

/-- A signed integer reduced to `w` bits of two's complement, as a natural.
Used in src/compact1/number.rs:39-40 and src/type2/number.rs:11. -/
def toU (w : Nat) (i : Int) : Nat := (i % (2 ^ w : Int)).toNat

/-- The signed reading of the low `w` bits of `n`, `as i16`/`as i32`.
Used in src/compact1/number.rs:39-40 and src/type2/number.rs:11. -/
def toS (w : Nat) (n : Nat) : Int :=
  let m := n % 2 ^ w
  if m < 2 ^ (w - 1) then (m : Int) else (m : Int) - 2 ^ w

/-- The result of an `i32` operation whose exact value is `z`: a panic on
overflow with overflow checks, two's complement wrapping without.
Used in src/compact1/number.rs:32-37, src/type2/number.rs:8-10 and src/type2/program.rs:270. -/
def wrapI32 (checks : Bool) (z : Int) : Res Int :=
  if -2 ^ 31 ≤ z ∧ z < 2 ^ 31 then .ok z
  else if checks then .panic .overflow
  else .ok (toS 32 (toU 32 z))

/-- `a + b` in `i32`.
Used in src/compact1/number.rs:32-37, src/type2/number.rs:8-10 and src/type2/program.rs:270. -/
def addI32 (checks : Bool) (a b : Int) : Res Int := wrapI32 checks (a + b)

/-- `a - b` in `u32`.
Used in src/compact1/index/mod.rs:44. -/
def subU32 (checks : Bool) (a b : UInt32) : Res UInt32 :=
  if b ≤ a then .ok (a - b)
  else if checks then .panic .overflow
  else .ok (a - b)

/-- `a + b` in `u64`.
Used in `jump_take!` and `jump_take_given!`, src/compact1/font_set/mod.rs:60,69,78-100. -/
def addU64 (checks : Bool) (a b : Nat) : Res Nat :=
  let s := a + b
  if s < 2 ^ 64 then .ok s
  else if checks then .panic .overflow
  else .ok (s % 2 ^ 64)

/-- An `i32` operation with exact value `z` inside a parser.
Used in src/compact1/number.rs:32-37, src/type2/number.rs:8-10 and src/type2/program.rs:270. -/
def Rd.i32 (z : Int) : Rd Int := do
  let c ← Rd.cfg
  Rd.ofRes (wrapI32 c.checks z)

end PS
