import Verif.Model.Tables
import Verif.Model.Index
/-!
# Strings and names
-/
namespace PS

namespace Utf8

/-- Is this a continuation byte?  `byte & 192 == 128` in the standard library.
Part of the decoding in src/compact1/index/strings.rs:20 and src/compact1/index/names.rs:16-18. -/
def isCont (b : UInt8) : Bool := 0x80 ≤ b && b ≤ 0xbf

/-- May `b` follow the lead byte `a` of a three-byte sequence?
Part of the decoding in src/compact1/index/strings.rs:20 and src/compact1/index/names.rs:16-18. -/
def second3 (a b : UInt8) : Bool :=
  (a == 0xe0 && 0xa0 ≤ b && b ≤ 0xbf) ||
  (0xe1 ≤ a && a ≤ 0xec && 0x80 ≤ b && b ≤ 0xbf) ||
  (a == 0xed && 0x80 ≤ b && b ≤ 0x9f) ||
  (0xee ≤ a && a ≤ 0xef && 0x80 ≤ b && b ≤ 0xbf)

/-- May `b` follow the lead byte `a` of a four-byte sequence?
Part of the decoding in src/compact1/index/strings.rs:20 and src/compact1/index/names.rs:16-18. -/
def second4 (a b : UInt8) : Bool :=
  (a == 0xf0 && 0x90 ≤ b && b ≤ 0xbf) ||
  (0xf1 ≤ a && a ≤ 0xf3 && 0x80 ≤ b && b ≤ 0xbf) ||
  (a == 0xf4 && 0x80 ≤ b && b ≤ 0x8f)

/-- The character coded by the payload bits of a sequence.
Part of the decoding in src/compact1/index/strings.rs:20 and src/compact1/index/names.rs:16-18. -/
def char2 (a b : UInt8) : Char := Char.ofNat ((a.toNat % 32) * 64 + b.toNat % 64)
/-- See `char2`.
Part of the decoding in src/compact1/index/strings.rs:20 and src/compact1/index/names.rs:16-18. -/
def char3 (a b c : UInt8) : Char :=
  Char.ofNat ((a.toNat % 16) * 4096 + (b.toNat % 64) * 64 + c.toNat % 64)
/-- See `char2`.
Part of the decoding in src/compact1/index/strings.rs:20 and src/compact1/index/names.rs:16-18. -/
def char4 (a b c d : UInt8) : Char :=
  Char.ofNat ((a.toNat % 8) * 262144 + (b.toNat % 64) * 4096 + (c.toNat % 64) * 64 + d.toNat % 64)

/-- One step of the decoder of the standard library (`core::str::lossy`,
`Utf8Chunks`): the character, or `none` for a maximal invalid subsequence, and
how many further bytes the step consumes after the lead byte `a`; `r` is what
follows `a`.
Part of the decoding in src/compact1/index/strings.rs:20 and src/compact1/index/names.rs:16-18. -/
def step (a : UInt8) (r : List UInt8) : Option Char × Nat :=
  if a < 0x80 then (some (Char.ofNat a.toNat), 0)
  else if 0xc2 ≤ a && a ≤ 0xdf then
    match r with
    | b :: _ => if isCont b then (some (char2 a b), 1) else (none, 0)
    | [] => (none, 0)
  else if 0xe0 ≤ a && a ≤ 0xef then
    match r with
    | b :: r' =>
      if second3 a b then
        match r' with
        | c :: _ => if isCont c then (some (char3 a b c), 2) else (none, 1)
        | [] => (none, 1)
      else (none, 0)
    | [] => (none, 0)
  else if 0xf0 ≤ a && a ≤ 0xf4 then
    match r with
    | b :: r' =>
      if second4 a b then
        match r' with
        | c :: r'' =>
          if isCont c then
            match r'' with
            | d :: _ => if isCont d then (some (char4 a b c d), 3) else (none, 2)
            | [] => (none, 2)
          else (none, 1)
        | [] => (none, 1)
      else (none, 0)
    | [] => (none, 0)
  else (none, 0)

/-- The chunks of a byte string: a character or an invalid subsequence each.
Part of the decoding in src/compact1/index/strings.rs:20 and src/compact1/index/names.rs:16-18. -/
def chunks : List UInt8 → List (Option Char)
  | [] => []
  | a :: r => (step a r).1 :: chunks (r.drop (step a r).2)
termination_by bs => bs.length
decreasing_by simp only [List.length_drop, List.length_cons]; omega

/-- `String::from_utf8_lossy(bytes).into_owned()`.
Used in src/compact1/index/strings.rs:20 and src/compact1/index/names.rs:18. -/
def lossy (bs : List UInt8) : String :=
  String.ofList ((chunks bs).map fun c => c.getD '�')

/-- `String::from_utf8(bytes)`: `none` if there is an invalid subsequence.
Used in src/compact1/index/names.rs:16. -/
def strict (bs : List UInt8) : Option String :=
  if (chunks bs).all Option.isSome then some (String.ofList ((chunks bs).filterMap id)) else none

end Utf8

/-- `NUMBER_OF_STANDARD_STRINGS`, src/compact1/index/strings.rs:3. -/
def numberOfStandardStrings : Nat := 391

/-- `get_standard_string`, src/compact1/index/strings.rs:25-420. -/
def getStandardString (stringID : UInt16) : Option String :=
  Tables.standardStrings.lookup stringID.toNat

/-- `Strings::get`, src/compact1/index/strings.rs:12-22. -/
def Index.getString (strings : Index) (stringID : UInt16) : Option String :=
  let i := stringID.toNat
  if i < numberOfStandardStrings then getStandardString stringID
  else (strings.data[i - numberOfStandardStrings]?).map Utf8.lossy

/-- `TryFrom<Names> for Vec<String>`, src/compact1/index/names.rs:9-23. -/
def Index.toNames (names : Index) : Res (List String) :=
  .ok (names.data.map fun chunk =>
    match Utf8.strict chunk with
    | some string => string
    | none => Utf8.lossy chunk)

end PS
