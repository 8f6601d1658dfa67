import Verif.Model.Tables
import Verif.Model.Index
/-!
# Character sets
-/
namespace PS

/-- `character_set::Range1`, src/compact1/character_set.rs:38-45. -/
structure CharRange1 where
  firstStringID : UInt16
  leftCount : UInt8
deriving DecidableEq, Repr

/-- `character_set::Range2`, src/compact1/character_set.rs:47-54. -/
structure CharRange2 where
  firstStringID : UInt16
  leftCount : UInt16
deriving DecidableEq, Repr

/-- `CharacterSet` with `CharacterSet0`, `CharacterSet1` and `CharacterSet2`,
src/compact1/character_set.rs:6-36. -/
inductive CharacterSet where
  | isoAdobe
  | expert
  | expertSubset
  | format0 (format : UInt8) (glyphs : List UInt16)
  | format1 (format : UInt8) (ranges : List CharRange1)
  | format2 (format : UInt8) (ranges : List CharRange2)
deriving DecidableEq, Repr

namespace CharacterSet

/-- `CharacterSet::get`, src/compact1/character_set.rs:59-68 with the tables of
lines 167-662; the custom formats return `None` (lines 84-89, 106-111, 136-141). -/
def get (s : CharacterSet) (glyphID : UInt16) : Option String :=
  match s with
  | isoAdobe => Tables.isoAdobe.lookup glyphID.toNat
  | expert => Tables.expertSet.lookup glyphID.toNat
  | expertSubset => Tables.expertSubset.lookup glyphID.toNat
  | format0 .. => none
  | format1 .. => none
  | format2 .. => none

/-- `Range1::read`, generated by `table!`, src/compact1/character_set.rs:38-45. -/
def readRange1 : Rd CharRange1 := do
  let firstStringID ← Rd.u16
  let leftCount ← Rd.u8
  pure { firstStringID, leftCount }

/-- `Range2::read`, generated by `table!`, src/compact1/character_set.rs:47-54. -/
def readRange2 : Rd CharRange2 := do
  let firstStringID ← Rd.u16
  let leftCount ← Rd.u16
  pure { firstStringID, leftCount }

/-- `CharacterSet0::read`, src/compact1/character_set.rs:91-104.
`glyph_count - 1` is a subtraction in `usize`. -/
def read0 (glyphCount : Nat) : Rd CharacterSet := do
  let format ← Rd.u8
  if format ≠ 0 then Rd.raise .malformedCharacterSet
  else do
    let c ← Rd.cfg
    if glyphCount = 0 ∧ c.checks then Rd.panic .overflow
    else do
      let glyphs ← Rd.vec 2 (if glyphCount = 0 then 2 ^ 64 - 1 else glyphCount - 1) Rd.u16
      pure (format0 format glyphs)

/-- The `while` loop of `CharacterSet1::read`, src/compact1/character_set.rs:124-128,
bounded by `fuel` iterations.  `found_count` cannot overflow `usize` before the
tape ends and is unbounded here. -/
def readRanges1 (fuel glyphCount foundCount : Nat) : Rd (Nat × List CharRange1) :=
  if foundCount < glyphCount then
    match fuel with
    | 0 => Rd.panic .fuel
    | fuel + 1 => do
      let range ← readRange1
      let (n, ranges) ← readRanges1 fuel glyphCount (foundCount + (1 + range.leftCount.toNat))
      pure (n, range :: ranges)
  else pure (foundCount, [])

/-- `CharacterSet1::read`, src/compact1/character_set.rs:113-134.  Every
iteration of the loop finds a glyph, so the glyph count bounds their number. -/
def read1 (glyphCount : Nat) : Rd CharacterSet := do
  let format ← Rd.u8
  if format ≠ 1 then Rd.raise .malformedCharacterSet
  else do
    let (foundCount, ranges) ← readRanges1 glyphCount glyphCount (0 + 1)
    if foundCount ≠ glyphCount then Rd.raise .malformedCharacterSet
    else pure (format1 format ranges)

/-- The `while` loop of `CharacterSet2::read`, src/compact1/character_set.rs:155-159. -/
def readRanges2 (fuel glyphCount foundCount : Nat) : Rd (Nat × List CharRange2) :=
  if foundCount < glyphCount then
    match fuel with
    | 0 => Rd.panic .fuel
    | fuel + 1 => do
      let range ← readRange2
      let (n, ranges) ← readRanges2 fuel glyphCount (foundCount + (1 + range.leftCount.toNat))
      pure (n, range :: ranges)
  else pure (foundCount, [])

/-- `CharacterSet2::read`, src/compact1/character_set.rs:143-165. -/
def read2 (glyphCount : Nat) : Rd CharacterSet := do
  let format ← Rd.u8
  if format ≠ 2 then Rd.raise .malformedCharacterSet
  else do
    let (foundCount, ranges) ← readRanges2 glyphCount glyphCount (0 + 1)
    if foundCount ≠ glyphCount then Rd.raise .malformedCharacterSet
    else pure (format2 format ranges)

/-- `CharacterSet::read`, src/compact1/character_set.rs:71-82. -/
def read (glyphCount : Nat) : Rd CharacterSet := do
  let format ← Rd.peek Rd.u8
  if format = 0 then read0 glyphCount
  else if format = 1 then read1 glyphCount
  else if format = 2 then read2 glyphCount
  else Rd.raise .unknownCharacterSetFormat

end CharacterSet

end PS
