import Verif.Model.Base
import Verif.Model.F32
/-!
# Dictionary numbers and offsets
-/
namespace PS

/-- `compact1::Number`, src/compact1/number.rs:5-12.  The payload of `integer`
is an `i32` (a theorem shows that reading stays in range). -/
inductive Number where
  | integer (i : Int)
  | real (x : F32)
deriving DecidableEq, Repr

namespace Number

/-- The loop of `parse`, src/compact1/number.rs:53-71, with its `loop` bounded
by `fuel` iterations.  The state is the pending byte, whether the next nibble is
the high one, and the text so far. -/
def parseLoop (fuel : Nat) (byte : UInt8) (high : Bool) (buffer : List Char) : Rd (List Char) :=
  match fuel with
  | 0 => Rd.panic .fuel
  | fuel + 1 => do
    let byte ← (if high then Rd.u8 else pure byte : Rd UInt8)
    let nibble := if high then byte >>> 4 else byte &&& 0x0f
    let n := nibble.toNat
    if n ≤ 9 then parseLoop fuel byte (!high) (buffer ++ [Char.ofNat (48 + n)])
    else if n = 0x0a then parseLoop fuel byte (!high) (buffer ++ ['.'])
    else if n = 0x0b then parseLoop fuel byte (!high) (buffer ++ ['e'])
    else if n = 0x0c then parseLoop fuel byte (!high) (buffer ++ ['e', '-'])
    else if n = 0x0e then parseLoop fuel byte (!high) (buffer ++ ['-'])
    else if n = 0x0f then pure buffer
    else Rd.raise .malformedNumber

/-- `parse`, src/compact1/number.rs:49-76.  Every other iteration of the loop
takes a byte, so twice the tape length bounds their number. -/
def parse : Rd F32 := do
  let size ← Rd.size
  let buffer ← parseLoop (2 * size + 2) 0 true []
  match parseF32 buffer with
  | some value => pure value
  | none => Rd.raise .malformedNumber

/-- `(first as i32 - 247) * 256 + tape.take::<u8>()? as i32 + 108`,
src/compact1/number.rs:33-34 and src/type2/number.rs:9, operation by operation. -/
def _root_.PS.Rd.positiveTwoByte (first : UInt8) : Rd Int := do
  let v ← Rd.i32 (first.toNat - 247)
  let v ← Rd.i32 (v * 256)
  let b ← Rd.u8
  let v ← Rd.i32 (v + b.toNat)
  Rd.i32 (v + 108)

/-- `-(first as i32 - 251) * 256 - tape.take::<u8>()? as i32 - 108`,
src/compact1/number.rs:36-37 and src/type2/number.rs:10, operation by operation. -/
def _root_.PS.Rd.negativeTwoByte (first : UInt8) : Rd Int := do
  let v ← Rd.i32 (first.toNat - 251)
  let v ← Rd.i32 (-v)
  let v ← Rd.i32 (v * 256)
  let b ← Rd.u8
  let v ← Rd.i32 (v - b.toNat)
  Rd.i32 (v - 108)

/-- `Number::read`, src/compact1/number.rs:28-47. -/
def read : Rd Number := do
  let first ← Rd.u8
  if 0x20 ≤ first ∧ first ≤ 0xf6 then do
    let v ← Rd.i32 (first.toNat - 139)
    pure (integer v)
  else if 0xf7 ≤ first ∧ first ≤ 0xfa then do
    let v ← Rd.positiveTwoByte first
    pure (integer v)
  else if 0xfb ≤ first ∧ first ≤ 0xfe then do
    let v ← Rd.negativeTwoByte first
    pure (integer v)
  else if first = 0x1c then do
    let v ← Rd.u16
    pure (integer (toS 16 v.toNat))
  else if first = 0x1d then do
    let v ← Rd.u32
    pure (integer (toS 32 v.toNat))
  else if first = 0x1e then do
    let x ← parse
    pure (real x)
  else Rd.raise .malformedNumber

end Number

/-- `TryFrom<Number> for StringID`, src/compact1/mod.rs:32-42; `value as u16`
truncates. -/
def stringIDOfNumber : Number → Res UInt16
  | .integer value => if 0 ≤ value then .ok (UInt16.ofNat (toU 16 value)) else .err (.raised .malformedStringID)
  | .real _ => .err (.raised .malformedStringID)

/-- `Offset::read`, src/compact1/offset.rs:10-25. -/
def readOffset (size : UInt8) : Rd UInt32 :=
  if size = 1 then do
    let v ← Rd.u8
    pure (UInt32.ofNat v.toNat)
  else if size = 2 then do
    let v ← Rd.u16
    pure (UInt32.ofNat v.toNat)
  else if size = 3 then do
    let bs ← Rd.readExact 3
    pure (UInt32.ofNat (beNat (0 :: bs)))
  else if size = 4 then Rd.u32
  else Rd.raise .malformedOffset

end PS
