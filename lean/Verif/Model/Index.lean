import Verif.Model.Number
/-!
# The INDEX structure
-/
namespace PS

/-- `compact1::Index`, src/compact1/index/mod.rs:6-15.  `Default` (derived by
`table!`, used for `Subroutines`) is the empty index. -/
structure Index where
  count : UInt16
  offsetSize : UInt8
  offsets : List UInt32
  data : List (List UInt8)
deriving DecidableEq, Repr

namespace Index

/-- `Index::default()`, used at src/compact1/font_set/character_name_keyed.rs:30
and src/compact1/font_set/character_id_keyed.rs:111. -/
def empty : Index := { count := 0, offsetSize := 0, offsets := [], data := [] }

/-- `tape.take_given::<Vec<u8>>(size)`.
Used in src/compact1/index/mod.rs:45, src/compact1/font_set/character_id_keyed.rs:107,
src/compact1/font_set/character_name_keyed.rs:26 and src/type2/program.rs:180. -/
def _root_.PS.Rd.bytes (size : Nat) : Rd (List UInt8) := Rd.vec 1 size Rd.u8

/-- The second loop of `Index::read`, src/compact1/index/mod.rs:40-46, over the
offsets from number `i` on. -/
def readData : List UInt32 → Rd (List (List UInt8))
  | a :: b :: rest =>
    if b < a then Rd.raise .malformedIndex
    else do
      let c ← Rd.cfg
      let size ← Rd.ofRes (subU32 c.checks b a)
      let chunk ← Rd.bytes size.toNat
      let data ← readData (b :: rest)
      pure (chunk :: data)
  | _ => pure []

/-- `Index::read`, src/compact1/index/mod.rs:19-54.  `offsets[0]` exists
because `count + 1` offsets were read. -/
def read : Rd Index := do
  let count ← Rd.u16
  if count = 0 then pure empty
  else do
    let offsetSize ← Rd.u8
    let offsets ← Rd.replicate (count.toNat + 1) (readOffset offsetSize)
    match offsets with
    | [] => Rd.panic .bounds
    | first :: _ =>
      if first ≠ 1 then Rd.raise .malformedIndex
      else do
        let data ← readData offsets
        pure { count, offsetSize, offsets, data }

end Index

/-- `CharacterStrings::read`, src/compact1/index/character_strings.rs:9-18. -/
def readCharacterStrings (format : Int) : Rd Index :=
  if format = 2 then Index.read else Rd.raise .unknownCharacterStringFormat

end PS
