import Verif.Spec.Bytes
/-!
# Specification: the INDEX structure

Section 5 of the CFF specification.
-/
namespace PS.Spec

/-- The offsets of consecutive objects, the first at `start`, with the end of the
last one. -/
def offsetsFrom (start : Nat) : List (List UInt8) → List Nat
  | [] => [start]
  | item :: items => start :: offsetsFrom (start + item.length) items

/-- The INDEX of `items` with offsets of `width` bytes; offsets count from the
byte preceding the data. -/
def encodeIndex (width : Nat) (items : List (List UInt8)) : List UInt8 :=
  if items = [] then be 2 0
  else be 2 items.length ++ be 1 width ++ (offsetsFrom 1 items).flatMap (be width) ++ items.flatten

/-- The offset width fits the data, and the number of items fits the count. -/
def IndexFits (width : Nat) (items : List (List UInt8)) : Prop :=
  items.length ≤ 65535 ∧ 1 ≤ width ∧ width ≤ 4 ∧ 1 + items.flatten.length < 256 ^ width

end PS.Spec
