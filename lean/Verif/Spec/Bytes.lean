/-!
# Specification: big-endian bytes and two's complement
-/
namespace PS.Spec

/-- The `k`-byte big-endian representation of `n` (modulo `256^k`). -/
def be : Nat → Nat → List UInt8
  | 0, _ => []
  | k + 1, n => be k (n / 256) ++ [UInt8.ofNat n]

/-- The two's complement representation of an integer in `k` bytes, big-endian. -/
def beSigned (k : Nat) (i : Int) : List UInt8 := be k (i % 256 ^ k).toNat

/-- The concatenation of encodings: `Seq R as bs` says that `bs` consists of an
encoding, in the sense of `R`, of each of `as`, one after another. -/
inductive Seq {α : Type} (R : α → List UInt8 → Prop) : List α → List UInt8 → Prop
  | nil : Seq R [] []
  | cons {a b as bs} : R a b → Seq R as bs → Seq R (a :: as) (b ++ bs)

/-- The code under which an operator is looked up: its one byte, or the escape
and the second byte. -/
def lookupCode : List UInt8 → Option Nat
  | [b] => some b.toNat
  | [12, b] => some (12 * 256 + b.toNat)
  | _ => none

end PS.Spec
