import Verif.Model.Words
import Verif.Spec.Program
/-!
# Specification: programs and the width of words
-/
namespace PS.Type2.Spec

/-- What does not go into words of `bits` bits and the memory they address: another operand
on a stack of `2^(bits - 4)` operands, and a number of stem hints of `2^bits` (of a little
less in front of a mask, as 7 is added to round up). -/
inductive Exceeds (bits : Nat) (σ : State) : Panic → Prop
  | operand {x bs rest} : Operand x bs → σ.code = bs ++ rest → 2 ^ (bits - 4) ≤ σ.stack.length → Exceeds bits σ .capacity
  | dup {rest} : σ.code = bytes .opDup ++ rest → 2 ^ (bits - 4) ≤ σ.stack.length → Exceeds bits σ .capacity
  | stems {op rest} : Stem op → σ.code = bytes op ++ rest → 2 ^ bits ≤ σ.stems + σ.stack.length / 2 → Exceeds bits σ .overflow
  | mask {op rest} : Mask op → σ.code = bytes op ++ rest → 2 ^ bits ≤ σ.stems + σ.stack.length / 2 + 7 →
    Exceeds bits σ .overflow

/-- `RunOn bits cfg s l out`: as `Run cfg s l out`, on a target with words of `bits` bits. -/
inductive RunOn (bits : Nat) (cfg : Config) : Program → List Observation → Outcome → Prop
  | ended {s t} : Words.Next bits cfg s (.ok none) t → RunOn bits cfg s [] (.ended t.width)
  | failed {s r t} : Words.Next bits cfg s r t → (∀ o, r ≠ .ok o) → RunOn bits cfg s [] .failed
  | more {s o t l out} : Words.Next bits cfg s (.ok (some o)) t → RunOn bits cfg t l out →
    RunOn bits cfg s ((o, t.width, t.stems) :: l) out

/-! ## Subroutines that call the next one twice -/

/-- `n` subroutines, each of which calls the next one twice, and a last one. -/
def tower (leaf : List UInt8) (n : Nat) : List (List UInt8) :=
  (List.range n).map (fun i => [UInt8.ofNat (33 + i), 10, UInt8.ofNat (33 + i), 10, 11]) ++ [leaf]

/-- `n` subroutines, each of which calls the next one twice, and one that declares a stem. -/
def hinting (n : Nat) : List (List UInt8) := tower [139, 139, 1, 11] n

/-- `n` subroutines, each of which calls the next one twice, and one that pushes an operand. -/
def piling (n : Nat) : List (List UInt8) := tower [139, 11] n

end PS.Type2.Spec
