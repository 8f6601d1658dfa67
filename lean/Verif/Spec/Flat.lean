import Verif.Spec.Program
/-!
# Specification: flat character strings

Character strings without subroutines, arithmetic and shuffling of operands: all there
is are operands, the operators that draw, declare hints or activate them, and `endchar`.
-/
namespace PS.Type2.Spec
open PS.Spec

/-- `Flat n bs`: the bytes `bs` are a flat character string, or the rest of one, before
which `n` stems have been declared. -/
inductive Flat : Nat → List UInt8 → Prop
  | endchar {n xs bs} : Seq Operand xs bs → Flat n (bs ++ bytes .opEndChar)
  | path {n op xs bs rest} : Path op → Seq Operand xs bs → Flat n rest → Flat n (bs ++ bytes op ++ rest)
  | stem {n op xs bs rest} : Stem op → Seq Operand xs bs → Flat (n + xs.length / 2) rest →
    Flat n (bs ++ bytes op ++ rest)
  | mask {n op xs bs mask rest} : Mask op → Seq Operand xs bs → mask.length = (n + xs.length / 2 + 7) / 8 →
    Flat (n + xs.length / 2) rest → Flat n (bs ++ bytes op ++ mask ++ rest)

/-- The numbers that can be written as an operand. -/
def Writable (x : F32) : Prop := ∃ bs, Operand x bs

/-- The multiples of `2^-16` from `-2^15` to `2^15`, except for the negative zero, as far
as binary32 has them. -/
def Fixed : F32 → Prop
  | .fin s m e => (F32.fin s m e).WF ∧ ∃ i : Int, -2 ^ 31 ≤ i ∧ i ≤ 2 ^ 31 ∧ val s m e = (i : ℚ) / 2 ^ 16 ∧
    (i = 0 → s = false)
  | .inf _ => False
  | .nan => False

/-- `Shown l width x`: the number `x` can be seen in a run that shows `l` and ends with
the width `width`. -/
def Shown (l : List Observation) (width : Option F32) (x : F32) : Prop :=
  (∃ o ∈ l, x ∈ o.1.2) ∨ width = some x

/-- A bound for the size of an operation in a flat character string: its operands, the
stems that a mask declares on the side, and the mask. -/
def bulk (o : Observation) : Nat := 5 * o.1.2.length + 11 * o.2.2 + 20

end PS.Type2.Spec
