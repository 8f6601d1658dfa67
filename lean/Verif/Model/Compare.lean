import Verif.Model.Operations
import Verif.Model.Program
/-!
# Comparing what was read

The comparisons that the types of the crate derive or inherit.
-/
namespace PS

/-- `==` of `compact1::Number`, derived, src/compact1/number.rs:6: the variants are compared
first, then the payloads. -/
def Number.eq : Number → Number → Bool
  | .integer i, .integer j => i == j
  | .real x, .real y => F32.beq x y
  | _, _ => false

/-- `==` of vectors: the lengths, then the elements.
Used in comparing what is in src/compact1/operation.rs:13 and src/type2/operation.rs:9. -/
def sliceEq (eq : α → α → Bool) (xs ys : List α) : Bool :=
  xs.length == ys.length && (xs.zip ys).all fun x => eq x.1 x.2

/-- The operators with an entry, in some order: the order of a `HashMap` is not specified,
but comparing does not depend on it.
The `HashMap` is that of src/compact1/operation.rs:13. -/
def Operations.keys (o : Operations) : List Operator :=
  (List.range 65536).filterMap fun n =>
    match Operator.from (UInt16.ofNat n) with
    | .ok op => if (o.map op).isSome then some op else none
    | _ => none

/-- `==` of the `HashMap` that `compact1::Operations` dereferences to,
src/compact1/operation.rs:13,74, as the standard library has it: the numbers of entries, then
for each entry of the one that of the other. -/
def Operations.eq (a b : Operations) : Bool :=
  a.keys.length == b.keys.length && a.keys.all fun op =>
    match a.map op, b.map op with
    | some xs, some ys => sliceEq Number.eq xs ys
    | _, _ => false

/-- `Ord::cmp` of `compact1::Offset`, derived, src/compact1/offset.rs:4-5. -/
def offsetCmp (a b : UInt32) : Ordering := compare a.toNat b.toNat

/-- `==` of `type2::Operation`, a pair, src/type2/operation.rs:6-9,21. -/
def Type2.operationEq (a b : Type2.Operation) : Bool := a.1 == b.1 && sliceEq F32.beq a.2 b.2

end PS
