import Verif.Spec.Order
import Verif.Spec.Dict
/-!
# Specification: equality of numbers
-/
namespace PS.Spec

/-- Numbers of one kind, integer or real, with one value. -/
def Same : Number → Number → Prop
  | .integer i, .integer j => i = j
  | .real x, .real y => Equal x y
  | _, _ => False

/-- Both dictionaries have the operator, with equal operands, or neither has it. -/
def SameEntry (ops ops' : List (Operator × List Number)) (op : Operator) : Prop :=
  (∃ xs ys, Last ops op xs ∧ Last ops' op ys ∧ List.Forall₂ Same xs ys) ∨
    (op ∉ ops.map Prod.fst ∧ op ∉ ops'.map Prod.fst)

end PS.Spec
