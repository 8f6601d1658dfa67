import Verif.Spec.Program
/-!
# Specification: subroutines that can be spared, operators that cancel
-/
namespace PS.Type2.Spec

/-- `Spared kept all`: the subroutines `kept` are those of `all`, except that some are
replaced by one that cannot be executed (no operand or operator begins with 0), or that
some at the end are missing, without an effect on how they are numbered. -/
def Spared (kept all : List (List UInt8)) : Prop :=
  callBias kept.length = callBias all.length ∧ ∀ (i : Nat) (b : List UInt8), kept[i]? = some b → b = [0] ∨ all[i]? = some b

/-- Sequences of operators that do nothing, and how many operands they need. -/
def cancelling : List (List Operator × Nat) :=
  [([.opExch, .opExch], 2), ([.opDup, .opDrop], 1), ([.opNeg, .opNeg], 1)]

end PS.Type2.Spec
