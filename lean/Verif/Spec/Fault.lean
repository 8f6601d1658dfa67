import Verif.Spec.Program
/-!
# Specification: what can be wrong with a Type 2 program

For each kind of error the states of the machine in which it is the right one.
-/
namespace PS.Type2.Spec

/-- `Ordered σ op`: the operator `op` is to be executed. -/
def Ordered (σ : State) (op : Operator) : Prop := ∃ rest, σ.code = bytes op ++ rest

/-- The subroutines of a state that an operator calls. -/
def Callable (σ : State) : Operator → Option (List (List UInt8))
  | .opCallSubr => some σ.local
  | .opCallGSubr => some σ.global
  | _ => none

/-- The number of bytes of a mask that would follow. -/
def maskSize (σ : State) : Nat := (σ.stems + σ.stack.length / 2 + 7) / 8

/-- `Fault cfg σ e`: the error `e` says what is wrong with the state `σ`. -/
inductive Fault (cfg : Config) (σ : State) : Err → Prop
  /-- The code ends inside an operand or an operator, or before the operator. -/
  | cut : Cut σ.code → Fault cfg σ .eof
  /-- The code ends inside a mask.  (A mask that could not be held in memory at all is
  another matter, see `Fatal`.) -/
  | mask {op rest} : Mask op → σ.code = bytes op ++ rest → rest.length < maskSize σ →
    (maskSize σ < 2 ^ 63 ∨ cfg.prealloc = false) → Fault cfg σ .eof
  /-- There is no such operator. -/
  | unknown : Unknown σ.code → Fault cfg σ (.raised .unknownOperator)
  /-- The operator is not implemented. -/
  | unsupported {op} : op ∈ [Operator.opPut, .opGet, .opRandom] → Ordered σ op → Fault cfg σ (.raised .unsupportedOperator)
  /-- There are no arguments for a path or stem operator. -/
  | arguments {op} : Path op ∨ Stem op → Ordered σ op → (∀ args, args <:+ σ.stack → ¬ Accepts op args.length) →
    Fault cfg σ (.raised .malformedOperands)
  /-- There are too few operands for an arithmetic, conditional or stack operator. -/
  | fewer {op n} : operandsOf op = some n → op ∉ [Operator.opDup, .opIndex, .opRoll] → Ordered σ op → σ.stack.length < n →
    Fault cfg σ (.raised .expectedOperand)
  /-- There is nothing to duplicate. -/
  | dup : Ordered σ .opDup → σ.stack = [] → Fault cfg σ (.raised .expectedMoreOperands)
  /-- The topmost operand is missing or not an integer, where one is needed. -/
  | type {op} : op ∈ [Operator.opIndex, .opRoll, .opCallSubr, .opCallGSubr] → Ordered σ op →
    (∀ st x i, σ.stack = st ++ [x] → ¬ IntArg x i) → Fault cfg σ (.raised .expectedOtherOperand)
  /-- The number of operands to roll is missing or not an integer. -/
  | rollType {st y j} : Ordered σ .opRoll → σ.stack = st ++ [y] → IntArg y j →
    (∀ st' x n, st = st' ++ [x] → ¬ IntArg x n) → Fault cfg σ (.raised .expectedOtherOperand)
  /-- There is no operand of this index. -/
  | index {st x i} : Ordered σ .opIndex → σ.stack = st ++ [x] → IntArg x i → st.length ≤ i ∨ st = [] →
    Fault cfg σ (.raised .expectedMoreOperands)
  /-- There are not that many operands to roll. -/
  | rollFewer {st x y n j} : Ordered σ .opRoll → σ.stack = st ++ [x, y] → IntArg x n → IntArg y j → st.length < n →
    Fault cfg σ (.raised .expectedMoreOperands)
  /-- A negative number of operands cannot be rolled. -/
  | rollNegative {st x y n j} : Ordered σ .opRoll → σ.stack = st ++ [x, y] → IntArg x n → IntArg y j → n < 0 →
    Fault cfg σ (.raised .invalidOperand)
  /-- There is no such subroutine.  (With overflow checks a number beyond 32 bits is
  another matter, see `Fatal`.) -/
  | subroutine {op subs st x a} : Ordered σ op → Callable σ op = some subs → σ.stack = st ++ [x] → IntArg x a →
    (a + callBias subs.length < 0 ∨ subs.length ≤ a + callBias subs.length) →
    (a + callBias subs.length < 2 ^ 31 ∨ cfg.checks = false) → Fault cfg σ (.raised .noSubroutine)
  /-- There is nowhere to return to. -/
  | caller : Ordered σ .opReturn → σ.callers = [] → Fault cfg σ (.raised .noCaller)
  /-- The program ends in a subroutine, and in it or in one that has called it there is
  code left. -/
  | trailing {rest code} : σ.code = bytes .opEndChar ++ rest → code ∈ (rest :: σ.callers).dropLast → code ≠ [] →
    Fault cfg σ (.raised .trailingData)

/-- `Fatal cfg σ x`: in the state `σ` there is no way but the panic `x`. -/
inductive Fatal (cfg : Config) (σ : State) : Panic → Prop
  | roll {st as x y} : cfg.checks = true → Ordered σ .opRoll → σ.stack = st ++ as ++ [x, y] → as ≠ [] →
    IntArg x as.length → IntArg y (-2 ^ 31) → Fatal cfg σ .overflow
  | call {op subs st x a} : cfg.checks = true → Ordered σ op → Callable σ op = some subs → σ.stack = st ++ [x] →
    IntArg x a → 2 ^ 31 ≤ a + callBias subs.length → Fatal cfg σ .overflow
  | mask {op} : cfg.prealloc = true → Mask op → Ordered σ op → 2 ^ 63 ≤ maskSize σ → Fatal cfg σ .capacity

end PS.Type2.Spec
