import Verif.Model.Program
import Verif.Spec.Number
import Verif.Spec.Float
import Verif.Spec.Arithmetic
import Mathlib.Logic.Relation
/-!
# Specification: Type 2 programs

The machine of "The Type 2 Charstring Format" (Technical Note #5177): a state
holds the bytes still to be executed, and relations say what each operand and
each operator does to it.  There are no positions, no error values and no
computation here; what is not related to anything is an error.
-/
namespace PS.Type2.Spec
open PS.Spec

/-! ## Bytes -/

/-- `Operand x bs`: `bs` encodes the operand `x` (section 3.2 and Table 1): an
integer, or 255 and a 16.16 fixed-point number, rounded to binary32. -/
inductive Operand : F32 → List UInt8 → Prop
  | int {i : Int} {bs : List UInt8} {x : F32} : ShortInt i bs →
    Nearest (decide (i < 0)) (i.natAbs : ℚ) x → Operand x bs
  | fixed (i : Int) {x : F32} : -2147483648 ≤ i → i ≤ 2147483647 →
    Nearest (decide (i < 0)) ((i.natAbs : ℚ) / 2 ^ 16) x → Operand x (255 :: beSigned 4 i)

/-- The bytes of an operator (Appendix A). -/
def bytes : Operator → List UInt8
  | .opHStem => [1]
  | .opVStem => [3]
  | .opVMoveTo => [4]
  | .opRLineTo => [5]
  | .opHLineTo => [6]
  | .opVLineTo => [7]
  | .opRRCurveTo => [8]
  | .opCallSubr => [10]
  | .opReturn => [11]
  | .opEndChar => [14]
  | .opHStemHM => [18]
  | .opHintMask => [19]
  | .opCntrMask => [20]
  | .opRMoveTo => [21]
  | .opHMoveTo => [22]
  | .opVStemHM => [23]
  | .opRCurveLine => [24]
  | .opRLineCurve => [25]
  | .opVVCurveTo => [26]
  | .opHHCurveTo => [27]
  | .opCallGSubr => [29]
  | .opVHCurveTo => [30]
  | .opHVCurveTo => [31]
  | .opAnd => [12, 3]
  | .opOr => [12, 4]
  | .opNot => [12, 5]
  | .opAbs => [12, 9]
  | .opAdd => [12, 10]
  | .opSub => [12, 11]
  | .opDiv => [12, 12]
  | .opNeg => [12, 14]
  | .opEq => [12, 15]
  | .opDrop => [12, 18]
  | .opPut => [12, 20]
  | .opGet => [12, 21]
  | .opIfElse => [12, 22]
  | .opRandom => [12, 23]
  | .opMul => [12, 24]
  | .opSqrt => [12, 26]
  | .opDup => [12, 27]
  | .opExch => [12, 28]
  | .opIndex => [12, 29]
  | .opRoll => [12, 30]
  | .opHFlex => [12, 34]
  | .opFlex => [12, 35]
  | .opHFlex1 => [12, 36]
  | .opFlex1 => [12, 37]

/-- Bytes that end inside an operand or an operator, or before it. -/
def Cut (tail : List UInt8) : Prop :=
  (∃ x bs, Operand x bs ∧ tail <+: bs ∧ tail ≠ bs) ∨ (∃ op, tail <+: bytes op ∧ tail ≠ bytes op)

/-- Bytes that start neither with an operand nor with an operator, and cannot be
continued so that they do. -/
def Unknown (tail : List UInt8) : Prop :=
  (∀ x bs, Operand x bs → ¬ bs <+: tail) ∧ (∀ op, ¬ bytes op <+: tail) ∧ ¬ Cut tail

/-! ## Arguments -/

/-- The numbers of arguments of the path and hint-stem operators (sections
4.1–4.3), without the width. -/
def Accepts : Operator → Nat → Prop
  | .opRMoveTo, n => n = 2
  | .opHMoveTo, n | .opVMoveTo, n => n = 1
  -- {dx dy}+
  | .opRLineTo, n => ∃ k ≥ 1, n = 2 * k
  -- dx {dy dx}* | {dx dy}+
  | .opHLineTo, n | .opVLineTo, n => n ≥ 1
  -- {dxa dya dxb dyb dxc dyc}+
  | .opRRCurveTo, n => ∃ k ≥ 1, n = 6 * k
  -- dy1? {dxa dxb dyb dxc}+
  | .opHHCurveTo, n | .opVVCurveTo, n => ∃ k ≥ 1, n = 4 * k ∨ n = 4 * k + 1
  -- dx1 dx2 dy2 dy3 {8}* dxf? | {8}+ dyf?
  | .opHVCurveTo, n | .opVHCurveTo, n => ∃ k ≥ 1, n = 4 * k ∨ n = 4 * k + 1
  -- {6}+ dxd dyd
  | .opRCurveLine, n => ∃ k ≥ 1, n = 6 * k + 2
  -- {dxa dya}+ {6}
  | .opRLineCurve, n => ∃ k ≥ 1, n = 2 * k + 6
  | .opFlex, n => n = 13
  | .opHFlex, n => n = 7
  | .opHFlex1, n => n = 9
  | .opFlex1, n => n = 11
  -- y dy {dya dyb}*
  | .opHStem, n | .opVStem, n | .opHStemHM, n | .opVStemHM, n => ∃ k ≥ 1, n = 2 * k
  | _, _ => False

/-- The operators that draw. -/
def Path (op : Operator) : Prop :=
  op ∈ [.opRMoveTo, .opHMoveTo, .opVMoveTo, .opRLineTo, .opHLineTo, .opVLineTo, .opRRCurveTo,
    .opHHCurveTo, .opVVCurveTo, .opHVCurveTo, .opVHCurveTo, .opRCurveLine, .opRLineCurve,
    .opFlex, .opHFlex, .opHFlex1, .opFlex1]

/-- The operators that declare stem hints. -/
def Stem (op : Operator) : Prop := op ∈ [.opHStem, .opVStem, .opHStemHM, .opVStemHM]

/-- The operators that activate hints, followed by a mask. -/
def Mask (op : Operator) : Prop := op ∈ [.opHintMask, .opCntrMask]

/-- `Longest op stack below args`: `args` are the topmost operands of the stack,
as many as the operator can take, and `below` are the others. -/
def Longest (op : Operator) (stack below args : List F32) : Prop :=
  stack = below ++ args ∧ Accepts op args.length ∧
    ∀ args', args' <:+ stack → Accepts op args'.length → args'.length ≤ args.length

/-- `IsInt x i`: the value of `x` is the integer `i`. -/
def IsInt (x : F32) (i : Int) : Prop := ∃ s m e, x = .fin s m e ∧ val s m e = i

/-- `IntArg x i`: the operand `x` given as an integer argument stands for `i`: the
32-bit integers stand for themselves.  (A deviation of the code: `2^31`, which is
not a 32-bit integer, stands for `2^31 - 1`.) -/
def IntArg (x : F32) (i : Int) : Prop :=
  (IsInt x i ∧ -2 ^ 31 ≤ i ∧ i < 2 ^ 31) ∨ (IsInt x (2 ^ 31) ∧ i = 2 ^ 31 - 1)

/-- The number that is added to the operand of a call (section 4.7). -/
def callBias (count : Nat) : Int :=
  if count < 1240 then 107 else if count < 33900 then 1131 else 32768

/-! ## Operators on the operand stack -/

/-- `Rolled j as bs`: `bs` are `as` moved by `j` positions towards the end, in
a circle. -/
def Rolled (j : Int) (as bs : List F32) : Prop :=
  bs.length = as.length ∧
    ∀ i : Nat, i < as.length → bs[((i + j) % as.length).toNat]? = as[i]?

/-- A truth value as an operand: 1 or 0. -/
def truth (b : Bool) : F32 := if b then .fin false (2 ^ 23) 126 else .fin false 0 0

example : val false (2 ^ 23) 126 = 1 := by norm_num [val]

/-- Any operand but the two zeros is true. -/
def IsTrue (x : F32) : Prop := ∀ s m e, x = .fin s m e → val s m e ≠ 0

open Classical in
/-- `StackOp checks op st st'`: the arithmetic, conditional or stack operator
`op` turns the operand stack `st` (its top at the end) into `st'` (sections 4.4
and 4.6). -/
inductive StackOp (checks : Bool) : Operator → List F32 → List F32 → Prop
  | abs (st x) : StackOp checks .opAbs (st ++ [x]) (st ++ [absolute x])
  | neg (st x) : StackOp checks .opNeg (st ++ [x]) (st ++ [opposite x])
  | sqrt (st) {x z} : IsRoot x z → StackOp checks .opSqrt (st ++ [x]) (st ++ [z])
  | add (st) {x y z} : IsSum x y z → StackOp checks .opAdd (st ++ [x, y]) (st ++ [z])
  | sub (st) {x y z} : IsDifference x y z → StackOp checks .opSub (st ++ [x, y]) (st ++ [z])
  | mul (st) {x y z} : IsProduct x y z → StackOp checks .opMul (st ++ [x, y]) (st ++ [z])
  | div (st) {x y z} : IsQuotient x y z → StackOp checks .opDiv (st ++ [x, y]) (st ++ [z])
  | drop (st x) : StackOp checks .opDrop (st ++ [x]) st
  | exch (st x y) : StackOp checks .opExch (st ++ [x, y]) (st ++ [y, x])
  | dup (st x) : StackOp checks .opDup (st ++ [x]) (st ++ [x, x])
  /-- `numX … num0 i index` copies `numi`. -/
  | index (st above : List F32) (x n : F32) {i : Int} : IntArg n i → i = above.length →
    StackOp checks .opIndex (st ++ x :: above ++ [n]) (st ++ x :: above ++ [x])
  /-- A negative `i` stands for 0. -/
  | indexNegative (st : List F32) (x n : F32) {i : Int} : IntArg n i → i < 0 →
    StackOp checks .opIndex (st ++ [x, n]) (st ++ [x, x])
  /-- `num(N-1) … num0 N J roll` -/
  | roll (st as bs : List F32) (x y : F32) {n j : Int} : IntArg x n → IntArg y j →
    n = as.length → (j ≠ -2 ^ 31 ∨ n = 0) → Rolled j as bs →
    StackOp checks .opRoll (st ++ as ++ [x, y]) (st ++ bs)
  /-- A deviation of the code: without overflow checks rolling by `-2^31` does
  nothing (and with them it is an error). -/
  | rollLeast (st as : List F32) (x y : F32) {n : Int} : checks = false → IntArg x n →
    IntArg y (-2 ^ 31) → n = as.length →
    StackOp checks .opRoll (st ++ as ++ [x, y]) (st ++ as)
  | and (st x y) : StackOp checks .opAnd (st ++ [x, y]) (st ++ [truth (decide (IsTrue x ∧ IsTrue y))])
  | or (st x y) : StackOp checks .opOr (st ++ [x, y]) (st ++ [truth (decide (IsTrue x ∨ IsTrue y))])
  | not (st x) : StackOp checks .opNot (st ++ [x]) (st ++ [truth (decide (¬ IsTrue x))])
  | eq (st x y) : StackOp checks .opEq (st ++ [x, y]) (st ++ [truth (decide (Equal x y))])
  /-- `s1 s2 v1 v2 ifelse` leaves `s1` if `v1 ≤ v2`, `s2` otherwise. -/
  | ifElse (st s1 s2 v1 v2) :
    StackOp checks .opIfElse (st ++ [s1, s2, v1, v2]) (st ++ [if LessEqual v1 v2 then s1 else s2])

/-! ## The machine -/

/-- A state: the bytes still to be executed in the current routine and in its
callers (the immediate one first), the subroutines, the operand stack, the
number of stem hints and the width. -/
structure State where
  code : List UInt8
  callers : List (List UInt8)
  global : List (List UInt8)
  «local» : List (List UInt8)
  stack : List F32
  stems : Nat
  width : Option F32

/-- An operand is pushed. -/
def Push (σ τ : State) : Prop :=
  ∃ x bs rest, Operand x bs ∧ σ.code = bs ++ rest ∧
    τ = { σ with code := rest, stack := σ.stack ++ [x] }

/-- An operator is executed that does not yield an operation. -/
inductive Quiet (checks : Bool) (σ : State) : State → Prop
  | stack {op rest st} : σ.code = bytes op ++ rest → StackOp checks op σ.stack st →
    Quiet checks σ { σ with code := rest, stack := st }
  | callLocal {rest st x a} {i : Nat} {body} : σ.code = bytes .opCallSubr ++ rest →
    σ.stack = st ++ [x] → IntArg x a → a + callBias σ.local.length = i → σ.local[i]? = some body →
    Quiet checks σ { σ with code := body, callers := rest :: σ.callers, stack := st }
  | callGlobal {rest st x a} {i : Nat} {body} : σ.code = bytes .opCallGSubr ++ rest →
    σ.stack = st ++ [x] → IntArg x a → a + callBias σ.global.length = i → σ.global[i]? = some body →
    Quiet checks σ { σ with code := body, callers := rest :: σ.callers, stack := st }
  | return {rest caller callers} : σ.code = bytes .opReturn ++ rest → σ.callers = caller :: callers →
    Quiet checks σ { σ with code := caller, callers := callers }

/-- The width once operands are left over: what it was, or else the topmost of
them. -/
def newWidth (width : Option F32) (below : List F32) : Option F32 := width.or below.getLast?

/-- An operator is executed that yields an operation. -/
inductive Emit (σ : State) : Operation → State → Prop
  | path {op rest below args} : Path op → σ.code = bytes op ++ rest → Longest op σ.stack below args →
    Emit σ (op, args) { σ with code := rest, stack := [], width := newWidth σ.width below }
  | stem {op rest below args} : Stem op → σ.code = bytes op ++ rest → Longest op σ.stack below args →
    Emit σ (op, args) { σ with
      code := rest, stack := [], width := newWidth σ.width below,
      stems := σ.stems + σ.stack.length / 2 }
  /-- The operands left declare vertical stems.  (A deviation of the code: the
  last of them also becomes the width, see C41.) -/
  | mask {op mask rest} : Mask op → σ.code = bytes op ++ mask ++ rest →
    mask.length = (σ.stems + σ.stack.length / 2 + 7) / 8 →
    Emit σ (op, []) { σ with
      code := rest, stack := [], width := newWidth σ.width σ.stack,
      stems := σ.stems + σ.stack.length / 2 }

/-- The program ends with `endchar`: in the subroutines being executed there is
no code left. -/
inductive End (σ : State) : State → Prop
  | endchar {rest main : List UInt8} {k : Nat} : σ.code = bytes .opEndChar ++ rest →
    rest :: σ.callers = List.replicate k [] ++ [main] →
    End σ { σ with code := main, callers := [], width := newWidth σ.width σ.stack }

/-- Operands are pushed. -/
abbrev Pushes := Relation.ReflTransGen Push

/-- Operands are pushed, and an operator is executed that does not yield an
operation. -/
def Turn (checks : Bool) (σ τ : State) : Prop := ∃ υ, Pushes σ υ ∧ Quiet checks υ τ

/-- Any number of those. -/
abbrev Turns (checks : Bool) := Relation.ReflTransGen (Turn checks)

/-- Exactly `n` of those. -/
inductive TurnsIn (checks : Bool) : Nat → State → State → Prop
  | nil {σ} : TurnsIn checks 0 σ σ
  | cons {n σ υ τ} : Turn checks σ υ → TurnsIn checks n υ τ → TurnsIn checks (n + 1) σ τ

/-- The next operation is `o`, after which the state is `σ'`. -/
def Yields (checks : Bool) (σ : State) (o : Operation) (σ' : State) : Prop :=
  ∃ τ υ, Turns checks σ τ ∧ Pushes τ υ ∧ Emit υ o σ'

/-- There is no further operation: the program ends in the state `σ'`, with
`endchar` or because a routine is exhausted. -/
def Ends (checks : Bool) (σ σ' : State) : Prop :=
  ∃ τ, Turns checks σ τ ∧ ((τ.code = [] ∧ σ' = τ) ∨ ∃ υ, Pushes τ υ ∧ End υ σ')

/-! ## Programs as states of the machine -/

/-- What is left of a routine. -/
def left (r : Routine) : List UInt8 := r.code.drop r.pos

/-- The state of the machine a program is in: positions are forgotten. -/
def view (s : Program) : State where
  code := left s.routine
  callers := s.callers.map left
  global := s.global
  «local» := s.local
  stack := s.stack
  stems := s.stems
  width := s.width

/-- A program in good order: it has not run beyond its code, no code exceeds what
memory can hold, there are at most `2^31` subroutines of a kind (a font has at most
65535), and its operands are binary32 numbers.  Every new program is, and `next`
keeps it so. -/
structure Sound (s : Program) : Prop where
  routine : s.routine.pos ≤ s.routine.code.length
  callers : ∀ r ∈ s.callers, r.pos ≤ r.code.length
  size : ∀ r ∈ s.routine :: s.callers, r.code.length < 2 ^ 63
  subroutines : ∀ code ∈ s.global ++ s.local, code.length < 2 ^ 63
  counts : s.global.length ≤ 2 ^ 31 ∧ s.local.length ≤ 2 ^ 31
  stack : ∀ x ∈ s.stack, x.WF

/-- `Ahead s xs op rest`: what is left of the current routine is the operands `xs`,
the operator `op`, and then `rest`. -/
def Ahead (s : Program) (xs : List F32) (op : Operator) (rest : List UInt8) : Prop :=
  ∃ bs, Seq Operand xs bs ∧ left s.routine = bs ++ bytes op ++ rest

/-- `Continues cfg s σ`: `next` goes on from `s` as from a program in the state `σ`,
with the same results, and leaves the same behind. -/
def Continues (cfg : Config) (s : Program) (σ : State) : Prop :=
  ∃ s1, Sound s1 ∧ view s1 = σ ∧ ∀ r t, Next cfg s r t ↔ Next cfg s1 r t

/-- `next` fails. -/
def Fails (cfg : Config) (s : Program) : Prop := ∃ e t, Next cfg s (.err e) t

/-! ## Histories -/

/-- Any number of calls of `next`, whatever they return. -/
abbrev History (cfg : Config) := Relation.ReflTransGen fun s s' => ∃ r, Next cfg s r s'

/-- `Calls cfg s ops s'`: as many calls of `next` as there are in `ops`, returning
these operations one after the other. -/
inductive Calls (cfg : Config) : Program → List Operation → Program → Prop
  | nil (s) : Calls cfg s [] s
  | cons {s o s1 ops s2} : Next cfg s (.ok (some o)) s1 → Calls cfg s1 ops s2 → Calls cfg s (o :: ops) s2

/-- `Trace checks σ l σ'`: the machine yields the operations in `l` one after the
other; with each goes the number of operands on the stack when its operator is
executed. -/
inductive Trace (checks : Bool) : State → List (Operation × Nat) → State → Prop
  | nil (σ) : Trace checks σ [] σ
  | cons {σ τ υ σ1 σ2 o l} : Turns checks σ τ → Pushes τ υ → Emit υ o σ1 → Trace checks σ1 l σ2 →
    Trace checks σ ((o, υ.stack.length) :: l) σ2

instance : DecidablePred Path := fun _ => by unfold Path; infer_instance
instance : DecidablePred Stem := fun _ => by unfold Stem; infer_instance
instance : DecidablePred Mask := fun _ => by unfold Mask; infer_instance

/-- The number of pairs of operands given to the hint operators of a trace,
including those given to masks. -/
def pairs : List (Operation × Nat) → Nat
  | [] => 0
  | (o, n) :: l => (if Stem o.1 ∨ Mask o.1 then n / 2 else 0) + pairs l

/-! ## Complete runs -/

/-- What can be seen after an operation has been returned: the operation, the width
and the number of stem hints. -/
abbrev Observation := Operation × Option F32 × Nat

/-- How a run ends: with `None`, and then with this width, or with an error or a
panic. -/
inductive Outcome where
  | ended (width : Option F32)
  | failed

/-- `Run cfg s l out`: calling `next` again and again, until it does not return an
operation, shows `l`, and the last call ends as `out` says. -/
inductive Run (cfg : Config) : Program → List Observation → Outcome → Prop
  | ended {s t} : Next cfg s (.ok none) t → Run cfg s [] (.ended t.width)
  | failed {s r t} : Next cfg s r t → (∀ o, r ≠ .ok o) → Run cfg s [] .failed
  | more {s o t l out} : Next cfg s (.ok (some o)) t → Run cfg t l out → Run cfg s ((o, t.width, t.stems) :: l) out

/-- `Executes checks σ l τ`: the machine comes from `σ` to `τ`, and shows `l` on the
way.  The last thing executed, if any, is an operator. -/
inductive Executes (checks : Bool) : State → List Observation → State → Prop
  | nil {σ τ} : Turns checks σ τ → Executes checks σ [] τ
  | cons {σ τ υ σ1 σ2 o l} : Turns checks σ τ → Pushes τ υ → Emit υ o σ1 → Executes checks σ1 l σ2 →
    Executes checks σ ((o, σ1.width, σ1.stems) :: l) σ2

/-- `Consumes checks σ l τ pending`: the machine executes all the code of `σ`, showing
`l`, and comes to `τ`; `pending` if the code ends with operands, to be used by
what follows. -/
def Consumes (checks : Bool) (σ : State) (l : List Observation) (τ : State) (pending : Prop) : Prop :=
  τ.code = [] ∧ τ.callers = [] ∧ ∃ υ, Executes checks σ l υ ∧ Pushes υ τ ∧ (υ = τ ∨ pending)

/-! ## Vocabulary of single properties -/

/-- Where a failed read leaves the position is on the tape. -/
def OnTape (cfg : Config) : Prop := ∀ p n, p ≤ n → cfg.eofPos p n ≤ n

/-- The operators on the stack, and how many operands each takes at least. -/
def operandsOf : Operator → Option Nat
  | .opAbs | .opNeg | .opSqrt | .opDrop | .opDup | .opNot => some 1
  | .opAdd | .opSub | .opMul | .opDiv | .opExch | .opAnd | .opOr | .opEq | .opIndex | .opRoll => some 2
  | .opIfElse => some 4
  | _ => none

/-- The operands before the first operator that clears the stack: its own, and in
front of them the width if the glyph carries one (section 3.1): a moveto or a stem
operator with as many operands as it accepts, a mask with implicit vertical stems. -/
def FirstOperands (op : Operator) (width : Option F32) (stack : List F32) : Prop :=
  ∃ args, stack = width.toList ++ args ∧
    ((op ∈ [Operator.opRMoveTo, .opHMoveTo, .opVMoveTo] ∧ Accepts op args.length) ∨
     (Stem op ∧ Accepts op args.length) ∨ (Mask op ∧ args.length % 2 = 0))

/-- The subroutines an operator calls. -/
def subroutinesOf (op : Operator) (s : Program) : Option (List (List UInt8)) :=
  match op with
  | .opCallSubr => some s.local
  | .opCallGSubr => some s.global
  | _ => none

/-- `Inlined cfg s t pending`: `t` differs from `s` in that its code has the body `b` of a
subroutine where that of `s` has a call of it, behind `a`.  The body is completely
executed up to a `return` (and whatever follows that).  `pending` has to hold if
the body ends with operands. -/
def Inlined (cfg : Config) (s t : Program) (pending : List UInt8 → Prop) : Prop :=
  ∃ (a enc b tail rest : List UInt8) (op : Operator) (subs : List (List UInt8)) (x : F32) (n : Int) (i : Nat)
    (σ τ : State) (l l' : List Observation),
    left s.routine = a ++ (enc ++ bytes op ++ rest) ∧ Operand x enc ∧ IsInt x n ∧
    subroutinesOf op s = some subs ∧ n + callBias subs.length = i ∧ subs[i]? = some (b ++ (bytes .opReturn ++ tail)) ∧
    view t = { view s with code := a ++ (b ++ rest) } ∧
    Consumes cfg.checks { view s with code := a, callers := [] } l σ (b ++ rest ≠ []) ∧
    Consumes cfg.checks { σ with code := b } l' τ (pending rest)

/-- The code ends inside the mask that is ahead. -/
def MaskCut (υ : State) : Prop :=
  ∃ op rest, Mask op ∧ υ.code = bytes op ++ rest ∧ rest.length < (υ.stems + υ.stack.length / 2 + 7) / 8

/-- The bytes of a program with its subroutines. -/
def size (code : List UInt8) (global «local» : List (List UInt8)) : Nat :=
  code.length + ((global ++ «local»).map List.length).sum

end PS.Type2.Spec
