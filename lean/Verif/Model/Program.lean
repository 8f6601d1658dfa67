import Verif.Model.Type2Operator
import Verif.Model.F32
import Verif.Model.Index
/-!
# Type 2 programs
-/
namespace PS.Type2

/-- `type2::number::read`, src/type2/number.rs:5-15.  `as f32` rounds. -/
def readNumber : Rd F32 := do
  let first ← Rd.u8
  if 0x20 ≤ first ∧ first ≤ 0xf6 then do
    let v ← Rd.i32 (first.toNat - 139)
    pure (F32.ofInt v)
  else if 0xf7 ≤ first ∧ first ≤ 0xfa then do
    let v ← Rd.positiveTwoByte first
    pure (F32.ofInt v)
  else if 0xfb ≤ first ∧ first ≤ 0xfe then do
    let v ← Rd.negativeTwoByte first
    pure (F32.ofInt v)
  else if first = 0x1c then do
    let v ← Rd.u16
    pure (F32.ofInt (toS 16 v.toNat))
  else if first = 0xff then do
    let v ← Rd.u32
    pure (F32.ofFixed (toS 32 v.toNat))
  else Rd.raise .malformedNumber

/-- `type2::Operation`, src/type2/operation.rs:8-9. -/
abbrev Operation := Operator × List F32

/-- `Routine` without its `caller`, src/type2/program.rs:17-21.  `size` is the
length of the code. -/
structure Routine where
  code : List UInt8
  pos : Nat
deriving DecidableEq, Repr

/-- `Program`, src/type2/program.rs:8-15.  The chain of `caller`s of the current
routine is the list `callers`, the immediate one first; the operand stack has its
top at the end, as the `Vec` of the code. -/
structure Program where
  routine : Routine
  callers : List Routine
  global : List (List UInt8)
  «local» : List (List UInt8)
  stack : List F32
  stems : Nat
  width : Option F32
deriving DecidableEq, Repr

/-- `Routine::new`, src/type2/program.rs:301-307. -/
def Routine.new (code : List UInt8) : Routine := { code, pos := 0 }

/-- `Program::new`, src/type2/program.rs:26-35. -/
def Program.new (code : List UInt8) (global «local» : List (List UInt8)) : Program :=
  { routine := Routine.new code, callers := [], global, «local», stack := [], stems := 0, width := none }

/-- A computation on a program; the program after an error is kept.
Part of the setting of `next`, src/type2/program.rs:40-290, on the fields of
src/type2/program.rs:8-21. -/
def PM (α : Type) : Type := Config → Program → Res α × Program

namespace PM

/-- `Ok(a)`.
Part of the setting of `next`, src/type2/program.rs:40-290, on the fields of
src/type2/program.rs:8-21. -/
def pure (a : α) : PM α := fun _ s => (.ok a, s)

/-- `?` and sequencing.
Part of the setting of `next`, src/type2/program.rs:40-290, on the fields of
src/type2/program.rs:8-21. -/
def bind (m : PM α) (f : α → PM β) : PM β := fun cfg s =>
  match m cfg s with
  | (.ok a, s') => f a cfg s'
  | (.err e, s') => (.err e, s')
  | (.panic x, s') => (.panic x, s')

instance : Monad PM where
  pure := PM.pure
  bind := PM.bind

/-- `raise!(...)`.
Used in src/type2/program.rs:50-287. -/
def raise (r : Reason) : PM α := fun _ s => (.err (.raised r), s)
/-- a panic.
Used in src/type2/program.rs:227,270. -/
def panic (x : Panic) : PM α := fun _ s => (.panic x, s)
/-- the configuration.
Part of the setting of `next`, src/type2/program.rs:40-290, on the fields of
src/type2/program.rs:8-21. -/
def cfg : PM Config := fun c s => (.ok c, s)
/-- `self`.
Part of the setting of `next`, src/type2/program.rs:40-290, on the fields of
src/type2/program.rs:8-21. -/
def get : PM Program := fun _ s => (.ok s, s)
/-- assignment to fields of `self`.
Part of the setting of `next`, src/type2/program.rs:40-290, on the fields of
src/type2/program.rs:8-21. -/
def modify (f : Program → Program) : PM Unit := fun _ s => (.ok (), f s)
/-- a pure computation that can fail.
Part of the setting of `next`, src/type2/program.rs:40-290, on the fields of
src/type2/program.rs:8-21. -/
def ofRes (r : Res α) : PM α := fun _ s => (r, s)

/-- a read from the tape of the current routine
(`dereference! { Routine<'l>::tape => … }`, src/type2/program.rs:320) -/
def tape (m : Rd α) : PM α := fun c s =>
  let (r, p) := m { cfg := c, data := s.routine.code } s.routine.pos
  (r, { s with routine := { s.routine with pos := p } })

end PM

open PM

/-- `Routine::done`, src/type2/program.rs:310-312. -/
def Routine.done (r : Routine) : Bool := r.pos == r.code.length

/-- `self.stack.push(operand)`; macro `push!`, src/type2/program.rs:61-70. -/
def push (x : F32) : PM Unit := modify fun s => { s with stack := s.stack ++ [x] }

/-- macro `push!(…, bool)`, src/type2/program.rs:62-65 -/
def pushBool (b : Bool) : PM Unit := push (if b then F32.one else F32.zero)

/-- macro `pop!()`, src/type2/program.rs:48-51 -/
def pop : PM F32 := do
  let s ← get
  match s.stack.getLast? with
  | some value => do
    modify fun s => { s with stack := s.stack.dropLast }
    PM.pure value
  | none => raise .expectedOperand

/-- macro `pop!(bool)`, src/type2/program.rs:52-55 -/
def popBool : PM Bool := do
  let value ← pop
  PM.pure (!(F32.beq value F32.zero))

/-- macro `pop!(i32)`, src/type2/program.rs:56-59.  The operand is gone even if
it is rejected. -/
def popInt : PM Int := do
  let s ← get
  match s.stack.getLast? with
  | some value => do
    modify fun s => { s with stack := s.stack.dropLast }
    if F32.beq (F32.ofInt value.toI32) value then PM.pure value.toI32
    else raise .expectedOtherOperand
  | none => raise .expectedOtherOperand

/-- macro `read!`, src/type2/program.rs:71-77 -/
def readStack (index : Nat) : PM F32 := do
  let s ← get
  if s.stack.length ≤ index then raise .expectedMoreOperands
  else match s.stack[s.stack.length - 1 - index]? with
    | some value => PM.pure value
    | none => PM.panic .bounds

/-- Is this the first byte of an operand?  The pattern of src/type2/program.rs:83. -/
def isOperandByte (b : UInt8) : Bool := b == 0x1c || 0x20 ≤ b

/-- The loop of src/type2/program.rs:79-86, bounded by `fuel` iterations; returns
the code that ended it. -/
def takeOperands (fuel : Nat) : PM UInt8 :=
  match fuel with
  | 0 => PM.panic .fuel
  | fuel + 1 => do
    let code ← tape (Rd.peek Rd.u8)
    if isOperandByte code then do
      let operand ← tape readNumber
      push operand
      takeOperands fuel
    else PM.pure code

/-- Taking the operator after the operands, src/type2/program.rs:87-91. -/
def takeOperator (code : UInt8) : PM Operator := do
  if code = 0x0c then do
    let code ← tape Rd.u16
    ofRes (Operator.from code)
  else do
    let code ← tape Rd.u8
    ofRes (Operator.from (UInt16.ofNat code.toNat))

/-- The predicates of the macro `clear!`, src/type2/program.rs:93-137. -/
inductive Pred where
  | equal (count : Nat)
  | maybeEqual (count : Nat)
  | modulo (count : Nat)
  | maybeModulo (count : Nat)
deriving DecidableEq, Repr

/-- The `@reduce` rules of `clear!`, src/type2/program.rs:94-122.  `min` is `none`
for the initial `!0`. -/
def reduce : List Pred → Option Nat → Nat → Option Nat
  | [], min, left =>
    match min with
    | none => some left
    | some m => if m > left then some left else some m
  | .equal count :: tail, min, left =>
    if left ≥ count then reduce tail min (left - count) else min
  | .maybeEqual count :: tail, min, left =>
    let min := reduce tail min left
    if left ≥ count then reduce tail min (left - count) else min
  | .modulo count :: tail, min, left =>
    (List.range' 1 (left / count)).foldl (fun min i => reduce tail min (left - i * count)) min
  | .maybeModulo count :: tail, min, left =>
    (List.range' 0 (left / count + 1)).foldl (fun min i => reduce tail min (left - i * count)) min

/-- What a step of `next` leads to: a `return`, or the tail call `self.next()`.
src/type2/program.rs:43-45,140-172,289. -/
inductive Flow where
  | ret (result : Option Operation)
  | again
deriving DecidableEq, Repr

/-- `clear!` with its alternatives, src/type2/program.rs:123-136. -/
def clear (operator : Operator) (alternatives : List (List Pred)) : PM Flow := do
  let s ← get
  let length := s.stack.length
  match alternatives.foldl (fun min predicates => reduce predicates min length) none with
  | none => raise .malformedOperands
  | some min => do
    modify fun s => { s with stack := [] }
    let operands := s.stack.drop min
    let stack := s.stack.take min
    let _ ← (if min > 0 ∧ s.width.isNone then
      match stack[min - 1]? with
      | some value => modify fun s => { s with width := some value }
      | none => PM.panic .bounds
    else PM.pure () : PM Unit)
    PM.pure (.ret (some (operator, operands)))

/-- `bias`, src/type2/program.rs:323-331. -/
def bias (count : Nat) : Int :=
  if count < 1240 then 107
  else if count < 33900 then 1131
  else 32768

/-- The `while let` loop of `EndChar`, src/type2/program.rs:160-165.  `take()`
detaches the chain of callers before the check. -/
def unwind : Routine → List Routine → Res Unit × Routine × List Routine
  | routine, [] => (.ok (), routine, [])
  | routine, caller :: callers =>
    if routine.done then unwind caller callers
    else (.err (.raised .trailingData), routine, [])

/-- One iteration of the first loop of `Roll`, src/type2/program.rs:222-223. -/
def rollUp (position : Nat) : PM Unit := do
  let operand ← pop
  let s ← get
  if position ≤ s.stack.length then
    modify fun s => { s with stack := s.stack.take position ++ operand :: s.stack.drop position }
  else PM.panic .bounds

/-- One iteration of the second loop of `Roll`, src/type2/program.rs:228. -/
def rollDown (position : Nat) : PM Unit := do
  let s ← get
  match s.stack[position]? with
  | some operand => do
    modify fun s => { s with stack := s.stack.eraseIdx position }
    push operand
  | none => PM.panic .bounds

/-- `for _ in 0..n { … }`.
Used in src/type2/program.rs:221,227. -/
def times (n : Nat) (m : PM Unit) : PM Unit :=
  match n with
  | 0 => PM.pure ()
  | n + 1 => do
    m
    times n m

/-- `-i` in `i32`: only the least value overflows.
Used in src/type2/program.rs:227. -/
def negI32 (checks : Bool) (i : Int) : Res Int :=
  if i = -2 ^ 31 then (if checks then .panic .overflow else .ok i) else .ok (-i)

/-- `Roll`, src/type2/program.rs:210-234. -/
def roll : PM Unit := do
  let shift ← popInt
  let span ← popInt
  let s ← get
  let length := s.stack.length
  if span < 0 then raise .invalidOperand
  else if span.toNat > length then raise .expectedMoreOperands
  else if span > 0 then do
    let position := length - span.toNat
    if shift > 0 then times shift.toNat (rollUp position)
    else if shift < 0 then do
      let c ← cfg
      let n ← ofRes (negI32 c.checks shift)
      times n.toNat (rollDown position)
    else PM.pure ()
  else PM.pure ()

/-- `CallSubr` and `CallGSubr`, src/type2/program.rs:261-278. -/
def call (subroutines : Program → List (List UInt8)) : PM Unit := do
  let address ← popInt
  let s ← get
  let c ← cfg
  let count := (subroutines s).length
  let i ← ofRes (addI32 c.checks address (bias count))
  if i < 0 ∨ i.toNat ≥ count then raise .noSubroutine
  else match (subroutines s)[i.toNat]? with
    | some code => modify fun s => { s with
        routine := Routine.new code
        callers := s.routine :: s.callers }
    | none => PM.panic .bounds

/-- The hint operators count their operands first,
src/type2/program.rs:175,179. -/
def countStems : PM Unit := modify fun s => { s with stems := s.stems + s.stack.length / 2 }

/-- The `match operator` of `Program::next`, src/type2/program.rs:139-288. -/
def dispatch (operator : Operator) : PM Flow :=
  match operator with
  -- Path-construction operators, lines 141-156
  | .opRMoveTo => clear operator [[.equal 2]]
  | .opHMoveTo | .opVMoveTo => clear operator [[.equal 1]]
  | .opRLineTo => clear operator [[.modulo 2]]
  | .opHLineTo | .opVLineTo => clear operator [[.equal 1, .maybeModulo 2], [.modulo 2]]
  | .opRRCurveTo => clear operator [[.modulo 6]]
  | .opHHCurveTo | .opVVCurveTo => clear operator [[.maybeEqual 1, .modulo 4]]
  | .opHVCurveTo | .opVHCurveTo =>
    clear operator [[.equal 4, .maybeModulo 8, .maybeEqual 1], [.modulo 8, .maybeEqual 1]]
  | .opRCurveLine => clear operator [[.modulo 6, .equal 2]]
  | .opRLineCurve => clear operator [[.modulo 2, .equal 6]]
  | .opFlex => clear operator [[.equal 13]]
  | .opFlex1 => clear operator [[.equal 11]]
  | .opHFlex => clear operator [[.equal 7]]
  | .opHFlex1 => clear operator [[.equal 9]]
  -- Terminal operator, lines 159-171
  | .opEndChar => do
    let s ← get
    let (result, routine, callers) := unwind s.routine s.callers
    modify fun s => { s with routine, callers }
    ofRes result
    let _ ← (match s.stack.getLast? with
      | some value => modify fun s => { s with width := if s.width.isNone then some value else s.width }
      | none => PM.pure () : PM Unit)
    PM.pure (.ret none)
  -- Hint operators, lines 174-182
  | .opHStem | .opVStem | .opHStemHM | .opVStemHM => do
    countStems
    clear operator [[.equal 2, .maybeModulo 2]]
  | .opHintMask | .opCntrMask => do
    countStems
    let s ← get
    let _ ← tape (Rd.bytes ((s.stems + 7) / 8))
    clear operator [[.equal 0]]
  -- Arithmetic operators, lines 185-235
  | .opAbs => do
    let x ← pop
    push x.abs
    PM.pure .again
  | .opAdd => do
    let right ← pop
    let left ← pop
    push (F32.add right left)
    PM.pure .again
  | .opSub => do
    let right ← pop
    let left ← pop
    push (F32.sub left right)
    PM.pure .again
  | .opDiv => do
    let right ← pop
    let left ← pop
    push (F32.div left right)
    PM.pure .again
  | .opNeg => do
    let x ← pop
    push x.neg
    PM.pure .again
  | .opMul => do
    let right ← pop
    let left ← pop
    push (F32.mul right left)
    PM.pure .again
  | .opSqrt => do
    let x ← pop
    push x.sqrt
    PM.pure .again
  | .opDrop => do
    let _ ← pop
    PM.pure .again
  | .opExch => do
    let right ← pop
    let left ← pop
    push right
    push left
    PM.pure .again
  | .opIndex => do
    let i ← popInt
    let x ← readStack (if i ≥ 0 then i.toNat else 0)
    push x
    PM.pure .again
  | .opRoll => do
    roll
    PM.pure .again
  | .opDup => do
    let x ← readStack 0
    push x
    PM.pure .again
  -- Conditional operators, lines 242-258
  | .opAnd => do
    let right ← popBool
    let left ← popBool
    pushBool (left && right)
    PM.pure .again
  | .opOr => do
    let right ← popBool
    let left ← popBool
    pushBool (left || right)
    PM.pure .again
  | .opNot => do
    let x ← popBool
    pushBool (!x)
    PM.pure .again
  | .opEq => do
    let right ← pop
    let left ← pop
    pushBool (F32.beq left right)
    PM.pure .again
  | .opIfElse => do
    let right ← pop
    let left ← pop
    let no ← pop
    let yes ← pop
    push (if F32.le left right then yes else no)
    PM.pure .again
  -- Subroutine operators, lines 261-285
  | .opCallSubr => do
    call Program.local
    PM.pure .again
  | .opCallGSubr => do
    call Program.global
    PM.pure .again
  | .opReturn => do
    let s ← get
    match s.callers with
    | caller :: callers => do
      modify fun s => { s with routine := caller, callers }
      PM.pure .again
    | [] => raise .noCaller
  -- The rest, line 287
  | .opPut | .opGet | .opRandom => raise .unsupportedOperator

/-- One activation of `Program::next`, src/type2/program.rs:40-290, up to a
`return` or the tail call. -/
def step : PM Flow := do
  let s ← get
  if s.routine.done then PM.pure (.ret none)
  else do
    let code ← takeOperands (s.routine.code.length + 1)
    let operator ← takeOperator code
    dispatch operator

/-- `Program::next`, src/type2/program.rs:40-290, with its recursion limited to
`fuel` activations; `none` when they do not suffice. -/
def nextFuel (fuel : Nat) (cfg : Config) (s : Program) :
    Option (Res (Option Operation) × Program) :=
  match fuel with
  | 0 => none
  | fuel + 1 =>
    match step cfg s with
    | (.ok (.ret result), s') => some (.ok result, s')
    | (.ok .again, s') => nextFuel fuel cfg s'
    | (.err e, s') => some (.err e, s')
    | (.panic x, s') => some (.panic x, s')

/-- A call `program.next()` on `s` returns `r` and leaves `s'`.
src/type2/program.rs:40-290. -/
def Next (cfg : Config) (s : Program) (r : Res (Option Operation)) (s' : Program) : Prop :=
  ∃ fuel, nextFuel fuel cfg s = some (r, s')

/-- A call `program.next()` on `s` does not return.
src/type2/program.rs:40-290. -/
def Diverges (cfg : Config) (s : Program) : Prop := ∀ fuel, nextFuel fuel cfg s = none

end PS.Type2
