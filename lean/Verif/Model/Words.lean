import Verif.Model.Program
/-!
# Type 2 programs on targets with words of any width

`Program` counts its stem hints in a `usize` and keeps its operands in a `Vec`.  Here is
`Program::next` with the width of `usize` as a parameter, `bits`; the counter overflows, and
the vector cannot grow beyond half the address space.  Indices, positions and numbers of
subroutines are compared with the lengths of what is in memory and are the same on all
targets.
-/
namespace PS.Type2.Words
open PM

/-- `self.stack.push(operand)`, src/type2/program.rs:61-70.  The vector has elements of
four bytes, starts empty and doubles its memory when it is full (`RawVec::grow_amortized`
of the standard library, whose first allocation is of four elements), so that its memory is
a power of two; the memory cannot exceed `isize::MAX`, that is `2^(bits - 1) - 1` bytes.
It is full for good with `2^(bits - 4)` elements. -/
def push (bits : Nat) (x : F32) : PM Unit := do
  let s ← get
  if 2 ^ (bits - 4) ≤ s.stack.length then PM.panic .capacity
  else Type2.push x

/-- The loop of src/type2/program.rs:79-86, as `Type2.takeOperands`. -/
def takeOperands (bits : Nat) (fuel : Nat) : PM UInt8 :=
  match fuel with
  | 0 => PM.panic .fuel
  | fuel + 1 => do
    let code ← tape (Rd.peek Rd.u8)
    if isOperandByte code then do
      let operand ← tape readNumber
      push bits operand
      takeOperands bits fuel
    else PM.pure code

/-- An addition in `usize`.
Used in src/type2/program.rs:175,179,180. -/
def addWord (bits : Nat) (checks : Bool) (a b : Nat) : Res Nat :=
  if a + b < 2 ^ bits then .ok (a + b)
  else if checks then .panic .overflow else .ok ((a + b) % 2 ^ bits)

/-- `self.stems += self.stack.len() >> 1`, src/type2/program.rs:175,179. -/
def countStems (bits : Nat) : PM Unit := do
  let c ← cfg
  let s ← get
  let stems ← ofRes (addWord bits c.checks s.stems (s.stack.length / 2))
  modify fun s => { s with stems }

/-- The `match operator` of `Program::next`, src/type2/program.rs:139-288, as
`Type2.dispatch`.  The memory for a mask, of `2^(bits - 3)` bytes at most, can be reserved
on any target.  Operators other than `dup` take at least as many operands as they leave,
so that the vector need not grow for them. -/
def dispatch (bits : Nat) (operator : Operator) : PM Flow :=
  match operator with
  | .opHStem | .opVStem | .opHStemHM | .opVStemHM => do
    countStems bits
    clear operator [[.equal 2, .maybeModulo 2]]
  | .opHintMask | .opCntrMask => do
    countStems bits
    let c ← cfg
    let s ← get
    let n ← ofRes (addWord bits c.checks s.stems 7)
    let _ ← tape (Rd.replicate (n / 8) Rd.u8)
    clear operator [[.equal 0]]
  | .opDup => do
    let x ← readStack 0
    push bits x
    PM.pure .again
  | operator => Type2.dispatch operator

/-- One activation of `Program::next`, src/type2/program.rs:40-290, as `Type2.step`. -/
def step (bits : Nat) : PM Flow := do
  let s ← get
  if s.routine.done then PM.pure (.ret none)
  else do
    let code ← takeOperands bits (s.routine.code.length + 1)
    let operator ← takeOperator code
    dispatch bits operator

/-- `Program::next`, src/type2/program.rs:40-290, as `Type2.nextFuel`. -/
def nextFuel (bits : Nat) (fuel : Nat) (cfg : Config) (s : Program) :
    Option (Res (Option Operation) × Program) :=
  match fuel with
  | 0 => none
  | fuel + 1 =>
    match step bits cfg s with
    | (.ok (.ret result), s') => some (.ok result, s')
    | (.ok .again, s') => nextFuel bits fuel cfg s'
    | (.err e, s') => some (.err e, s')
    | (.panic x, s') => some (.panic x, s')

/-- A call `program.next()` on `s` returns `r` and leaves `s'`, on a target with words of
`bits` bits.
src/type2/program.rs:40-290. -/
def Next (bits : Nat) (cfg : Config) (s : Program) (r : Res (Option Operation)) (s' : Program) : Prop :=
  ∃ fuel, nextFuel bits fuel cfg s = some (r, s')

end PS.Type2.Words
