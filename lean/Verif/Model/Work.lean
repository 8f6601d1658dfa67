import Verif.Model.Program
/-!
# The work of executing Type 2 programs

`Program::next` again, with a count of what it does.  The functions without loops do a
constant amount of work each time and are taken over from `Model/Program.lean`; here are the
loops, and what leads to them.  The running time of the standard library is not modelled
beyond this: pushing to a vector counts as constant, inserting into one and removing from one
as the number of operands moved.
-/
namespace PS.Type2

/-- What has been done: activations of `next` together with iterations of its loops, except
those of `roll`, and the operands that the loops of `roll` have moved.
Bookkeeping for `next`, src/type2/program.rs:40-290; not in the code. -/
structure Effort where
  loops : Nat
  moves : Nat
deriving DecidableEq, Repr

namespace Effort

/-- Nothing.
Bookkeeping for `next`, src/type2/program.rs:40-290; not in the code. -/
def zero : Effort := ⟨0, 0⟩

/-- One after the other.
Bookkeeping for `next`, src/type2/program.rs:40-290; not in the code. -/
def add (a b : Effort) : Effort := ⟨a.loops + b.loops, a.moves + b.moves⟩

instance : Add Effort := ⟨add⟩

/-- Everything together.
Bookkeeping for `next`, src/type2/program.rs:40-290; not in the code. -/
def total (a : Effort) : Nat := a.loops + a.moves

end Effort

/-- Methods of `Program`, as `PM`, with the work they do.
Bookkeeping for `next`, src/type2/program.rs:40-290; not in the code. -/
def WM (α : Type) : Type := Config → Program → (Res α × Program) × Effort

namespace WM

/-- `Ok(a)`.
Bookkeeping for `next`, src/type2/program.rs:40-290; not in the code. -/
def pure (a : α) : WM α := fun _ s => ((.ok a, s), .zero)

/-- `?` and sequencing.
Bookkeeping for `next`, src/type2/program.rs:40-290; not in the code. -/
def bind (m : WM α) (f : α → WM β) : WM β := fun cfg s =>
  match m cfg s with
  | ((.ok a, s'), w) => ((f a cfg s').1, w + (f a cfg s').2)
  | ((.err e, s'), w) => ((.err e, s'), w)
  | ((.panic x, s'), w) => ((.panic x, s'), w)

instance : Monad WM where
  pure := WM.pure
  bind := WM.bind

/-- A method whose work does not count.
Bookkeeping for `next`, src/type2/program.rs:40-290; not in the code. -/
def lift (m : PM α) : WM α := fun cfg s => (m cfg s, .zero)

/-- Work that counts.
Bookkeeping for `next`, src/type2/program.rs:40-290; not in the code. -/
def spend (loops moves : Nat) : WM Unit := fun _ s => ((.ok (), s), ⟨loops, moves⟩)

end WM

namespace Timed
open WM

/-- The loop of src/type2/program.rs:79-86, as `Type2.takeOperands`. -/
def takeOperands (fuel : Nat) : WM UInt8 :=
  match fuel with
  | 0 => lift (PM.panic .fuel)
  | fuel + 1 => do
    let code ← lift (PM.tape (Rd.peek Rd.u8))
    if isOperandByte code then do
      spend 1 0
      let operand ← lift (PM.tape readNumber)
      lift (push operand)
      takeOperands fuel
    else lift (PM.pure code)

/-- The `@reduce` rules of `clear!`, src/type2/program.rs:94-122, as `Type2.reduce`.  Next to
the minimum is the number of rules applied. -/
def reduce : List Pred → Option Nat × Nat → Nat → Option Nat × Nat
  | [], (min, n), left =>
    match min with
    | none => (some left, n + 1)
    | some m => (if m > left then some left else some m, n + 1)
  | .equal count :: tail, (min, n), left =>
    if left ≥ count then reduce tail (min, n + 1) (left - count) else (min, n + 1)
  | .maybeEqual count :: tail, (min, n), left =>
    let q := reduce tail (min, n + 1) left
    if left ≥ count then reduce tail q (left - count) else q
  | .modulo count :: tail, (min, n), left =>
    (List.range' 1 (left / count)).foldl (fun q i => reduce tail q (left - i * count)) (min, n + 1)
  | .maybeModulo count :: tail, (min, n), left =>
    (List.range' 0 (left / count + 1)).foldl (fun q i => reduce tail q (left - i * count)) (min, n + 1)

/-- `clear!`, src/type2/program.rs:123-136, as `Type2.clear`.  The operands are collected one
by one. -/
def clear (operator : Operator) (alternatives : List (List Pred)) : WM Flow := do
  let s ← lift PM.get
  let length := s.stack.length
  match alternatives.foldl (fun q predicates => reduce predicates q length) (none, 0) with
  | (none, n) => do
    spend n 0
    lift (PM.raise .malformedOperands)
  | (some min, n) => do
    spend n 0
    lift (PM.modify fun s => { s with stack := [] })
    let operands := s.stack.drop min
    let stack := s.stack.take min
    spend operands.length 0
    let _ ← lift (if min > 0 ∧ s.width.isNone then
      match stack[min - 1]? with
      | some value => PM.modify fun s => { s with width := some value }
      | none => PM.panic .bounds
    else PM.pure () : PM Unit)
    lift (PM.pure (.ret (some (operator, operands))))

/-- The `while let` loop of `EndChar`, src/type2/program.rs:160-165, as `Type2.unwind`, with
the number of its iterations. -/
def unwind : Routine → List Routine → (Res Unit × Routine × List Routine) × Nat
  | routine, [] => ((.ok (), routine, []), 0)
  | routine, caller :: callers =>
    if routine.done then ((unwind caller callers).1, (unwind caller callers).2 + 1)
    else ((.err (.raised .trailingData), routine, []), 1)

/-- `for _ in 0..n { … }` in `Roll`, where each iteration moves `span` operands.
Used in src/type2/program.rs:221,227. -/
def times (span : Nat) (n : Nat) (m : PM Unit) : WM Unit :=
  match n with
  | 0 => lift (PM.pure ())
  | n + 1 => do
    spend 0 span
    lift m
    times span n m

/-- `Roll`, src/type2/program.rs:210-234, as `Type2.roll`.  `insert` and `remove` move the
operands above the position. -/
def roll : WM Unit := do
  let shift ← lift popInt
  let span ← lift popInt
  let s ← lift PM.get
  let length := s.stack.length
  if span < 0 then lift (PM.raise .invalidOperand)
  else if span.toNat > length then lift (PM.raise .expectedMoreOperands)
  else if span > 0 then do
    let position := length - span.toNat
    if shift > 0 then times span.toNat shift.toNat (rollUp position)
    else if shift < 0 then do
      let c ← lift PM.cfg
      let n ← lift (PM.ofRes (negI32 c.checks shift))
      times span.toNat n.toNat (rollDown position)
    else lift (PM.pure ())
  else lift (PM.pure ())

/-- The `match operator` of `Program::next`, src/type2/program.rs:139-288, as
`Type2.dispatch`.  The bytes of a mask are read one by one, until there are none left. -/
def dispatch (operator : Operator) : WM Flow :=
  match operator with
  | .opRMoveTo => clear operator [[.equal 2]]
  | .opHMoveTo | .opVMoveTo => clear operator [[.equal 1]]
  | .opRLineTo => clear operator [[.modulo 2]]
  | .opHLineTo | .opVLineTo => clear operator [[.equal 1, .maybeModulo 2], [.modulo 2]]
  | .opRRCurveTo => clear operator [[.modulo 6]]
  | .opHHCurveTo | .opVVCurveTo => clear operator [[.maybeEqual 1, .modulo 4]]
  | .opHVCurveTo | .opVHCurveTo =>
    clear operator [[.equal 4, .maybeModulo 8, .maybeEqual 1], [.modulo 8, .maybeEqual 1]]
  | .opRCurveLine => clear operator [[.modulo 6, .equal 2]]
  | .opRLineCurve => clear operator [[.modulo 2, .equal 6]]
  | .opFlex => clear operator [[.equal 13]]
  | .opFlex1 => clear operator [[.equal 11]]
  | .opHFlex => clear operator [[.equal 7]]
  | .opHFlex1 => clear operator [[.equal 9]]
  | .opEndChar => do
    let s ← lift PM.get
    let ((result, routine, callers), n) := unwind s.routine s.callers
    spend n 0
    lift (PM.modify fun s => { s with routine, callers })
    lift (PM.ofRes result)
    let _ ← lift (match s.stack.getLast? with
      | some value => PM.modify fun s => { s with width := if s.width.isNone then some value else s.width }
      | none => PM.pure () : PM Unit)
    lift (PM.pure (.ret none))
  | .opHStem | .opVStem | .opHStemHM | .opVStemHM => do
    lift countStems
    clear operator [[.equal 2, .maybeModulo 2]]
  | .opHintMask | .opCntrMask => do
    lift countStems
    let s ← lift PM.get
    spend (min ((s.stems + 7) / 8) (s.routine.code.length - s.routine.pos)) 0
    let _ ← lift (PM.tape (Rd.bytes ((s.stems + 7) / 8)))
    clear operator [[.equal 0]]
  | .opRoll => do
    roll
    lift (PM.pure .again)
  | operator => lift (Type2.dispatch operator)

/-- One activation of `Program::next`, src/type2/program.rs:40-290, as `Type2.step`. -/
def step : WM Flow := do
  spend 1 0
  let s ← lift PM.get
  if s.routine.done then lift (PM.pure (.ret none))
  else do
    let code ← takeOperands (s.routine.code.length + 1)
    let operator ← lift (takeOperator code)
    dispatch operator

/-- `Program::next`, src/type2/program.rs:40-290, as `Type2.nextFuel`. -/
def nextFuel (fuel : Nat) (cfg : Config) (s : Program) :
    Option ((Res (Option Operation) × Program) × Effort) :=
  match fuel with
  | 0 => none
  | fuel + 1 =>
    match step cfg s with
    | ((.ok (.ret result), s'), w) => some ((.ok result, s'), w)
    | ((.ok .again, s'), w) => (nextFuel fuel cfg s').map fun q => (q.1, w + q.2)
    | ((.err e, s'), w) => some ((.err e, s'), w)
    | ((.panic x, s'), w) => some ((.panic x, s'), w)

/-- A call `program.next()` on `s` returns `r`, leaves `s'` and does the work `w`.
src/type2/program.rs:40-290. -/
def Next (cfg : Config) (s : Program) (r : Res (Option Operation)) (s' : Program) (w : Effort) : Prop :=
  ∃ fuel, nextFuel fuel cfg s = some ((r, s'), w)

end Timed
end PS.Type2
