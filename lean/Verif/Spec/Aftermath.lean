import Verif.Spec.Fault
import Verif.Spec.Final
/-!
# Specification: what a failure leaves behind

For each kind of fault (`Spec/Fault.lean`) the state of the machine after it has been
reported.
-/
namespace PS.Type2.Spec

/-- Where a failed read leaves the position: where it was, as with earlier versions of
`std::io::Cursor`, or at the end of the tape, as with recent ones. -/
def FailedRead (stays : Bool) (cfg : Config) : Prop := ∀ p n, cfg.eofPos p n = if stays then p else n

/-- What is left of code that ends inside an operator or an operand, once it has been
read in vain.  If the position stays: an operator of two bytes is read at once, the
first byte of an operand apart from the others. -/
def unread (stays : Bool) (code : List UInt8) : List UInt8 :=
  if stays then (if code.head? = some 12 then code else code.tail) else []

/-- The topmost operand is an integer. -/
def TopInteger (stack : List F32) : Prop := ∃ st x i, stack = st ++ [x] ∧ IntArg x i

/-- The first of several pieces of code that is not empty. -/
def firstLeft (codes : List (List UInt8)) : List UInt8 := (codes.find? (· ≠ [])).getD []

open Classical in
/-- What an operator leaves of a state (whose code begins behind it) if it cannot be
executed. -/
noncomputable def leftover (op : Operator) (σ : State) : State :=
  match op with
  -- The hints are counted before their operands are.
  | .opHStem | .opVStem | .opHStemHM | .opVStemHM => { σ with stems := σ.stems + σ.stack.length / 2 }
  -- So are they before a mask, of which whatever there is has been read.
  | .opHintMask | .opCntrMask => { σ with code := [], stems := σ.stems + σ.stack.length / 2 }
  -- There were too few operands, and they are gone.
  | .opAbs | .opNeg | .opSqrt | .opDrop | .opNot | .opAdd | .opSub | .opMul | .opDiv | .opExch | .opAnd | .opOr | .opEq
  | .opIfElse => { σ with stack := [] }
  -- The address or the index is gone.
  | .opIndex | .opCallSubr | .opCallGSubr => { σ with stack := σ.stack.dropLast }
  -- The number of rotations is gone, and the number of operands if it was asked for.
  | .opRoll => { σ with stack := if TopInteger σ.stack then σ.stack.dropLast.dropLast else σ.stack.dropLast }
  -- The trailing data is left, but nowhere to go on afterwards.
  | .opEndChar => { σ with code := firstLeft (σ.code :: σ.callers), callers := [] }
  -- Nothing but the operator is gone.
  | _ => σ

/-- `LeftBehind stays σ τ`: if there is a fault in the state `σ`, then `τ` is the state once
it has been reported. -/
inductive LeftBehind (stays : Bool) (σ : State) : State → Prop
  | cut : Cut σ.code → LeftBehind stays σ { σ with code := unread stays σ.code }
  | unknown : Unknown σ.code → LeftBehind stays σ { σ with code := σ.code.drop (if σ.code.head? = some 12 then 2 else 1) }
  | operator {op rest} : σ.code = bytes op ++ rest → LeftBehind stays σ (leftover op { σ with code := rest })

/-- `Reports cfg stays σ e τ`: executing the code of `σ` comes to a state with a fault
that the error `e` describes, and `τ` is what it leaves. -/
def Reports (cfg : Config) (stays : Bool) (σ : State) (e : Err) (τ : State) : Prop :=
  ∃ σ1 υ, Turns cfg.checks σ σ1 ∧ σ1.code ≠ [] ∧ Pushes σ1 υ ∧ Fault cfg υ e ∧ LeftBehind stays υ τ

/-- `Responds cfg stays σ r τ`: the machine in the state `σ` answers `r`, an operation,
the end or an error, and is left in the state `τ`. -/
def Responds (cfg : Config) (stays : Bool) (σ : State) (r : Res (Option Operation)) (τ : State) : Prop :=
  match r with
  | .ok (some o) => Yields cfg.checks σ o τ
  | .ok none => Ends cfg.checks σ τ
  | .err e => Reports cfg stays σ e τ
  | .panic _ => False

/-- `Replies cfg stays σ rs τ`: asked again and again the machine answers `rs`, one
answer after the other. -/
inductive Replies (cfg : Config) (stays : Bool) : State → List (Res (Option Operation)) → State → Prop
  | nil (σ) : Replies cfg stays σ [] σ
  | cons {σ r τ rs ρ} : Responds cfg stays σ r τ → Replies cfg stays τ rs ρ → Replies cfg stays σ (r :: rs) ρ

/-- `Answers cfg s rs t`: as many calls of `next` as there are in `rs` return these, one
after the other, be they operations, the end or errors. -/
inductive Answers (cfg : Config) : Program → List (Res (Option Operation)) → Program → Prop
  | nil (s) : Answers cfg s [] s
  | cons {s r s1 rs s2} : Next cfg s r s1 → Answers cfg s1 rs s2 → Answers cfg s (r :: rs) s2

end PS.Type2.Spec
