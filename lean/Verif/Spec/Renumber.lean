import Verif.Spec.Program
/-!
# Specification: subroutines that are given other numbers

What a program that subsets or merges fonts does to subroutines: they are kept in
another order, some are left out, others come in between, equal ones become one.  The
numbers in the calls are rewritten.
-/
namespace PS.Type2.Spec
open PS.Spec

/-- Subroutines before and after the change, and which of the former become which of
the latter. -/
structure Renumbering where
  before : List (List UInt8)
  after : List (List UInt8)
  becomes : Nat → Nat → Prop

/-- `CallNumber bs count i`: `bs` is an operand with which the subroutine `i` out of `count`
is called (section 4.7). -/
def CallNumber (bs : List UInt8) (count i : Nat) : Prop :=
  ∃ x n, Operand x bs ∧ IntArg x n ∧ n + callBias count = i

/-- `Renumbered G L m code code'`: `code` and `code'` are the same but for the numbers of
the subroutines called (and for the way operands are encoded).  `G` says what happens to
the global subroutines, `L` to the local ones.  The number of a subroutine comes right
before the operator that calls it, and masks have `m` bytes. -/
inductive Renumbered (G L : Renumbering) (m : Nat) : List UInt8 → List UInt8 → Prop
  | nil : Renumbered G L m [] []
  | operand {x b b' r r'} : Operand x b → Operand x b' → Renumbered G L m r r' →
    Renumbered G L m (b ++ r) (b' ++ r')
  | operator {op r r'} : ¬ Mask op → op ≠ .opCallSubr → op ≠ .opCallGSubr → Renumbered G L m r r' →
    Renumbered G L m (bytes op ++ r) (bytes op ++ r')
  | mask {op mask r r'} : Mask op → mask.length = m → Renumbered G L m r r' →
    Renumbered G L m (bytes op ++ mask ++ r) (bytes op ++ mask ++ r')
  | callLocal {b b' i j r r'} : CallNumber b L.before.length i → CallNumber b' L.after.length j → L.becomes i j →
    Renumbered G L m r r' → Renumbered G L m (b ++ (bytes .opCallSubr ++ r)) (b' ++ (bytes .opCallSubr ++ r'))
  | callGlobal {b b' i j r r'} : CallNumber b G.before.length i → CallNumber b' G.after.length j → G.becomes i j →
    Renumbered G L m r r' → Renumbered G L m (b ++ (bytes .opCallGSubr ++ r)) (b' ++ (bytes .opCallGSubr ++ r'))

/-- A subroutine that becomes another is the same as that one but for the numbers in it. -/
def Consistent (G L : Renumbering) (m : Nat) : Prop :=
  ∀ R ∈ [G, L], ∀ i j, R.becomes i j → ∃ b b', R.before[i]? = some b ∧ R.after[j]? = some b' ∧ Renumbered G L m b b'

/-- Wherever the machine comes to a mask from `σ`, the mask has `m` bytes. -/
def Masks (checks : Bool) (σ : State) (m : Nat) : Prop :=
  ∀ l τ υ op rest, Executes checks σ l τ → Pushes τ υ → Mask op → υ.code = bytes op ++ rest →
    (υ.stems + υ.stack.length / 2 + 7) / 8 = m

/-- The subroutines `kept` of `subs` are put into this order (and into a table of their
own, `subs'`). -/
def keeping (subs subs' : List (List UInt8)) (kept : List Nat) : Renumbering :=
  ⟨subs, subs', fun i j => kept[j]? = some i⟩

/-- All the subroutines that are called in `code` are among those kept. -/
def Within (global «local» : List (List UInt8)) (m : Nat) (keptGlobal keptLocal : List Nat) (code : List UInt8) : Prop :=
  Renumbered ⟨global, global, fun i j => i = j ∧ i ∈ keptGlobal⟩ ⟨«local», «local», fun i j => i = j ∧ i ∈ keptLocal⟩ m code code

end PS.Type2.Spec
