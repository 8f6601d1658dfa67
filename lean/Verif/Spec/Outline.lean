import Verif.Spec.Renumber
/-!
# Specification: fragments of code that become subroutines

What a program that makes fonts smaller does: pieces of code are put into new subroutines, and
calls are put in their places.  The subroutines there were may get other numbers.
-/
namespace PS.Type2.Spec
open PS.Spec

/-- Subroutines before and after the change, which of the former become which of the latter, and
which of the former never end the glyph, neither themselves nor in what they call. -/
structure Outlining where
  before : List (List UInt8)
  after : List (List UInt8)
  becomes : Nat → Nat → Prop
  quiet : Nat → Prop

/-- The table from which an operator calls: `G` are the global subroutines, `L` the local ones. -/
def called (G L : Outlining) : Operator → Option Outlining
  | .opCallSubr => some L
  | .opCallGSubr => some G
  | _ => none

/-- Where code is: a whole character string or subroutine, a whole subroutine that never ends the
glyph, a fragment inside of one of these, or a fragment at the end of one. -/
inductive Place where
  | routine
  | quiet
  | fragment
  | tail

/-- `Outlined G L m p code code'`: `code` and `code'`, which are in the place `p`, are the same but
that `code'` has calls of new subroutines in place of some fragments of `code`, and but for the
numbers of the other subroutines that are called and the way operands are encoded.  The number of
a subroutine comes right before the operator that calls it, and masks have `m` bytes. -/
inductive Outlined (G L : Outlining) (m : Nat) : Place → List UInt8 → List UInt8 → Prop
  | nil {p} : Outlined G L m p [] []
  | operand {p x b b' r r'} : Operand x b → Operand x b' → Outlined G L m p r r' →
    Outlined G L m p (b ++ r) (b' ++ r')
  | operator {p op r r'} : ¬ Mask op → op ∉ [.opCallSubr, .opCallGSubr, .opReturn, .opEndChar] → Outlined G L m p r r' →
    Outlined G L m p (bytes op ++ r) (bytes op ++ r')
  | mask {p op mask r r'} : Mask op → mask.length = m → Outlined G L m p r r' →
    Outlined G L m p (bytes op ++ (mask ++ r)) (bytes op ++ (mask ++ r'))
  /-- Fragments have no `return`. -/
  | return {p r r'} : p = .routine ∨ p = .quiet → Outlined G L m p r r' →
    Outlined G L m p (bytes .opReturn ++ r) (bytes .opReturn ++ r')
  /-- Of the fragments, only those at the end may have `endchar`, and nothing follows it there. -/
  | endchar {p r r'} : p = .routine ∨ (p = .tail ∧ r = []) → Outlined G L m p r r' →
    Outlined G L m p (bytes .opEndChar ++ r) (bytes .opEndChar ++ r')
  /-- A call that stays.  Where there is no `endchar`, only quiet subroutines are called. -/
  | call {p op R b b' i j r r'} : called G L op = some R → CallNumber b R.before.length i → CallNumber b' R.after.length j →
    R.becomes i j → (R.quiet i ∨ p = .routine ∨ (p = .tail ∧ r = [])) → Outlined G L m p r r' →
    Outlined G L m p (b ++ (bytes op ++ r)) (b' ++ (bytes op ++ r'))
  /-- A call of a new subroutine, `f'` and then `return`, in place of the fragment `f`, after which
  there is more code. -/
  | fragment {p op R b j f f' junk r r'} : called G L op = some R → CallNumber b R.after.length j →
    R.after[j]? = some (f' ++ (bytes .opReturn ++ junk)) → f ≠ [] → Outlined G L m .fragment f f' → (p = .fragment ∨ r ≠ []) →
    Outlined G L m p r r' → Outlined G L m p (f ++ r) (b ++ (bytes op ++ r'))
  /-- A call of a new subroutine, `f'`, in place of all the rest of the code, `f`. -/
  | tail {p op R b j f f'} : called G L op = some R → CallNumber b R.after.length j → R.after[j]? = some f' → f ≠ [] →
    p = .routine ∨ p = .tail → Outlined G L m .tail f f' → Outlined G L m p f (b ++ bytes op)

/-- A subroutine that becomes another is the same as that one but for fragments and numbers, and
the quiet ones are quiet. -/
def Coherent (G L : Outlining) (m : Nat) : Prop :=
  ∀ R ∈ [G, L], ∀ i j, R.becomes i j → ∃ b b', R.before[i]? = some b ∧ R.after[j]? = some b' ∧
    Outlined G L m .routine b b' ∧ (R.quiet i → Outlined G L m .quiet b b')

/-- Code in which there are no calls, no `return` and no `endchar`, and masks have `m` bytes. -/
inductive Plain (m : Nat) : List UInt8 → Prop
  | nil : Plain m []
  | operand {x b r} : Operand x b → Plain m r → Plain m (b ++ r)
  | operator {op r} : ¬ Mask op → op ∉ [.opCallSubr, .opCallGSubr, .opReturn, .opEndChar] → Plain m r → Plain m (bytes op ++ r)
  | mask {op mask r} : Mask op → mask.length = m → Plain m r → Plain m (bytes op ++ (mask ++ r))

/-- All the calls in `code` are by numbers of subroutines there are. -/
def Numbered (global «local» : List (List UInt8)) (m : Nat) (code : List UInt8) : Prop :=
  Within global «local» m (List.range global.length) (List.range «local».length) code

/-- The subroutines keep their numbers, of which the encodings may have to be changed when there
are others besides. -/
def keep (before after : List (List UInt8)) : Renumbering := ⟨before, after, fun i j => i = j ∧ i < before.length⟩

end PS.Type2.Spec
