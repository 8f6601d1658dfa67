import Verif.Spec.Flat
import Verif.Spec.Subset
/-!
# Specification: what can be shown by a program
-/
namespace PS.Type2.Spec
open PS.Spec

/-- The width stays once it is known. -/
def Keeps (width width' : Option F32) : Prop := ∀ x, width = some x → width' = some x

/-- `Showable width n l w`: the operations `l` are in order, if before them the width is `width` and the
number of stems `n`, and the width in the end is `w`. -/
inductive Showable : Option F32 → Nat → List Observation → Option F32 → Prop
  /-- In the end, the width may be given behind all operations. -/
  | nil {width n w} : Keeps width w → Showable width n [] w
  /-- An operation that draws or declares stems has as many operands as its operator takes.  The width may
  be given in front of them, unless the operator could take it for an operand of its own. -/
  | plain {width width' n n' op args l w} : Path op ∨ Stem op → Accepts op args.length → Keeps width width' →
    (width' = width ∨ ¬ Accepts op (args.length + 1)) → n' = n + (if Stem op then args.length / 2 else 0) →
    Showable width' n' l w → Showable width n (((op, args), width', n') :: l) w
  /-- A mask has no operands.  It may declare any number of stems on the side, but then the width is known
  behind it. -/
  | mask {width width' n n' op l w} : Mask op → n ≤ n' → Keeps width width' → (width' = none → n' = n) →
    Showable width' n' l w → Showable width n (((op, []), width', n') :: l) w

/-- A bound for the size of the code of an operation: that of the computations of its operands and of a
width in front of them, the stems that a mask declares on the side, and the mask. -/
def effort (o : Observation) : Nat := 1000 * (o.1.2.length + 3 * o.2.2 + 2)

end PS.Type2.Spec

namespace PS.Spec

/-- The glyph `i` of the font `k` comes to its end or to an error, and what it shows until then is `l`. -/
def Comes (cfg : Config) (fs : FontSet) (k i : Nat) (l : List Type2.Spec.Observation) (out : Type2.Spec.Outcome) : Prop :=
  ∀ (l' : List Type2.Spec.Observation) (out' : Type2.Spec.Outcome), Shows cfg fs k i l' out' ↔ l' = l ∧ out' = out

end PS.Spec
