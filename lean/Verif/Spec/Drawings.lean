import Verif.Spec.Recode
import Verif.Spec.Showable
/-!
# Specification: any drawings as glyphs
-/
namespace PS.Spec

/-- The operations `l` are in order, all numbers are binary32 numbers, and behind them there is an end or
an error. -/
def Drawable (l : List Type2.Spec.Observation) (out : Type2.Spec.Outcome) : Prop :=
  ∃ w, (out = .ended w ∨ out = .failed) ∧ Type2.Spec.Showable none 0 l w ∧ ∀ x, Type2.Spec.Shown l w x → x.WF

/-- There is a glyph `i` in the font `k`, and it belongs to a private dictionary. -/
def Present (fs : FontSet) (k i : Nat) : Prop :=
  ∃ cs r «local», fs.characterStrings[k]? = some cs ∧ i < cs.data.length ∧ fs.records[k]? = some r ∧ LocalFor r i «local»

end PS.Spec
