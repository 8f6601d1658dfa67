import Verif.Spec.Glyph
/-!
# Specification: what is lost of a glyph
-/
namespace PS.Type2.Spec
open PS.Spec

/-- Two instructions differ in nothing, or in the contents of a mask and in the positions of the
vertical stems that are declared on the side of it, but not in their number. -/
inductive Indistinct : Item → Item → Prop
  | plain (op args) : Indistinct (.plain op args) (.plain op args)
  | masked {op stems stems' mask mask'} : stems.length = stems'.length →
    Indistinct (.masked op stems mask) (.masked op stems' mask')

/-- There are no masks in a glyph. -/
def Glyph.Maskless (g : Glyph) : Prop := ∀ i ∈ g.items, ∃ op args, i = .plain op args

end PS.Type2.Spec
