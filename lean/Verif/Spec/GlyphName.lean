import Verif.Spec.CharacterSet
import Verif.Spec.FontSet
/-!
# Specification: the names of glyphs

Sections 10 and 13 of the CFF specification (Technical Note #5176).
-/
namespace PS.Spec

/-- The string identifiers of the glyphs, by glyph index.  The first glyph of a custom
character set is `.notdef`; a range has its first identifier and the following ones. -/
def sids : CharacterSet → List Nat
  | .isoAdobe => isoAdobeGlyphs
  | .expert => expertGlyphs
  | .expertSubset => expertSubsetGlyphs
  | .format0 _ glyphs => 0 :: glyphs.map UInt16.toNat
  | .format1 _ ranges => 0 :: ranges.flatMap fun r => List.range' r.firstStringID.toNat (1 + r.leftCount.toNat)
  | .format2 _ ranges => 0 :: ranges.flatMap fun r => List.range' r.firstStringID.toNat (1 + r.leftCount.toNat)

/-- The string with the identifier `sid`: a standard one, or one of those of the font set,
which are numbered from 391 on. -/
def StringOf (strings : List (List UInt8)) (sid : Nat) (name : String) : Prop :=
  standardStringList[sid]? = some name ∨
  (391 ≤ sid ∧ ∃ chunk, strings[sid - 391]? = some chunk ∧ Decodes chunk name.toList)

end PS.Spec
