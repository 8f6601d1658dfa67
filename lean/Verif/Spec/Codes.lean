import Verif.Spec.GlyphName
/-!
# Specification: the glyphs of character codes

Section 12 of the CFF specification (Technical Note #5176).
-/
namespace PS.Spec

/-- The codes of a custom encoding, by glyph index; `.notdef` has none. -/
def codesOf : Encoding → List Nat
  | .format0 _ _ codes => codes.map UInt8.toNat
  | .format1 _ _ ranges => ranges.flatMap fun r => List.range' r.firstCode.toNat (1 + r.leftCount.toNat)
  | _ => []

/-- `Leads s e code g`: in a font with the character set `s` and the encoding `e`, the
character code `code` stands for the glyph with the index `g`. -/
def Leads (s : CharacterSet) (e : Encoding) (code g : Nat) : Prop :=
  match e with
  | .standard => code < 256 ∧ codeSID standardCodes code ≠ 0 ∧ (sids s)[g]? = some (codeSID standardCodes code)
  | .expert => code < 256 ∧ codeSID expertCodes code ≠ 0 ∧ (sids s)[g]? = some (codeSID expertCodes code)
  | .supplemental _ _ sups => ∃ x ∈ sups, x.code.toNat = code ∧ (sids s)[g]? = some x.glyph.toNat
  | e => code < 256 ∧ 1 ≤ g ∧ (codesOf e)[g - 1]? = some code

/-- A predefined encoding. -/
def PredefinedEncoding (e : Encoding) : Prop := e = .standard ∨ e = .expert

/-- A predefined character set. -/
def PredefinedSet (s : CharacterSet) : Prop := s = .isoAdobe ∨ s = .expert ∨ s = .expertSubset

end PS.Spec
