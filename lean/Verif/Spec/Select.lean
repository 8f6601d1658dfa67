import Verif.Spec.FontSet
/-!
# Specification: which private dictionary a glyph has

Section 19 of the CFF specification (Technical Note #5176), `FDSelect`.
-/
namespace PS.Spec

/-- Where the ranges of an FDSelect of format 3 begin, followed by the sentinel: each
range ends where the next one begins, and the last one where the sentinel is. -/
def bounds (ranges : List Range3) (sentinel : UInt16) : List Nat :=
  ranges.map (fun r => r.firstGlyphID.toNat) ++ [sentinel.toNat]

/-- The FDSelect gives the dictionary number `d` to the glyph number `g`. -/
def Selects (e : DictEncoding) (g d : Nat) : Prop :=
  match e with
  | .format0 _ ids => ∃ id, ids[g]? = some id ∧ d = id.toNat
  | .format3 _ _ ranges sentinel => ∃ i r last, ranges[i]? = some r ∧ (bounds ranges sentinel)[i + 1]? = some last ∧
      r.firstGlyphID.toNat ≤ g ∧ g < last ∧ d = r.dictionaryID.toNat

/-- The FDSelect is as the specification has it, for `glyphs` glyphs: the first range
begins with the first glyph, the ranges are in order, and the sentinel is the number
of glyphs. -/
def Orderly (glyphs : Nat) (e : DictEncoding) : Prop :=
  match e with
  | .format0 .. => True
  | .format3 _ _ ranges sentinel => (bounds ranges sentinel).head? = some 0 ∧
      (bounds ranges sentinel).Pairwise (· < ·) ∧ sentinel.toNat = glyphs

/-- The numbers of dictionaries that an FDSelect mentions. -/
def mentioned (e : DictEncoding) : List Nat :=
  match e with
  | .format0 _ ids => ids.map UInt8.toNat
  | .format3 _ _ ranges _ => ranges.map fun r => r.dictionaryID.toNat

end PS.Spec
