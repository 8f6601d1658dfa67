import Verif.Spec.Drawings
import Verif.Spec.GlyphName
import Verif.Spec.Writer
import Verif.Spec.Merge
/-!
# Specification: fonts made from scratch

What somebody who draws a font has: its name, what goes into its dictionaries, and for each
glyph its name and a drawing.
-/
namespace PS.Spec

/-- A drawing: the operations, with the widths and numbers of stem hints seen behind them, and how it ends. -/
structure Drawing where
  shows : List Type2.Spec.Observation
  ends : Type2.Spec.Outcome

/-- A bound for the size of the code of a drawing. -/
def Drawing.bulk (d : Drawing) : Nat := (d.shows.map Type2.Spec.effort).sum + 1001

/-- A font: its name, the contents of its top dictionary and of its private dictionary, the drawing for
missing glyphs, the glyphs, each with a name and a drawing, the encoding, and the
texts of the top dictionary, such as the full name and the notice, by their operators. -/
structure Face where
  name : List UInt8
  top : Entries
  priv : Entries
  missing : Drawing
  glyphs : List (List UInt8 × Drawing)
  encoding : Encoding
  texts : List (Operator × List UInt8)

namespace Face

/-- The drawings, the one for missing glyphs first. -/
def drawings (f : Face) : List Drawing := f.missing :: f.glyphs.map Prod.snd

/-- The strings of the font: the names of its glyphs and its texts. -/
def labels (f : Face) : List (List UInt8) := f.glyphs.map Prod.fst ++ f.texts.map Prod.snd

/-- The font can be made: the dictionaries leave to the writer what is its own, the drawings are in order,
the encoding is a predefined one or has counts in agreement with its tables, the texts are for
different operators that take strings, and there are not too many glyphs. -/
def Valid (f : Face) : Prop :=
  f.top.Valid FontDef.reserved ∧ f.priv.Valid [.opSubrs] ∧ (∀ d ∈ f.drawings, Drawable d.shows d.ends) ∧
  ((f.encoding = .standard ∨ f.encoding = .expert) ∨ Encodable f.encoding) ∧ f.drawings.length ≤ 65535 ∧
  (∀ x ∈ f.texts, x.1 ∈ textual) ∧ (f.texts.map Prod.fst).Nodup

/-- A bound for the size of a font. -/
def bulk (f : Face) : Nat :=
  f.name.length + f.top.bytes.length + f.priv.bytes.length + (f.drawings.map fun d => d.bulk + 4).sum +
    (f.glyphs.map fun g => g.1.length + 6).sum + (encodeEncoding f.encoding).length +
    (f.texts.map fun x => x.2.length + 11).sum + 100

end Face

/-- All the fonts can be made: also the strings of all of them together are not too many, and there is room
for everything. -/
def FacesFit (faces : List Face) : Prop :=
  faces.length ≤ 65535 ∧ (∀ f ∈ faces, f.Valid) ∧ (faces.map fun f => f.labels.length).sum ≤ 65145 ∧
  (faces.map Face.bulk).sum + 100 < 2 ^ 31

/-- The string identifier `id` of a font set stands for the bytes `name`. -/
def NamedBy (fs : FontSet) (id : UInt16) (name : List UInt8) : Prop :=
  ∀ text, fs.strings.getString id = some text ↔ Decodes name text.toList

/-- The font `k` of a font set is the one that was drawn: the name, the dictionaries, the texts, the number of glyphs,
what they show, in any build, and nothing else, the encoding, and the names of the glyphs. -/
def FaceIn (f : Face) (k : Nat) (fs : FontSet) : Prop :=
  fs.names.data[k]? = some f.name ∧ (∃ top, fs.operations[k]? = some top ∧ f.top.In (FontDef.reserved ++ f.texts.map Prod.fst) top ∧
    ∀ x ∈ f.texts, ∃ id : UInt16, top.map x.1 = some [.integer id.toNat] ∧ NamedBy fs id x.2) ∧
  (∃ r, fs.records[k]? = some (.characterNameKeyed r) ∧ f.priv.In [.opSubrs] r.operations) ∧
  (∃ cs, fs.characterStrings[k]? = some cs ∧ cs.data.length = f.drawings.length) ∧
  (∀ cfg i d, f.drawings[i]? = some d → Comes cfg fs k i d.shows d.ends) ∧
  fs.encodings[k]? = some f.encoding ∧
  ∃ s, fs.characterSets[k]? = some s ∧ (sids s)[0]? = some 0 ∧
    ∀ i name d, f.glyphs[i]? = some (name, d) → ∃ id : UInt16, (sids s)[i + 1]? = some id.toNat ∧ NamedBy fs id name

end PS.Spec
