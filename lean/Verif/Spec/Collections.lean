import Verif.Spec.Faces
import Verif.Spec.Select
/-!
# Specification: fonts keyed by character identifiers, made from scratch

What somebody who draws such a font has: its name, the character collection, what goes into its
dictionaries, and for each glyph its identifier, the number of its font dictionary and a drawing.
-/
namespace PS.Spec

/-- A font keyed by character identifiers: its name, the contents of its top dictionary, the registry, the
ordering and the supplement of the character collection, the contents of its font dictionaries and of their
private dictionaries, for missing glyphs the number of a font dictionary and a drawing, the glyphs, each with
an identifier, the number of a font dictionary and a drawing, the encoding, and the texts of the top
dictionary, by their operators. -/
structure CidFace where
  name : List UInt8
  top : Entries
  registry : List UInt8
  ordering : List UInt8
  supplement : Piece
  dicts : List (Entries × Entries)
  missing : Nat × Drawing
  glyphs : List (Nat × Nat × Drawing)
  encoding : Encoding
  texts : List (Operator × List UInt8)

namespace CidFace

/-- The font dictionaries and the drawings, those for missing glyphs first. -/
def slots (f : CidFace) : List (Nat × Drawing) := f.missing :: f.glyphs.map Prod.snd

/-- The strings of the font: the registry, the ordering, and the texts. -/
def labels (f : CidFace) : List (List UInt8) := f.registry :: f.ordering :: f.texts.map Prod.snd

/-- The font can be made: the dictionaries leave to the writer what is its own, the font dictionaries of glyphs
exist, the drawings are in order, the identifiers are of 16 bits, the encoding is a predefined one or has counts in agreement with
its tables, the texts are for different operators that take strings, and there are not too many glyphs. -/
def Valid (f : CidFace) : Prop :=
  f.top.Valid FontDef.reserved ∧ Operand f.supplement.1 f.supplement.2 ∧
  f.dicts.length ≤ 65535 ∧ (∀ d ∈ f.dicts, d.1.Valid [.opPrivate] ∧ d.2.Valid [.opSubrs]) ∧
  (∀ x ∈ f.slots, x.1 < f.dicts.length ∧ x.1 < 256 ∧ Drawable x.2.shows x.2.ends) ∧
  (∀ g ∈ f.glyphs, g.1 < 65536) ∧ ((f.encoding = .standard ∨ f.encoding = .expert) ∨ Encodable f.encoding) ∧ f.slots.length ≤ 65535 ∧
  (∀ x ∈ f.texts, x.1 ∈ textual) ∧ (f.texts.map Prod.fst).Nodup

/-- A bound for the size of a font. -/
def bulk (f : CidFace) : Nat :=
  f.name.length + f.top.bytes.length + f.registry.length + f.ordering.length + f.supplement.2.length +
    (f.dicts.map fun d => d.1.bytes.length + d.2.bytes.length + 30).sum +
    (f.slots.map fun x => x.2.bulk + 7).sum + (encodeEncoding f.encoding).length +
    (f.texts.map fun x => x.2.length + 11).sum + 200

end CidFace

/-- All the fonts can be made, the strings of all of them together are not too many, and there is room for
everything. -/
def CollectionsFit (fonts : List CidFace) : Prop :=
  (∀ f ∈ fonts, f.Valid) ∧ (fonts.map fun f => f.labels.length).sum ≤ 65145 ∧ (fonts.map CidFace.bulk).sum + 100 < 2 ^ 31

/-- The font `k` of a font set is the one that was drawn: the name, the top dictionary, the texts, the number of glyphs, what
they show, in any build, and nothing else, their identifiers, the encoding, the character collection, the font dictionaries,
their private dictionaries, and for each glyph the number of its font dictionary. -/
def CollectionIn (f : CidFace) (k : Nat) (fs : FontSet) : Prop :=
  fs.names.data[k]? = some f.name ∧ (∃ top, fs.operations[k]? = some top ∧ f.top.In (FontDef.reserved ++ f.texts.map Prod.fst) top ∧
    ∀ x ∈ f.texts, ∃ id : UInt16, top.map x.1 = some [.integer id.toNat] ∧ NamedBy fs id x.2) ∧
  (∃ cs, fs.characterStrings[k]? = some cs ∧ cs.data.length = f.slots.length) ∧
  (∀ cfg i x, f.slots[i]? = some x → Comes cfg fs k i x.2.shows x.2.ends) ∧
  (∃ s, fs.characterSets[k]? = some s ∧ (sids s)[0]? = some 0 ∧ ∀ i g, f.glyphs[i]? = some g → (sids s)[i + 1]? = some g.1) ∧
  fs.encodings[k]? = some f.encoding ∧
  ∃ r, fs.records[k]? = some (.characterIDKeyed r) ∧ NamedBy fs r.registry f.registry ∧ NamedBy fs r.ordering f.ordering ∧
    r.supplement = f.supplement.1 ∧ List.Forall₂ (fun d o => d.1.In [.opPrivate] o) f.dicts r.operations ∧
    List.Forall₂ (fun d p => d.2.In [.opSubrs] p.operations) f.dicts r.records ∧
    ∀ i x, f.slots[i]? = some x → ∀ n, Selects r.encoding i n ↔ n = x.1

end PS.Spec
