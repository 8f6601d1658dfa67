import Verif.Spec.Collections
/-!
# Specification: font sets with fonts of both kinds, made from scratch
-/
namespace PS.Spec

/-- A font of any kind: keyed by names, or keyed by character identifiers. -/
inductive AnyFace
  | named (f : Face)
  | keyed (f : CidFace)

namespace AnyFace

/-- The name of the font. -/
def name : AnyFace → List UInt8
  | named f => f.name
  | keyed f => f.name

/-- The strings of the font. -/
def labels : AnyFace → List (List UInt8)
  | named f => f.labels
  | keyed f => f.labels

/-- The drawings of the font, the one for missing glyphs first. -/
def drawings : AnyFace → List Drawing
  | named f => f.drawings
  | keyed f => f.slots.map Prod.snd

/-- The font can be made. -/
def Valid : AnyFace → Prop
  | named f => f.Valid
  | keyed f => f.Valid

/-- A bound for the size of a font. -/
def bulk : AnyFace → Nat
  | named f => f.bulk
  | keyed f => f.bulk

/-- The font `k` of a font set is the one that was drawn. -/
def In : AnyFace → Nat → FontSet → Prop
  | named f => FaceIn f
  | keyed f => CollectionIn f

end AnyFace

/-- All the fonts can be made, there are not too many of them, the strings of all of them together are not too
many, and there is room for everything. -/
def MixedFit (fonts : List AnyFace) : Prop :=
  fonts.length ≤ 65535 ∧ (∀ f ∈ fonts, f.Valid) ∧ (fonts.map fun f => f.labels.length).sum ≤ 65145 ∧
  (fonts.map AnyFace.bulk).sum + 100 < 2 ^ 31

/-- The font `k` of a font set has all that a font needs: a name, a glyph, glyphs that come to their ends or to
errors in the same way in any build, and for each glyph a name, if the font is keyed by names, or else an
identifier and just one font dictionary, and then also a registry and an ordering. -/
def Whole (fs : FontSet) (k : Nat) : Prop :=
  ∃ name cs s r, fs.names.data[k]? = some name ∧ fs.characterStrings[k]? = some cs ∧ fs.characterSets[k]? = some s ∧
    fs.records[k]? = some r ∧ cs.data ≠ [] ∧ (∀ g < cs.data.length, ∃ l out, ∀ cfg, Comes cfg fs k g l out) ∧
    match r with
    | .characterNameKeyed _ =>
      ∀ g < cs.data.length, ∃ (id : UInt16) (text : String), (sids s)[g]? = some id.toNat ∧ fs.strings.getString id = some text
    | .characterIDKeyed r =>
      (∃ registry, fs.strings.getString r.registry = some registry) ∧ (∃ ordering, fs.strings.getString r.ordering = some ordering) ∧
      (∀ g < cs.data.length, ∃ id : UInt16, (sids s)[g]? = some id.toNat) ∧
      ∀ g < cs.data.length, ∃ d, ∀ n, Selects r.encoding g n ↔ n = d

/-- The bytes stand for the same text. -/
def SameText (a b : List UInt8) : Prop := ∀ text : String, Decodes a text.toList ↔ Decodes b text.toList

/-- The texts for the same operators are the same. -/
def SameTexts (a b : List (Operator × List UInt8)) : Prop := ∀ x ∈ a, ∀ y ∈ b, x.1 = y.1 → SameText x.2 y.2

/-- The dictionaries have the same operations, apart from some operators. -/
def SameEntries (a b : Entries) (apart : List Operator) : Prop :=
  ∀ op, op ∉ apart → ∀ operands, Last a.ops op operands ↔ Last b.ops op operands

/-- The fonts are the same: of the same kind, with the same names, dictionaries, texts, encodings, drawings and names or
identifiers of glyphs, and if they are keyed by character identifiers, also of the same character collection and with
the same font dictionaries. -/
inductive Alike : AnyFace → AnyFace → Prop
  | named {f g : Face} : f.name = g.name →
      SameEntries f.top g.top (FontDef.reserved ++ f.texts.map Prod.fst ++ g.texts.map Prod.fst) → SameTexts f.texts g.texts →
      SameEntries f.priv g.priv [.opSubrs] → f.encoding = g.encoding → f.drawings = g.drawings →
      List.Forall₂ SameText (f.glyphs.map Prod.fst) (g.glyphs.map Prod.fst) → Alike (.named f) (.named g)
  | keyed {f g : CidFace} : f.name = g.name →
      SameEntries f.top g.top (FontDef.reserved ++ f.texts.map Prod.fst ++ g.texts.map Prod.fst) → SameTexts f.texts g.texts →
      SameText f.registry g.registry → SameText f.ordering g.ordering → f.supplement.1 = g.supplement.1 →
      List.Forall₂ (fun a b => SameEntries a.1 b.1 [.opPrivate] ∧ SameEntries a.2 b.2 [.opSubrs]) f.dicts g.dicts →
      f.encoding = g.encoding → f.missing = g.missing → f.glyphs = g.glyphs → Alike (.keyed f) (.keyed g)

end PS.Spec
