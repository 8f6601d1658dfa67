import Verif.Spec.Codes
import Verif.Spec.Edit
import Verif.Spec.Program
import Verif.Spec.Select
/-!
# Specification: fonts of which some glyphs are kept
-/
namespace PS.Spec

/-- The local subroutines with which a glyph is run: those of the private dictionary, or
those of the private dictionary that FDSelect gives to the glyph. -/
def LocalFor (r : Record) (g : Nat) (subroutines : Index) : Prop :=
  match r with
  | .characterNameKeyed r => subroutines = r.subroutines
  | .characterIDKeyed r => ∃ d p, Selects r.encoding g d ∧ r.records[d]? = some p ∧ subroutines = p.subroutines

/-- `Shows cfg fs k g l out`: running the glyph `g` of the font `k`, with the global
subroutines and its local ones, shows `l` and ends as `out` says. -/
def Shows (cfg : Config) (fs : FontSet) (k g : Nat) (l : List Type2.Spec.Observation) (out : Type2.Spec.Outcome) : Prop :=
  ∃ cs r code «local», fs.characterStrings[k]? = some cs ∧ fs.records[k]? = some r ∧ cs.data[g]? = some code ∧
    LocalFor r g «local» ∧ Type2.Spec.Run cfg (Type2.Program.new code fs.subroutines.data «local».data) l out

/-- The records agree, but for the glyphs that FDSelect speaks of: its glyphs are those at
the positions `gs`. -/
def KeptRecord (gs : List Nat) : Record → Record → Prop
  | .characterNameKeyed r, .characterNameKeyed r' => SamePrivate r r'
  | .characterIDKeyed r, .characterIDKeyed r' =>
    r.registry = r'.registry ∧ r.ordering = r'.ordering ∧ r.supplement = r'.supplement ∧
    (∀ j d, Selects r'.encoding j d ↔ ∃ g, gs[j]? = some g ∧ Selects r.encoding g d) ∧
    List.Forall₂ (SameDict [.opPrivate]) r.operations r'.operations ∧ List.Forall₂ SamePrivate r.records r'.records
  | _, _ => False

/-- `GlyphsKept k gs fs fs'`: the glyphs of the font `k` of `fs'` are those of the font `k` of
`fs` at the positions `gs`, in this order, with the same character strings, string
identifiers, character codes and private dictionaries, and nothing else is different. -/
def GlyphsKept (k : Nat) (gs : List Nat) (fs fs' : FontSet) : Prop :=
  fs'.names.data = fs.names.data ∧ fs'.strings.data = fs.strings.data ∧ fs'.subroutines.data = fs.subroutines.data ∧
  List.Forall₂ (SameDict FontDef.reserved) fs.operations fs'.operations ∧
  (∀ k', k' ≠ k → fs'.characterStrings[k']?.map Index.data = fs.characterStrings[k']?.map Index.data ∧
    fs'.characterSets[k']? = fs.characterSets[k']? ∧ fs'.encodings[k']? = fs.encodings[k']? ∧
    Option.Rel SameRecord fs.records[k']? fs'.records[k']?) ∧
  (∃ cs cs', fs.characterStrings[k]? = some cs ∧ fs'.characterStrings[k]? = some cs' ∧ cs'.data = pick gs cs.data) ∧
  (∃ s s' e e', fs.characterSets[k]? = some s ∧ fs'.characterSets[k]? = some s' ∧ fs.encodings[k]? = some e ∧
    fs'.encodings[k]? = some e' ∧ sids s' = pick gs (sids s) ∧
    ∀ code j, Leads s' e' code j ↔ ∃ g, gs[j]? = some g ∧ Leads s e code g) ∧
  (∃ r r', fs.records[k]? = some r ∧ fs'.records[k]? = some r' ∧ KeptRecord gs r r')

end PS.Spec
