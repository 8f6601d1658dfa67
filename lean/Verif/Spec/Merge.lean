import Verif.Spec.Recode
/-!
# Specification: font sets with other string identifiers

What tools that merge fonts do: the strings of several font sets are put into one table, and
what refers to a string is changed accordingly.
-/
namespace PS.Spec

/-- The operators whose operands are string identifiers, Tables 9 and 10 of the CFF
specification, apart from `ROS`. -/
def textual : List Operator :=
  [.opVersion, .opNotice, .opCopyright, .opFullName, .opFamilyName, .opWeight, .opPostScript, .opBaseFontName, .opFontName]

/-- `Renaming ρ strings strings'`: the identifier `i` becomes `j` if `ρ i = some j`; it leads to
the same string of another table then.  Those of standard strings stay, and no two become one. -/
structure Renaming (ρ : Nat → Option Nat) (strings strings' : List (List UInt8)) : Prop where
  standard : ∀ i, i < 391 → ρ i = some i
  injective : ∀ i i' j, ρ i = some j → ρ i' = some j → i = i'
  small : ∀ i j, ρ i = some j → j < 65536
  text : ∀ i j, ρ i = some j → ∀ t, StringOf strings i t ↔ StringOf strings' j t

/-- An operand with another string identifier, if it has another one. -/
def movedNumber (ρ : Nat → Option Nat) : Number → Number
  | .integer i => if 0 ≤ i then .integer (((ρ i.toNat).getD i.toNat : Nat) : Int) else .integer i
  | .real x => .real x

/-- Two dictionaries agree, but for string identifiers, and apart from some operators. -/
def MovedDict (ρ : Nat → Option Nat) (apart : List Operator) (o o' : Operations) : Prop :=
  ∀ op, op ∉ apart → o'.map op = (o.map op).map fun xs => if op ∈ textual then xs.map (movedNumber ρ) else xs

/-- Two records agree, but for string identifiers, and apart from where things are. -/
def MovedRecord (ρ : Nat → Option Nat) : Record → Record → Prop
  | .characterNameKeyed r, .characterNameKeyed r' => SamePrivate r r'
  | .characterIDKeyed r, .characterIDKeyed r' =>
    ρ r.registry.toNat = some r'.registry.toNat ∧ ρ r.ordering.toNat = some r'.ordering.toNat ∧
    r.supplement = r'.supplement ∧ r.encoding = r'.encoding ∧
    List.Forall₂ (MovedDict ρ [.opPrivate]) r.operations r'.operations ∧ List.Forall₂ SamePrivate r.records r'.records
  | _, _ => False

/-- Character sets and encodings agree, but for string identifiers: glyphs that have names
have the others now, and the same codes stand for them.  Character identifiers stay. -/
def MovedGlyphs (ρ : Nat → Option Nat) (r : Record) (s s' : CharacterSet) (e e' : Encoding) : Prop :=
  match r with
  | .characterNameKeyed _ =>
    List.Forall₂ (fun i j => ρ i = some j) (sids s) (sids s') ∧ ∀ code g, Leads s' e' code g ↔ Leads s e code g
  | .characterIDKeyed _ => s' = s ∧ e' = e

/-- `MovedFont ρ fs k fs' k'`: the font `k'` of `fs'` is the font `k` of `fs`, but for string
identifiers. -/
def MovedFont (ρ : Nat → Option Nat) (fs : FontSet) (k : Nat) (fs' : FontSet) (k' : Nat) : Prop :=
  ∃ o o' cs cs' s s' e e' r r', fs.operations[k]? = some o ∧ fs'.operations[k']? = some o' ∧
    fs.characterStrings[k]? = some cs ∧ fs'.characterStrings[k']? = some cs' ∧
    fs.characterSets[k]? = some s ∧ fs'.characterSets[k']? = some s' ∧
    fs.encodings[k]? = some e ∧ fs'.encodings[k']? = some e' ∧
    fs.records[k]? = some r ∧ fs'.records[k']? = some r' ∧
    MovedDict ρ FontDef.reserved o o' ∧ cs'.data = cs.data ∧ MovedRecord ρ r r' ∧ MovedGlyphs ρ r s s' e e'

/-- `Uses fs k sid`: the character set, the supplement of the encoding or the record of the
font `k` has the string identifier `sid`. -/
def Uses (fs : FontSet) (k sid : Nat) : Prop :=
  (∃ r s, fs.records[k]? = some (.characterNameKeyed r) ∧ fs.characterSets[k]? = some s ∧ sid ∈ sids s) ∨
  (∃ r f n sups, fs.records[k]? = some (.characterNameKeyed r) ∧ fs.encodings[k]? = some (.supplemental f n sups) ∧
    ∃ x ∈ sups, x.glyph.toNat = sid) ∨
  ∃ r, fs.records[k]? = some (.characterIDKeyed r) ∧ (r.registry.toNat = sid ∨ r.ordering.toNat = sid)

/-- `Moved ρ strings fs fs'`: the font set `fs'` is `fs`, but that the strings are `strings`
now, and the string identifiers others. -/
def Moved (ρ : Nat → Option Nat) (strings : List (List UInt8)) (fs fs' : FontSet) : Prop :=
  fs'.names.data = fs.names.data ∧ fs'.strings.data = strings ∧ fs'.subroutines.data = fs.subroutines.data ∧
  fs'.operations.length = fs.operations.length ∧ ∀ k < fs.operations.length, MovedFont ρ fs k fs' k

/-- What becomes of string identifiers if `strings` are put behind `n` others. -/
def behind (n : Nat) (strings : List (List UInt8)) (i : Nat) : Option Nat :=
  if i < 391 then some i else if i < 391 + strings.length then some (i + n) else none

/-- `Merged fs1 fs2 fs'`: the fonts of `fs'` are those of `fs1` and then those of `fs2`, and the
strings are those of `fs1` and then those of `fs2`. -/
def Merged (fs1 fs2 fs' : FontSet) : Prop :=
  fs'.names.data = fs1.names.data ++ fs2.names.data ∧ fs'.strings.data = fs1.strings.data ++ fs2.strings.data ∧
  fs'.subroutines.data = fs1.subroutines.data ∧ fs'.subroutines.data = fs2.subroutines.data ∧
  fs'.operations.length = fs1.operations.length + fs2.operations.length ∧
  (∀ k < fs1.operations.length, MovedFont (behind 0 fs1.strings.data) fs1 k fs' k) ∧
  ∀ k < fs2.operations.length,
    MovedFont (behind fs1.strings.data.length fs2.strings.data) fs2 k fs' (fs1.operations.length + k)

/-- The glyph `g` of the font `k`, which is keyed by names, has the name `t`. -/
def GlyphNamed (fs : FontSet) (k g : Nat) (t : String) : Prop :=
  ∃ r s sid, fs.records[k]? = some (.characterNameKeyed r) ∧ fs.characterSets[k]? = some s ∧ (sids s)[g]? = some sid ∧
    StringOf fs.strings.data sid t

/-- The dictionary of the font `k` has the string `t` for the operator `op`. -/
def DictString (fs : FontSet) (k : Nat) (op : Operator) (t : String) : Prop :=
  ∃ o i, fs.operations[k]? = some o ∧ o.map op = some [.integer (i : Nat)] ∧ StringOf fs.strings.data i t

/-- The font `k` is keyed by the identifiers of the collection with this registry, ordering and
supplement. -/
def Collection (fs : FontSet) (k : Nat) (registry ordering : String) (supplement : Number) : Prop :=
  ∃ r, fs.records[k]? = some (.characterIDKeyed r) ∧ StringOf fs.strings.data r.registry.toNat registry ∧
    StringOf fs.strings.data r.ordering.toNat ordering ∧ r.supplement = supplement

/-- The code `code` stands for the glyph `g` of the font `k`. -/
def CodeLeads (fs : FontSet) (k code g : Nat) : Prop :=
  ∃ s e, fs.characterSets[k]? = some s ∧ fs.encodings[k]? = some e ∧ Leads s e code g

/-- The font `k'` of `fs'` does for a user what the font `k` of `fs` does. -/
def Preserved (fs : FontSet) (k : Nat) (fs' : FontSet) (k' : Nat) : Prop :=
  (∀ cfg g l out, Shows cfg fs' k' g l out ↔ Shows cfg fs k g l out) ∧ (∀ g t, GlyphNamed fs' k' g t ↔ GlyphNamed fs k g t) ∧
  (∀ code g, CodeLeads fs' k' code g ↔ CodeLeads fs k code g) ∧
  (∀ registry ordering supplement, Collection fs' k' registry ordering supplement ↔ Collection fs k registry ordering supplement) ∧
  ∀ op ∈ textual, ∀ t, DictString fs k op t → DictString fs' k' op t

/-- A bound for the size of a font set that was read from a file of `size` bytes and written
again. -/
def rewriteBulk (size : Nat) (fs : FontSet) : Nat := 100 * (size + 1) * (1 + fs.operations.length + FontSet.privates fs)

end PS.Spec
