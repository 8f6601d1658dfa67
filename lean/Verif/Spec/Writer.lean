import Verif.Spec.FontSet
/-!
# Specification: writing font sets

A writer of font sets: fonts keyed by names and by character identifiers, one after
another behind the four INDEXes, with offsets of five bytes in the dictionaries.
-/
namespace PS.Spec

/-- An operand with its bytes. -/
abbrev Piece := Number × List UInt8

/-- An integer operand of five bytes. -/
def long (i : Int) : Piece := (.integer i, 29 :: beSigned 4 i)

/-- Operations, one after another. -/
def encodeOps (ops : List (Operator × List Piece)) : List UInt8 := ops.flatMap fun x => x.2.flatMap Prod.snd ++ opCode x.1

/-- The contents of a dictionary: operations and their bytes. -/
structure Entries where
  ops : List (Operator × List Number)
  bytes : List UInt8

/-- The bytes are those of the operations, and no operation has an operator that the
writer uses itself. -/
def Entries.Valid (e : Entries) (reserved : List Operator) : Prop :=
  Dict e.ops e.bytes ∧ ∀ x ∈ e.ops, x.1 ∉ reserved

/-- A private dictionary with local subroutines. -/
structure PrivateDef where
  entries : Entries
  locals : List (List UInt8)

namespace PrivateDef

/-- The dictionary: the subroutines follow it. -/
def dict (p : PrivateDef) : List UInt8 := p.entries.bytes ++ encodeOps [(.opSubrs, [long (p.entries.bytes.length + 6 : Nat)])]

/-- The dictionary and the subroutines. -/
def blob (p : PrivateDef) : List UInt8 := p.dict ++ encodeIndex 4 p.locals

/-- The entries can be written. -/
def Valid (p : PrivateDef) : Prop := p.entries.Valid [.opSubrs] ∧ IndexFits 4 p.locals

end PrivateDef

/-- Things one after another, with their offsets. -/
def place (size : α → Nat) : Nat → List α → List (α × Nat)
  | _, [] => []
  | start, x :: xs => (x, start) :: place size (start + size x) xs

/-- A font dictionary of a font keyed by character identifiers: its entries and the
private dictionary. -/
structure FontDictDef where
  entries : Entries
  priv : PrivateDef

/-- A font dictionary with its private dictionary at `offset`. -/
def FontDictDef.dict (d : FontDictDef) (offset : Nat) : List UInt8 :=
  d.entries.bytes ++ encodeOps [(.opPrivate, [long d.priv.dict.length, long offset])]

/-- What the record of a font is made of. -/
inductive Keying where
  | names (priv : PrivateDef)
  | identifiers (registry ordering : Nat) (supplement : Piece) (select : DictEncoding) (dicts : List FontDictDef)

namespace Keying

/-- The bytes of the font dictionaries, their private dictionaries being at `start`. -/
def array (dicts : List FontDictDef) (start : Nat) : List UInt8 :=
  encodeIndex 4 ((place (fun d => d.priv.blob.length) start dicts).map fun x => x.1.dict x.2)

/-- The bytes of a record at `offset`: a private dictionary, or an FDSelect, the font
dictionaries and their private dictionaries. -/
def blob (k : Keying) (offset : Nat) : List UInt8 :=
  match k with
  | names priv => priv.blob
  | identifiers _ _ _ select dicts =>
    encodeSelect select ++ array dicts (offset + (encodeSelect select).length + (array dicts 0).length) ++
      (dicts.map fun d => d.priv.blob).flatten

/-- The operations of the top dictionary that lead to a record at `offset`. -/
def ops (k : Keying) (offset : Nat) : List (Operator × List Piece) :=
  match k with
  | names priv => [(.opPrivate, [long priv.dict.length, long offset])]
  | identifiers registry ordering supplement select _ =>
    [(.opROS, [long registry, long ordering, supplement]), (.opFDSelect, [long offset]),
     (.opFDArray, [long (offset + (encodeSelect select).length : Nat)])]

/-- The record can be written, for a font of `glyphs` glyphs. -/
def Valid (k : Keying) (glyphs : Nat) : Prop :=
  match k with
  | names priv => priv.Valid
  | identifiers registry ordering supplement select dicts =>
    registry < 65536 ∧ ordering < 65536 ∧ Operand supplement.1 supplement.2 ∧ SelectFits glyphs select ∧
    dicts.length ≤ 65535 ∧ ∀ d ∈ dicts, d.entries.Valid [.opPrivate] ∧ d.priv.Valid

end Keying

/-- What a font is made of. -/
structure FontDef where
  entries : Entries
  codes : List (List UInt8)
  set : CharacterSet
  encoding : Encoding
  keying : Keying

namespace FontDef

/-- The operators of a top dictionary that are not free. -/
def reserved : List Operator :=
  [.opCharStringType, .opCharSet, .opEncoding, .opCharStrings, .opPrivate, .opROS, .opFDSelect, .opFDArray]

/-- Where the encoding, the character strings and the record are, in a font at `start`
that begins with the character set. -/
def encodingAt (f : FontDef) (start : Nat) : Nat := start + (encodeCharacterSet f.set).length
/-- See `encodingAt`. -/
def codesAt (f : FontDef) (start : Nat) : Nat := f.encodingAt start + (encodeEncoding f.encoding).length
/-- See `encodingAt`. -/
def recordAt (f : FontDef) (start : Nat) : Nat := f.codesAt start + (encodeIndex 4 f.codes).length

/-- What the top dictionary has for the character set: an offset, or the number of a
predefined one. -/
def setOffset (f : FontDef) (start : Nat) : Nat :=
  match f.set with
  | .isoAdobe => 0
  | .expert => 1
  | .expertSubset => 2
  | _ => start

/-- What the top dictionary has for the encoding. -/
def encodingOffset (f : FontDef) (start : Nat) : Nat :=
  match f.encoding with
  | .standard => 0
  | .expert => 1
  | _ => f.encodingAt start

/-- The bytes of a font at `start`, apart from its top dictionary. -/
def blob (f : FontDef) (start : Nat) : List UInt8 :=
  encodeCharacterSet f.set ++ encodeEncoding f.encoding ++ encodeIndex 4 f.codes ++ f.keying.blob (f.recordAt start)

/-- The operations with which the top dictionary of a font at `start` ends. -/
def ops (f : FontDef) (start : Nat) : List (Operator × List Piece) :=
  [(Operator.opCharSet, [long (f.setOffset start)]), (Operator.opEncoding, [long (f.encodingOffset start)]),
   (Operator.opCharStrings, [long (f.codesAt start)])] ++ f.keying.ops (f.recordAt start)

/-- The top dictionary of a font at `start`. -/
def dict (f : FontDef) (start : Nat) : List UInt8 := f.entries.bytes ++ encodeOps (f.ops start)

/-- The font can be written. -/
def Valid (f : FontDef) : Prop :=
  f.entries.Valid reserved ∧ IndexFits 4 f.codes ∧
  ((f.set = .isoAdobe ∨ f.set = .expert ∨ f.set = .expertSubset) ∨ (Custom f.set ∧ 1 + covered f.set = f.codes.length)) ∧
  ((f.encoding = .standard ∨ f.encoding = .expert) ∨ Encodable f.encoding) ∧ f.keying.Valid f.codes.length

end FontDef

/-- What a font set is made of. -/
structure FontSetDef where
  names : List (List UInt8)
  strings : List (List UInt8)
  globals : List (List UInt8)
  fonts : List FontDef

namespace FontSetDef

/-- The fonts with their offsets, the first one being at `start`.  The size of a font
does not depend on its offset. -/
def placed (d : FontSetDef) (start : Nat) : List (FontDef × Nat) := place (fun f => (f.blob 0).length) start d.fonts

/-- The header and the four INDEXes, if the first font is at `start`. -/
def head (d : FontSetDef) (start : Nat) : List UInt8 :=
  [1, 0, 4, 4] ++ encodeIndex 4 d.names ++ encodeIndex 4 ((d.placed start).map fun x => x.1.dict x.2) ++
    encodeIndex 4 d.strings ++ encodeIndex 4 d.globals

/-- Where the first font is: the size of the head does not depend on it. -/
def start (d : FontSetDef) : Nat := (d.head 0).length

/-- The bytes of a font set. -/
def write (d : FontSetDef) : List UInt8 := d.head d.start ++ ((d.placed d.start).map fun x => x.1.blob x.2).flatten

/-- The font set can be written; its size leaves room for 32-bit offsets. -/
def Valid (d : FontSetDef) : Prop :=
  IndexFits 4 d.names ∧ IndexFits 4 d.strings ∧ IndexFits 4 d.globals ∧ d.fonts.length ≤ 65535 ∧
  (∀ f ∈ d.fonts, f.Valid) ∧ d.write.length < 2 ^ 31

end FontSetDef

/-- A dictionary has the operations of `e`, apart from those of the writer itself. -/
def Entries.In (e : Entries) (reserved : List Operator) (o : Operations) : Prop :=
  ∀ op, op ∉ reserved → ∀ operands, o.map op = some operands ↔ Last e.ops op operands

/-- A private record is the one that was written. -/
def PrivateDef.In (p : PrivateDef) (r : PrivateRecord) : Prop :=
  p.entries.In [.opSubrs] r.operations ∧ r.subroutines.data = p.locals

/-- A record is the one that was written. -/
def Keying.In (k : Keying) (r : Record) : Prop :=
  match k, r with
  | .names p, .characterNameKeyed r => p.In r
  | .identifiers registry ordering supplement select dicts, .characterIDKeyed r =>
    r.registry.toNat = registry ∧ r.ordering.toNat = ordering ∧ r.supplement = supplement.1 ∧ r.encoding = select ∧
    List.Forall₂ (fun d o => d.entries.In [.opPrivate] o) dicts r.operations ∧
    List.Forall₂ (fun d r => d.priv.In r) dicts r.records
  | _, _ => False

/-- The font set `fs` is the one that was written. -/
def FontSetDef.In (d : FontSetDef) (fs : FontSet) : Prop :=
  fs.names.data = d.names ∧ fs.strings.data = d.strings ∧ fs.subroutines.data = d.globals ∧
  List.Forall₂ (fun f o => f.entries.In FontDef.reserved o) d.fonts fs.operations ∧
  List.Forall₂ (fun f cs => cs.data = f.codes) d.fonts fs.characterStrings ∧
  fs.characterSets = d.fonts.map FontDef.set ∧ fs.encodings = d.fonts.map FontDef.encoding ∧
  List.Forall₂ (fun f r => f.keying.In r) d.fonts fs.records

end PS.Spec
