import Verif.Model.FontSet
import Verif.Spec.Index
import Verif.Spec.Dict
import Verif.Spec.CharacterSet
/-!
# Specification: font sets

The layout of a font set in a file, Sections 2, 6 to 16, 18 and 19 of the CFF
specification (Technical Note #5176).  Nothing here reads anything: the
predicates say which bytes sit where.
-/
namespace PS.Spec

/-- The bytes `bs` sit in `data` at the position `p`. -/
def Sits (data : List UInt8) (p : Nat) (bs : List UInt8) : Prop := bs <+: data.drop p

/-- The INDEX of no objects: there is a count and nothing else. -/
def noObjects : Index := { count := 0, offsetSize := 0, offsets := [], data := [] }

/-- The bytes of an INDEX, with all its fields in agreement. -/
def IndexBytes (ix : Index) (bs : List UInt8) : Prop :=
  (ix = noObjects ∧ bs = be 2 0) ∨
  (ix.data ≠ [] ∧ IndexFits ix.offsetSize.toNat ix.data ∧ ix.count.toNat = ix.data.length ∧
    ix.offsets.map UInt32.toNat = offsetsFrom 1 ix.data ∧
    bs = encodeIndex ix.offsetSize.toNat ix.data)

/-- An INDEX sits at `p`. -/
def IndexAt (data : List UInt8) (p : Nat) (ix : Index) : Prop := ∃ bs, IndexBytes ix bs ∧ Sits data p bs

/-- An INDEX sits at `p` and ends at `q`. -/
def IndexFromTo (data : List UInt8) (p : Nat) (ix : Index) (q : Nat) : Prop :=
  ∃ bs, IndexBytes ix bs ∧ Sits data p bs ∧ q = p + bs.length

/-- The dictionary that a byte string holds: the operations that are complete, the
last one of each operator. -/
def DictOf (chunk : List UInt8) (o : Operations) : Prop :=
  ∃ ops bs rest, Dict ops bs ∧ chunk = bs ++ rest ∧ CutOperation rest ∧
    ∀ op operands, o.map op = some operands ↔ Last ops op operands

/-- How offsets are resolved: `addr o p` if the offset `o` addresses the position
`p`, and `sum a b c` if `c` is the sum of two offsets. -/
structure Addressing where
  /-- the position of an offset -/
  addr : Int → Nat → Prop
  /-- the sum of two offsets -/
  sum : Int → Int → Int → Prop

/-- Offsets count from the beginning of the font set and are not negative; positions
do not exceed `limit`. -/
def relativeTo (base limit : Nat) : Addressing where
  addr o p := 0 ≤ o ∧ (p : Int) = base + o ∧ p ≤ limit
  sum a b c := c = a + b ∧ 0 ≤ c ∧ c < 2 ^ 31

/-- Offsets count from the beginning of the font set in the arithmetic of the
machine: positions are added modulo `2^64`, the offset being sign-extended, and
offsets modulo `2^32`.  With overflow checks nothing may be lost. -/
def machine (cfg : Config) (base : Nat) : Addressing where
  addr o p := (p : Int) = (base + o) % 2 ^ 64 ∧ p ≤ cfg.maxSeek ∧ (cfg.checks = true → base + o % 2 ^ 64 < 2 ^ 64)
  sum a b c := (2 ^ 32 : Int) ∣ c - (a + b) ∧ -2 ^ 31 ≤ c ∧ c < 2 ^ 31 ∧ (cfg.checks = true → c = a + b)

/-- The operands of an operation: those stored, or else the default ones, if the
specification gives any. -/
def Given (o : Operations) (op : Operator) (operands : List Number) : Prop :=
  o.map op = some operands ∨
  (o.map op = none ∧ opDefault op ≠ [] ∧ List.Forall₂ Stands (opDefault op) operands)

/-- An operation has an integer as its first operand, stored or by default. -/
def IntOf (o : Operations) (op : Operator) (i : Int) : Prop := ∃ rest, Given o op (.integer i :: rest)

/-- The integers among the operands are of 32 bits.  The type of the field in the code,
`i32`, ensures it; the model has unbounded integers. -/
def Small (o : Operations) : Prop :=
  ∀ op operands i, o.map op = some operands → Number.integer i ∈ operands → -2 ^ 31 ≤ i ∧ i < 2 ^ 31

/-- An operation has no operands, stored or by default. -/
def Absent (o : Operations) (op : Operator) : Prop :=
  o.map op = some [] ∨ (o.map op = none ∧ opDefault op = [])

/-- The private dictionary and the local subroutines of a font whose dictionary is
`top`: `Private` has the size and the offset of the dictionary, and the
subroutines are at the sum of that offset and that of `Subrs`, if any. -/
def PrivateAt (A : Addressing) (data : List UInt8) (top : Operations) (r : PrivateRecord) : Prop :=
  ∃ size offset rest p chunk, top.map .opPrivate = some (.integer size :: .integer offset :: rest) ∧
    A.addr offset p ∧ (chunk.length : Int) = size ∧ Sits data p chunk ∧ DictOf chunk r.operations ∧
    ((∃ o s p', IntOf r.operations .opSubrs o ∧ A.sum offset o s ∧ A.addr s p' ∧ IndexAt data p' r.subroutines) ∨
     (Absent r.operations .opSubrs ∧ r.subroutines = noObjects))

/-- The bytes of an FDSelect, Tables 27 to 29. -/
def encodeSelect : DictEncoding → List UInt8
  | .format0 _ ids => 0 :: ids
  | .format3 _ _ ranges glyphCount =>
    3 :: be 2 ranges.length ++ (ranges.flatMap fun r => be 2 r.firstGlyphID.toNat ++ [r.dictionaryID]) ++ be 2 glyphCount.toNat

/-- An FDSelect whose fields are in agreement, for `glyphs` glyphs. -/
def SelectFits (glyphs : Nat) : DictEncoding → Prop
  | .format0 f ids => f = 0 ∧ ids.length = glyphs
  | .format3 f n ranges _ => f = 3 ∧ ranges.length = n.toNat

/-- The string identifier that a dictionary number stands for. -/
def StandsForID (n : Number) (id : UInt16) : Prop :=
  ∃ i : Int, n = .integer i ∧ 0 ≤ i ∧ (id.toNat : Int) = i % 65536

/-- A record keyed by character identifiers. -/
def CIDAt (A : Addressing) (data : List UInt8) (top : Operations) (glyphs : Nat) (r : CIDRecord) : Prop :=
  (∃ a b, top.map .opROS = some [a, b, r.supplement] ∧ StandsForID a r.registry ∧ StandsForID b r.ordering) ∧
  (∃ o p, IntOf top .opFDSelect o ∧ A.addr o p ∧ SelectFits glyphs r.encoding ∧ Sits data p (encodeSelect r.encoding)) ∧
  (∃ o p dictionaries, IntOf top .opFDArray o ∧ A.addr o p ∧ IndexAt data p dictionaries ∧
    List.Forall₂ DictOf dictionaries.data r.operations) ∧
  List.Forall₂ (PrivateAt A data) r.operations r.records

/-- The record of a font. -/
def RecordAt (A : Addressing) (data : List UInt8) (top : Operations) (glyphs : Nat) : Record → Prop
  | .characterIDKeyed r => CIDAt A data top glyphs r
  | .characterNameKeyed r => top.map .opROS = none ∧ PrivateAt A data top r

/-- The character set of a font. -/
def CharacterSetAt (A : Addressing) (data : List UInt8) (top : Operations) (glyphs : Nat) (s : CharacterSet) : Prop :=
  ∃ o, IntOf top .opCharSet o ∧
    ((o = 0 ∧ s = .isoAdobe) ∨ (o = 1 ∧ s = .expert) ∨ (o = 2 ∧ s = .expertSubset) ∨
     (o ≠ 0 ∧ o ≠ 1 ∧ o ≠ 2 ∧ ∃ p, A.addr o p ∧ Custom s ∧ 1 + covered s = glyphs ∧ Sits data p (encodeCharacterSet s)))

/-- The encoding of a font. -/
def EncodingAt (A : Addressing) (data : List UInt8) (top : Operations) (e : Encoding) : Prop :=
  ∃ o, IntOf top .opEncoding o ∧
    ((o = 0 ∧ e = .standard) ∨ (o = 1 ∧ e = .expert) ∨
     (o ≠ 0 ∧ o ≠ 1 ∧ ∃ p, A.addr o p ∧ Encodable e ∧ Sits data p (encodeEncoding e)))

/-- The character strings of a font, of type 2. -/
def CharacterStringsAt (A : Addressing) (data : List UInt8) (top : Operations) (cs : Index) : Prop :=
  ∃ o p, IntOf top .opCharStrings o ∧ A.addr o p ∧ IntOf top .opCharStringType 2 ∧ IndexAt data p cs

/-- The bytes of a header. -/
def encodeHeader (h : Header) : List UInt8 := [h.major, h.minor, h.headerSize, h.offsetSize]

/-- Everything that belongs to the font with the dictionary `top`. -/
def FontAt (A : Addressing) (data : List UInt8) (top : Operations) (cs : Index) (s : CharacterSet) (e : Encoding)
    (r : Record) : Prop :=
  CharacterStringsAt A data top cs ∧ CharacterSetAt A data top cs.data.length s ∧ EncodingAt A data top e ∧
    RecordAt A data top cs.data.length r

/-- The font set `fs` is laid out in `data`, beginning at `base`: the header; four
INDEXes one after another, of names, dictionaries, strings and subroutines; and the
objects of each font at the offsets in its dictionary. -/
def LaidOut (A : Addressing) (data : List UInt8) (base : Nat) (fs : FontSet) : Prop :=
  Sits data base (encodeHeader fs.header) ∧
  (∃ p1 p2 p3 p4 p5 dictionaries, A.addr fs.header.headerSize.toNat p1 ∧
    IndexFromTo data p1 fs.names p2 ∧ IndexFromTo data p2 dictionaries p3 ∧
    IndexFromTo data p3 fs.strings p4 ∧ IndexFromTo data p4 fs.subroutines p5 ∧
    List.Forall₂ DictOf dictionaries.data fs.operations) ∧
  fs.characterStrings.length = fs.operations.length ∧ fs.characterSets.length = fs.operations.length ∧
  fs.encodings.length = fs.operations.length ∧ fs.records.length = fs.operations.length ∧
  ∀ (i : Nat) (top : Operations), fs.operations[i]? = some top → ∃ cs s e r,
    fs.characterStrings[i]? = some cs ∧ fs.characterSets[i]? = some s ∧ fs.encodings[i]? = some e ∧
    fs.records[i]? = some r ∧ FontAt A data top cs s e r

/-- The local subroutines of a font: those of its private dictionary, or of one of its
private dictionaries if it is keyed by character identifiers. -/
def LocalOf (r : Record) (subroutines : Index) : Prop :=
  match r with
  | .characterNameKeyed r => subroutines = r.subroutines
  | .characterIDKeyed r => ∃ x ∈ r.records, subroutines = x.subroutines

/-- A byte string of a font set: a name, a string, a subroutine or a character string. -/
def ByteStringOf (fs : FontSet) (bs : List UInt8) : Prop :=
  bs ∈ fs.names.data ∨ bs ∈ fs.strings.data ∨ bs ∈ fs.subroutines.data ∨ (∃ cs ∈ fs.characterStrings, bs ∈ cs.data) ∨
  ∃ r ∈ fs.records, ∃ subroutines, LocalOf r subroutines ∧ bs ∈ subroutines.data

/-- The dictionaries of a font set whose `Private` is used: the top ones of fonts keyed
by names, and those of the records of fonts keyed by identifiers. -/
def HasPrivate (fs : FontSet) (o : Operations) : Prop :=
  (∃ (i : Nat) (r : PrivateRecord), fs.operations[i]? = some o ∧ fs.records[i]? = some (Record.characterNameKeyed r)) ∨
  ∃ r, Record.characterIDKeyed r ∈ fs.records ∧ o ∈ r.operations

/-- A dictionary that makes a reader panic. -/
inductive Culprit (cfg : Config) (data : List UInt8) (base : Nat) (top : Operations) : Panic → Prop
  /-- A negative offset overflows the addition to the beginning of the font set. -/
  | offset {op : Operator} {i : Int} : cfg.checks = true →
    op ∈ [Operator.opCharStrings, .opCharSet, .opEncoding, .opFDSelect, .opFDArray] → IntOf top op i → i < 0 →
    Culprit cfg data base top .overflow
  /-- So does a negative offset of the private dictionary. -/
  | privateOffset {size offset : Int} {rest : List Number} : cfg.checks = true →
    top.map .opPrivate = some (.integer size :: .integer offset :: rest) → offset < 0 → Culprit cfg data base top .overflow
  /-- The offset of the local subroutines is negative or does not fit 32 bits. -/
  | subroutines {size offset s : Int} {rest : List Number} {chunk : List UInt8} {o : Operations} : cfg.checks = true →
    top.map .opPrivate = some (.integer size :: .integer offset :: rest) → (chunk.length : Int) = size →
    chunk <:+: data → DictOf chunk o → IntOf o .opSubrs s → (offset + s < 0 ∨ 2 ^ 31 ≤ offset + s) →
    Culprit cfg data base top .overflow
  /-- The size of the private dictionary is negative. -/
  | size {size offset : Int} {rest : List Number} : cfg.prealloc = true →
    top.map .opPrivate = some (.integer size :: .integer offset :: rest) → size < 0 → Culprit cfg data base top .capacity
  /-- There are no glyphs, yet there is a character set. -/
  | glyphs {i : Int} {x : Panic} : CharacterStringsAt (machine cfg base) data top noObjects → IntOf top .opCharSet i →
    i ≠ 0 → i ≠ 1 → i ≠ 2 → ((x = .overflow ∧ cfg.checks = true) ∨ (x = .capacity ∧ cfg.prealloc = true)) →
    Culprit cfg data base top x

end PS.Spec
