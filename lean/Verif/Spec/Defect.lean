import Verif.Spec.FontSet
/-!
# Specification: what can be wrong with a font set

For each way in which reading a font set can fail, what the file has to look like.
The structures are read in a fixed order, and the first one that is defective is the
one to blame: whatever comes before it is sound.
-/
namespace PS.Spec

/-- The ways in which reading fails: an error is reported, or the program panics. -/
inductive Failure where
  | error (e : Err)
  | panic (x : Panic)
deriving DecidableEq, Repr

/-- What a reader that fails returns. -/
def Failure.result {α : Type} : Failure → Res α
  | .error e => .err e
  | .panic x => .panic x

/-- The file ends too early. -/
def ends : Failure := .error .eof

/-- The complaint `r`. -/
def complaint (r : Reason) : Failure := .error (.raised r)

/-- An offset cannot be followed. -/
inductive AddressFault (cfg : Config) (base : Nat) (o : Int) : Failure → Prop
  /-- It leads beyond the positions that can be sought. -/
  | beyond : (cfg.checks = true → base + o % 2 ^ 64 < 2 ^ 64) → (cfg.maxSeek : Int) < (base + o) % 2 ^ 64 →
    AddressFault cfg base o (.error .seek)
  /-- Adding it to the beginning of the font set overflows. -/
  | overflow : cfg.checks = true → 2 ^ 64 ≤ base + o % 2 ^ 64 → AddressFault cfg base o (.panic .overflow)

/-- The count `n` of an INDEX at `p`, not zero, the width `w` of its offsets and all
its offsets are there. -/
def OffsetsAt (data : List UInt8) (p n w : Nat) (offsets : List Nat) : Prop :=
  1 ≤ n ∧ n < 65536 ∧ 1 ≤ w ∧ w ≤ 4 ∧ offsets.length = n + 1 ∧ (∀ o ∈ offsets, o < 256 ^ w) ∧
    Sits data p (be 2 n ++ be 1 w ++ offsets.flatMap (be w))

/-- The position that the offset `o` of an INDEX at `p` with `n` objects and offsets of
`w` bytes leads to: offsets count from the byte preceding the data. -/
def objectAt (p n w o : Nat) : Nat := p + 3 + (n + 1) * w + o - 1

/-- There is something wrong with the INDEX at `p`. -/
inductive IndexFault (data : List UInt8) (p : Nat) : Failure → Prop
  /-- The file ends before or within the count. -/
  | count : data.length < p + 2 → IndexFault data p ends
  /-- There is no width. -/
  | width {n : Nat} : 1 ≤ n → n < 65536 → Sits data p (be 2 n) → data.length < p + 3 → IndexFault data p ends
  /-- The width is none. -/
  | badWidth {n : Nat} {w : UInt8} : 1 ≤ n → n < 65536 → Sits data p (be 2 n ++ [w]) → (w.toNat = 0 ∨ 4 < w.toNat) →
    IndexFault data p (complaint .malformedOffset)
  /-- The file ends within the offsets. -/
  | offsets {n : Nat} {w : UInt8} : 1 ≤ n → n < 65536 → Sits data p (be 2 n ++ [w]) → 1 ≤ w.toNat → w.toNat ≤ 4 →
    data.length < p + 3 + (n + 1) * w.toNat → IndexFault data p ends
  /-- The first object is not where the data begin. -/
  | first {n w : Nat} {offsets : List Nat} : OffsetsAt data p n w offsets → offsets.head? ≠ some 1 →
    IndexFault data p (complaint .malformedIndex)
  /-- An object ends before it begins.  The objects before it are in the file. -/
  | order {n w a b : Nat} {before after : List Nat} : OffsetsAt data p n w (before ++ a :: b :: after) →
    (before ++ [a]).head? = some 1 → (before ++ [a]).Pairwise (· ≤ ·) → objectAt p n w a ≤ data.length → b < a →
    IndexFault data p (complaint .malformedIndex)
  /-- The file ends within an object. -/
  | object {n w a b : Nat} {before after : List Nat} : OffsetsAt data p n w (before ++ a :: b :: after) →
    (before ++ [a]).head? = some 1 → (before ++ [a]).Pairwise (· ≤ ·) → objectAt p n w a ≤ data.length → a ≤ b →
    data.length < objectAt p n w b → IndexFault data p ends

/-- There is something wrong with a dictionary: after complete operations and operands
there is what is neither an operand nor an operator, complete or cut short. -/
inductive DictFault (chunk : List UInt8) : Failure → Prop
  | operand {ops bs ns os tail} : Dict ops bs → Seq Operand ns os → chunk = bs ++ os ++ tail → BadOperand tail →
    DictFault chunk (complaint .malformedNumber)
  | operator {ops bs ns os tail} : Dict ops bs → Seq Operand ns os → chunk = bs ++ os ++ tail → BadOperator tail →
    DictFault chunk (complaint .unknownOperator)

/-- There is something wrong with some dictionary: the first one that there is
something wrong with is to blame. -/
def DictsFault (chunks : List (List UInt8)) (f : Failure) : Prop :=
  ∃ before chunk after, chunks = before ++ chunk :: after ∧ (∀ x ∈ before, ∃ o, DictOf x o) ∧ DictFault chunk f

/-- There is something wrong with an operation that should have an integer, and whose
default, if any, is one. -/
inductive IntFault (o : Operations) (op : Operator) : Failure → Prop
  | missing : Absent o op → IntFault o op (complaint .missingOperation)
  | malformed {x : F32} {rest : List Number} : o.map op = some (.real x :: rest) → IntFault o op (complaint .malformedOperation)

/-- There is something wrong with the private dictionary or the local subroutines of a
font with the dictionary `top`. -/
inductive PrivateFault (cfg : Config) (data : List UInt8) (base : Nat) (top : Operations) : Failure → Prop
  /-- There are fewer than two operands. -/
  | missing : (∀ a b rest, top.map .opPrivate ≠ some (a :: b :: rest)) →
    PrivateFault cfg data base top (complaint .missingOperation)
  /-- They are not integers. -/
  | malformed {a b : Number} {rest : List Number} {x : F32} : top.map .opPrivate = some (a :: b :: rest) →
    (a = .real x ∨ b = .real x) → PrivateFault cfg data base top (complaint .malformedOperation)
  /-- The dictionary cannot be reached. -/
  | offset {size offset : Int} {rest : List Number} {f : Failure} :
    top.map .opPrivate = some (.integer size :: .integer offset :: rest) → AddressFault cfg base offset f →
    PrivateFault cfg data base top f
  /-- The memory for a dictionary of a negative size cannot be reserved. -/
  | negative {size offset : Int} {rest : List Number} {p : Nat} :
    top.map .opPrivate = some (.integer size :: .integer offset :: rest) → (machine cfg base).addr offset p →
    size < 0 → cfg.prealloc = true → PrivateFault cfg data base top (.panic .capacity)
  /-- Nor can it be read. -/
  | endless {size offset : Int} {rest : List Number} {p : Nat} :
    top.map .opPrivate = some (.integer size :: .integer offset :: rest) → (machine cfg base).addr offset p →
    size < 0 → cfg.prealloc = false → PrivateFault cfg data base top ends
  /-- The file ends within the dictionary. -/
  | cut {size offset : Int} {rest : List Number} {p : Nat} :
    top.map .opPrivate = some (.integer size :: .integer offset :: rest) → (machine cfg base).addr offset p →
    0 < size → (data.length : Int) < p + size → PrivateFault cfg data base top ends
  /-- The dictionary is defective. -/
  | dictionary {size offset : Int} {rest : List Number} {p : Nat} {chunk : List UInt8} {f : Failure} :
    top.map .opPrivate = some (.integer size :: .integer offset :: rest) → (machine cfg base).addr offset p →
    (chunk.length : Int) = size → Sits data p chunk → DictFault chunk f → PrivateFault cfg data base top f
  /-- The offset of the subroutines is not an integer. -/
  | subroutines {size offset : Int} {rest rest' : List Number} {p : Nat} {chunk : List UInt8} {o : Operations} {x : F32} :
    top.map .opPrivate = some (.integer size :: .integer offset :: rest) → (machine cfg base).addr offset p →
    (chunk.length : Int) = size → Sits data p chunk → DictOf chunk o → o.map .opSubrs = some (.real x :: rest') →
    PrivateFault cfg data base top (complaint .malformedOperation)
  /-- Adding it to the offset of the dictionary overflows. -/
  | sum {size offset s : Int} {rest : List Number} {p : Nat} {chunk : List UInt8} {o : Operations} :
    top.map .opPrivate = some (.integer size :: .integer offset :: rest) → (machine cfg base).addr offset p →
    (chunk.length : Int) = size → Sits data p chunk → DictOf chunk o → IntOf o .opSubrs s → cfg.checks = true →
    (offset + s < -2 ^ 31 ∨ 2 ^ 31 ≤ offset + s) → PrivateFault cfg data base top (.panic .overflow)
  /-- The subroutines cannot be reached. -/
  | reach {size offset s t : Int} {rest : List Number} {p : Nat} {chunk : List UInt8} {o : Operations} {f : Failure} :
    top.map .opPrivate = some (.integer size :: .integer offset :: rest) → (machine cfg base).addr offset p →
    (chunk.length : Int) = size → Sits data p chunk → DictOf chunk o → IntOf o .opSubrs s →
    (machine cfg base).sum offset s t → AddressFault cfg base t f → PrivateFault cfg data base top f
  /-- The subroutines are defective. -/
  | index {size offset s t : Int} {rest : List Number} {p q : Nat} {chunk : List UInt8} {o : Operations} {f : Failure} :
    top.map .opPrivate = some (.integer size :: .integer offset :: rest) → (machine cfg base).addr offset p →
    (chunk.length : Int) = size → Sits data p chunk → DictOf chunk o → IntOf o .opSubrs s →
    (machine cfg base).sum offset s t → (machine cfg base).addr t q → IndexFault data q f →
    PrivateFault cfg data base top f

/-- There is something wrong with the FDSelect at `p`. -/
inductive SelectFault (data : List UInt8) (p glyphs : Nat) : Failure → Prop
  /-- The file ends before it. -/
  | nothing : data.length ≤ p → SelectFault data p glyphs ends
  /-- The format is none. -/
  | format {b : UInt8} : Sits data p [b] → b ≠ 0 → b ≠ 3 →
    SelectFault data p glyphs (complaint .unknownDictionaryEncodingFormat)
  /-- The file ends within the identifiers. -/
  | identifiers : Sits data p [0] → data.length < p + 1 + glyphs → SelectFault data p glyphs ends
  /-- The file ends within the number of ranges. -/
  | number : Sits data p [3] → data.length < p + 3 → SelectFault data p glyphs ends
  /-- The file ends within the ranges or the number of glyphs. -/
  | ranges {n : Nat} : n < 65536 → Sits data p (3 :: be 2 n) → data.length < p + 3 + 3 * n + 2 →
    SelectFault data p glyphs ends

/-- A character-identifier-keyed font gets as far as its FDSelect `e`. -/
def SelectAt (A : Addressing) (data : List UInt8) (top : Operations) (glyphs : Nat) (e : DictEncoding) : Prop :=
  ∃ o p, IntOf top .opFDSelect o ∧ A.addr o p ∧ SelectFits glyphs e ∧ Sits data p (encodeSelect e)

/-- A character-identifier-keyed font gets as far as its FDArray. -/
def ArrayAt (A : Addressing) (data : List UInt8) (top : Operations) (dictionaries : Index) : Prop :=
  ∃ o p, IntOf top .opFDArray o ∧ A.addr o p ∧ IndexAt data p dictionaries

/-- There is something wrong with a record keyed by character identifiers. -/
inductive CIDFault (cfg : Config) (data : List UInt8) (base : Nat) (top : Operations) (glyphs : Nat) : Failure → Prop
  /-- There are not three operands. -/
  | operands {l : List Number} : top.map .opROS = some l → l.length ≠ 3 →
    CIDFault cfg data base top glyphs (complaint .malformedRecord)
  /-- There is no offset of the FDSelect. -/
  | select {a b c : Number} {f : Failure} : top.map .opROS = some [a, b, c] → IntFault top .opFDSelect f →
    CIDFault cfg data base top glyphs f
  /-- The FDSelect cannot be reached. -/
  | reachSelect {a b c : Number} {o : Int} {f : Failure} : top.map .opROS = some [a, b, c] → IntOf top .opFDSelect o →
    AddressFault cfg base o f → CIDFault cfg data base top glyphs f
  /-- The FDSelect is defective. -/
  | readSelect {a b c : Number} {o : Int} {p : Nat} {f : Failure} : top.map .opROS = some [a, b, c] →
    IntOf top .opFDSelect o → (machine cfg base).addr o p → SelectFault data p glyphs f →
    CIDFault cfg data base top glyphs f
  /-- There is no offset of the FDArray. -/
  | array {a b c : Number} {e : DictEncoding} {f : Failure} : top.map .opROS = some [a, b, c] →
    SelectAt (machine cfg base) data top glyphs e → IntFault top .opFDArray f → CIDFault cfg data base top glyphs f
  /-- The FDArray cannot be reached. -/
  | reachArray {a b c : Number} {e : DictEncoding} {o : Int} {f : Failure} : top.map .opROS = some [a, b, c] →
    SelectAt (machine cfg base) data top glyphs e → IntOf top .opFDArray o → AddressFault cfg base o f →
    CIDFault cfg data base top glyphs f
  /-- The FDArray is defective. -/
  | readArray {a b c : Number} {e : DictEncoding} {o : Int} {p : Nat} {f : Failure} : top.map .opROS = some [a, b, c] →
    SelectAt (machine cfg base) data top glyphs e → IntOf top .opFDArray o → (machine cfg base).addr o p →
    IndexFault data p f → CIDFault cfg data base top glyphs f
  /-- One of its dictionaries is defective. -/
  | dictionaries {a b c : Number} {e : DictEncoding} {ix : Index} {f : Failure} : top.map .opROS = some [a, b, c] →
    SelectAt (machine cfg base) data top glyphs e → ArrayAt (machine cfg base) data top ix → DictsFault ix.data f →
    CIDFault cfg data base top glyphs f
  /-- There is something wrong with the private dictionary of one of them. -/
  | records {a b c : Number} {e : DictEncoding} {ix : Index} {before after : List Operations} {o : Operations} {f : Failure} :
    top.map .opROS = some [a, b, c] → SelectAt (machine cfg base) data top glyphs e →
    ArrayAt (machine cfg base) data top ix → List.Forall₂ DictOf ix.data (before ++ o :: after) →
    (∀ x ∈ before, ∃ r, PrivateAt (machine cfg base) data x r) → PrivateFault cfg data base o f →
    CIDFault cfg data base top glyphs f
  /-- Registry or ordering is no string identifier. -/
  | identifiers {a b c : Number} {e : DictEncoding} {ix : Index} {operations : List Operations} :
    top.map .opROS = some [a, b, c] → SelectAt (machine cfg base) data top glyphs e →
    ArrayAt (machine cfg base) data top ix → List.Forall₂ DictOf ix.data operations →
    (∀ x ∈ operations, ∃ r, PrivateAt (machine cfg base) data x r) →
    ((∀ id, ¬ StandsForID a id) ∨ ∀ id, ¬ StandsForID b id) →
    CIDFault cfg data base top glyphs (complaint .malformedStringID)

/-- There is something wrong with the record of a font. -/
inductive RecordFault (cfg : Config) (data : List UInt8) (base : Nat) (top : Operations) (glyphs : Nat) : Failure → Prop
  | identifiers {l : List Number} {f : Failure} : top.map .opROS = some l → CIDFault cfg data base top glyphs f →
    RecordFault cfg data base top glyphs f
  | names {f : Failure} : top.map .opROS = none → PrivateFault cfg data base top f → RecordFault cfg data base top glyphs f

/-- There is something wrong with the custom character set at `p`, of a font with so
many glyphs. -/
inductive CustomSetFault (cfg : Config) (data : List UInt8) (p glyphs : Nat) : Failure → Prop
  /-- The file ends before it. -/
  | nothing : data.length ≤ p → CustomSetFault cfg data p glyphs ends
  /-- The format is none. -/
  | format {b : UInt8} : Sits data p [b] → 2 < b.toNat → CustomSetFault cfg data p glyphs (complaint .unknownCharacterSetFormat)
  /-- The file ends within the glyphs. -/
  | glyphs : Sits data p [0] → 1 ≤ glyphs → data.length < p + 1 + 2 * (glyphs - 1) → CustomSetFault cfg data p glyphs ends
  /-- There are fewer glyphs than there must be: subtracting one overflows, -/
  | underflow : Sits data p [0] → glyphs = 0 → cfg.checks = true → CustomSetFault cfg data p glyphs (.panic .overflow)
  /-- or else the memory for as many as then result cannot be reserved, -/
  | capacity : Sits data p [0] → glyphs = 0 → cfg.checks = false → cfg.prealloc = true →
    CustomSetFault cfg data p glyphs (.panic .capacity)
  /-- and they cannot be read. -/
  | endless : Sits data p [0] → glyphs = 0 → cfg.checks = false → cfg.prealloc = false → CustomSetFault cfg data p glyphs ends
  /-- There are no glyphs for ranges. -/
  | none {b : UInt8} : Sits data p [b] → (b = 1 ∨ b = 2) → glyphs = 0 →
    CustomSetFault cfg data p glyphs (complaint .malformedCharacterSet)
  /-- The file ends within a range that is needed. -/
  | range1 {ranges : List CharRange1} : Sits data p (encodeCharacterSet (.format1 1 ranges)) →
    1 + covered (.format1 1 ranges) < glyphs → data.length < p + 1 + 3 * ranges.length + 3 → CustomSetFault cfg data p glyphs ends
  /-- A range has more glyphs than there are. -/
  | excess1 {ranges : List CharRange1} {r : CharRange1} : Sits data p (encodeCharacterSet (.format1 1 (ranges ++ [r]))) →
    1 + covered (.format1 1 ranges) < glyphs → glyphs < 1 + covered (.format1 1 (ranges ++ [r])) →
    CustomSetFault cfg data p glyphs (complaint .malformedCharacterSet)
  /-- The file ends within a range that is needed. -/
  | range2 {ranges : List CharRange2} : Sits data p (encodeCharacterSet (.format2 2 ranges)) →
    1 + covered (.format2 2 ranges) < glyphs → data.length < p + 1 + 4 * ranges.length + 4 → CustomSetFault cfg data p glyphs ends
  /-- A range has more glyphs than there are. -/
  | excess2 {ranges : List CharRange2} {r : CharRange2} : Sits data p (encodeCharacterSet (.format2 2 (ranges ++ [r]))) →
    1 + covered (.format2 2 ranges) < glyphs → glyphs < 1 + covered (.format2 2 (ranges ++ [r])) →
    CustomSetFault cfg data p glyphs (complaint .malformedCharacterSet)

/-- There is something wrong with the character set of a font. -/
inductive SetFault (cfg : Config) (data : List UInt8) (base : Nat) (top : Operations) (glyphs : Nat) : Failure → Prop
  | offset {f : Failure} : IntFault top .opCharSet f → SetFault cfg data base top glyphs f
  | reach {o : Int} {f : Failure} : IntOf top .opCharSet o → o ∉ [0, 1, 2] → AddressFault cfg base o f →
    SetFault cfg data base top glyphs f
  | custom {o : Int} {p : Nat} {f : Failure} : IntOf top .opCharSet o → o ∉ [0, 1, 2] → (machine cfg base).addr o p →
    CustomSetFault cfg data p glyphs f → SetFault cfg data base top glyphs f

/-- The number of bytes of an entry of a custom encoding. -/
def entryWidth (format : UInt8) : Nat := if format = 0 then 1 else if format = 1 then 2 else 3

/-- There is something wrong with the custom encoding at `p`. -/
inductive CustomEncodingFault (data : List UInt8) (p : Nat) : Failure → Prop
  /-- The file ends before it. -/
  | nothing : data.length ≤ p → CustomEncodingFault data p ends
  /-- The format is none. -/
  | format {b : UInt8} : Sits data p [b] → 1 < b.toNat → b.toNat < 128 →
    CustomEncodingFault data p (complaint .unknownEncodingFormat)
  /-- There is no number of entries. -/
  | number {b : UInt8} : Sits data p [b] → (b.toNat ≤ 1 ∨ 128 ≤ b.toNat) → data.length < p + 2 → CustomEncodingFault data p ends
  /-- The file ends within the entries. -/
  | entries {b n : UInt8} : Sits data p [b, n] → (b.toNat ≤ 1 ∨ 128 ≤ b.toNat) →
    data.length < p + 2 + n.toNat * entryWidth b → CustomEncodingFault data p ends

/-- There is something wrong with the encoding of a font. -/
inductive EncodingFault (cfg : Config) (data : List UInt8) (base : Nat) (top : Operations) : Failure → Prop
  | offset {f : Failure} : IntFault top .opEncoding f → EncodingFault cfg data base top f
  | reach {o : Int} {f : Failure} : IntOf top .opEncoding o → o ∉ [0, 1] → AddressFault cfg base o f →
    EncodingFault cfg data base top f
  | custom {o : Int} {p : Nat} {f : Failure} : IntOf top .opEncoding o → o ∉ [0, 1] → (machine cfg base).addr o p →
    CustomEncodingFault data p f → EncodingFault cfg data base top f

/-- There is something wrong with the character strings of a font. -/
inductive StringsFault (cfg : Config) (data : List UInt8) (base : Nat) (top : Operations) : Failure → Prop
  | offset {f : Failure} : IntFault top .opCharStrings f → StringsFault cfg data base top f
  | reach {o : Int} {f : Failure} : IntOf top .opCharStrings o → AddressFault cfg base o f → StringsFault cfg data base top f
  | type {o : Int} {p : Nat} {f : Failure} : IntOf top .opCharStrings o → (machine cfg base).addr o p →
    IntFault top .opCharStringType f → StringsFault cfg data base top f
  | unknown {o t : Int} {p : Nat} : IntOf top .opCharStrings o → (machine cfg base).addr o p →
    IntOf top .opCharStringType t → t ≠ 2 → StringsFault cfg data base top (complaint .unknownCharacterStringFormat)
  | index {o : Int} {p : Nat} {f : Failure} : IntOf top .opCharStrings o → (machine cfg base).addr o p →
    IntOf top .opCharStringType 2 → IndexFault data p f → StringsFault cfg data base top f

/-- There is something wrong with the font with the dictionary `top`: with its character
strings, its character set, its encoding or its record. -/
inductive FontFault (cfg : Config) (data : List UInt8) (base : Nat) (top : Operations) : Failure → Prop
  | strings {f : Failure} : StringsFault cfg data base top f → FontFault cfg data base top f
  | set {cs : Index} {f : Failure} : CharacterStringsAt (machine cfg base) data top cs →
    SetFault cfg data base top cs.data.length f → FontFault cfg data base top f
  | encoding {cs : Index} {s : CharacterSet} {f : Failure} : CharacterStringsAt (machine cfg base) data top cs →
    CharacterSetAt (machine cfg base) data top cs.data.length s → EncodingFault cfg data base top f →
    FontFault cfg data base top f
  | record {cs : Index} {s : CharacterSet} {e : Encoding} {f : Failure} : CharacterStringsAt (machine cfg base) data top cs →
    CharacterSetAt (machine cfg base) data top cs.data.length s → EncodingAt (machine cfg base) data top e →
    RecordFault cfg data base top cs.data.length f → FontFault cfg data base top f

/-- A font set begins at `base`: there are a header, with the INDEX of names at `p`. -/
def Begins (cfg : Config) (data : List UInt8) (base p : Nat) : Prop :=
  ∃ h, Sits data base (encodeHeader h) ∧ (machine cfg base).addr h.headerSize.toNat p

/-- There is something wrong with the font set at `base`: with its header, with one of
the four INDEXes, with a dictionary or with a font. -/
inductive FontSetFault (cfg : Config) (data : List UInt8) (base : Nat) : Failure → Prop
  | header : data.length < base + 4 → FontSetFault cfg data base ends
  | reach {h : Header} {f : Failure} : Sits data base (encodeHeader h) → AddressFault cfg base h.headerSize.toNat f →
    FontSetFault cfg data base f
  | names {p : Nat} {f : Failure} : Begins cfg data base p → IndexFault data p f → FontSetFault cfg data base f
  | dictionaries {p q : Nat} {names : Index} {f : Failure} : Begins cfg data base p → IndexFromTo data p names q →
    IndexFault data q f → FontSetFault cfg data base f
  | operations {p q r : Nat} {names dictionaries : Index} {f : Failure} : Begins cfg data base p →
    IndexFromTo data p names q → IndexFromTo data q dictionaries r → DictsFault dictionaries.data f →
    FontSetFault cfg data base f
  | strings {p q r : Nat} {names dictionaries : Index} {tops : List Operations} {f : Failure} : Begins cfg data base p →
    IndexFromTo data p names q → IndexFromTo data q dictionaries r → List.Forall₂ DictOf dictionaries.data tops →
    IndexFault data r f → FontSetFault cfg data base f
  | subroutines {p q r s : Nat} {names dictionaries strings : Index} {tops : List Operations} {f : Failure} :
    Begins cfg data base p → IndexFromTo data p names q → IndexFromTo data q dictionaries r →
    List.Forall₂ DictOf dictionaries.data tops → IndexFromTo data r strings s → IndexFault data s f →
    FontSetFault cfg data base f
  | font {p q r s t : Nat} {names dictionaries strings subroutines : Index} {before after : List Operations}
    {top : Operations} {f : Failure} : Begins cfg data base p → IndexFromTo data p names q →
    IndexFromTo data q dictionaries r → List.Forall₂ DictOf dictionaries.data (before ++ top :: after) →
    IndexFromTo data r strings s → IndexFromTo data s subroutines t →
    (∀ x ∈ before, ∃ cs s e r, FontAt (machine cfg base) data x cs s e r) → FontFault cfg data base top f →
    FontSetFault cfg data base f

/-- There is something wrong with what is needed to count the fonts: the header and the
number of names. -/
inductive CountFault (cfg : Config) (data : List UInt8) (base : Nat) : Failure → Prop
  | header : data.length < base + 4 → CountFault cfg data base ends
  | reach {h : Header} {f : Failure} : Sits data base (encodeHeader h) → AddressFault cfg base h.headerSize.toNat f →
    CountFault cfg data base f
  | names {p : Nat} : Begins cfg data base p → data.length < p + 2 → CountFault cfg data base ends

/-- The complaints that can be made about a font set. -/
def complaints : List Reason :=
  [.malformedNumber, .malformedOffset, .malformedIndex, .unknownOperator, .malformedStringID, .unknownCharacterStringFormat,
   .unknownCharacterSetFormat, .malformedCharacterSet, .unknownEncodingFormat, .malformedOperation, .missingOperation,
   .malformedRecord, .unknownDictionaryEncodingFormat]

end PS.Spec
