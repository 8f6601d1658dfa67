import Verif.Spec.FontSet
/-!
# Specification: the bytes that a font set occupies
-/
namespace PS.Spec

/-- The private record `r` belongs to the dictionary `top`, a top dictionary or one of
the font dictionaries of a font keyed by identifiers. -/
def PrivateOf (fs : FontSet) (top : Operations) (r : PrivateRecord) : Prop :=
  (∃ i : Nat, fs.operations[i]? = some top ∧ fs.records[i]? = some (Record.characterNameKeyed r)) ∨
  ∃ (c : CIDRecord) (i : Nat), Record.characterIDKeyed c ∈ fs.records ∧ c.operations[i]? = some top ∧ c.records[i]? = some r

/-- What a font set keeps of its parts: all the bytes of most of them, and the meaning of
the dictionaries. -/
inductive Kept where
  | bytes
  | meaning
deriving DecidableEq, Repr

/-- The parts of the font set `fs` in `data`: `Part A data base fs k p bs` if one of them is
at the position `p` and has the bytes `bs`. -/
inductive Part (A : Addressing) (data : List UInt8) (base : Nat) (fs : FontSet) : Kept → Nat → List UInt8 → Prop
  /-- the header, at the beginning -/
  | header : Part A data base fs .bytes base (encodeHeader fs.header)
  /-- the names, behind the header -/
  | names {p : Nat} {bs : List UInt8} : A.addr fs.header.headerSize.toNat p → IndexBytes fs.names bs → Part A data base fs .bytes p bs
  /-- the top dictionaries, behind the names -/
  | dictionaries {p1 p2 : Nat} {ix : Index} {bs : List UInt8} : A.addr fs.header.headerSize.toNat p1 →
    IndexFromTo data p1 fs.names p2 → IndexBytes ix bs → Part A data base fs .meaning p2 bs
  /-- the strings, behind the top dictionaries -/
  | strings {p1 p2 p3 : Nat} {ix : Index} {bs : List UInt8} : A.addr fs.header.headerSize.toNat p1 →
    IndexFromTo data p1 fs.names p2 → IndexFromTo data p2 ix p3 → IndexBytes fs.strings bs → Part A data base fs .bytes p3 bs
  /-- the global subroutines, behind the strings -/
  | subroutines {p1 p2 p3 p4 : Nat} {ix : Index} {bs : List UInt8} : A.addr fs.header.headerSize.toNat p1 →
    IndexFromTo data p1 fs.names p2 → IndexFromTo data p2 ix p3 → IndexFromTo data p3 fs.strings p4 →
    IndexBytes fs.subroutines bs → Part A data base fs .bytes p4 bs
  /-- the character strings of a font -/
  | characterStrings {i p : Nat} {o : Int} {top : Operations} {cs : Index} {bs : List UInt8} :
    fs.operations[i]? = some top → fs.characterStrings[i]? = some cs → IntOf top .opCharStrings o → A.addr o p →
    IndexBytes cs bs → Part A data base fs .bytes p bs
  /-- the character set of a font, unless it is a predefined one -/
  | characterSet {i p : Nat} {o : Int} {top : Operations} {s : CharacterSet} :
    fs.operations[i]? = some top → fs.characterSets[i]? = some s → IntOf top .opCharSet o → o ∉ [0, 1, 2] → A.addr o p →
    Part A data base fs .bytes p (encodeCharacterSet s)
  /-- the encoding of a font, unless it is a predefined one -/
  | encoding {i p : Nat} {o : Int} {top : Operations} {e : Encoding} :
    fs.operations[i]? = some top → fs.encodings[i]? = some e → IntOf top .opEncoding o → o ∉ [0, 1] → A.addr o p →
    Part A data base fs .bytes p (encodeEncoding e)
  /-- the table that selects the dictionaries of the glyphs -/
  | select {i p : Nat} {o : Int} {top : Operations} {c : CIDRecord} :
    fs.operations[i]? = some top → fs.records[i]? = some (.characterIDKeyed c) → IntOf top .opFDSelect o → A.addr o p →
    Part A data base fs .bytes p (encodeSelect c.encoding)
  /-- the font dictionaries -/
  | fontDictionaries {i p : Nat} {o : Int} {top : Operations} {c : CIDRecord} {ix : Index} {bs : List UInt8} :
    fs.operations[i]? = some top → fs.records[i]? = some (.characterIDKeyed c) → IntOf top .opFDArray o → A.addr o p →
    IndexBytes ix bs → Part A data base fs .meaning p bs
  /-- a private dictionary -/
  | privateDictionary {p : Nat} {size offset : Int} {rest : List Number} {top : Operations} {r : PrivateRecord} {bs : List UInt8} :
    PrivateOf fs top r → top.map .opPrivate = some (.integer size :: .integer offset :: rest) → A.addr offset p →
    (bs.length : Int) = size → Part A data base fs .meaning p bs
  /-- the local subroutines of a private dictionary -/
  | localSubroutines {p : Nat} {size offset o s : Int} {rest : List Number} {top : Operations} {r : PrivateRecord} {bs : List UInt8} :
    PrivateOf fs top r → top.map .opPrivate = some (.integer size :: .integer offset :: rest) →
    IntOf r.operations .opSubrs o → A.sum offset o s → A.addr s p → IndexBytes r.subroutines bs → Part A data base fs .bytes p bs

/-- The byte at the position `i` belongs to a part of the font set. -/
def Occupied (A : Addressing) (data : List UInt8) (base : Nat) (fs : FontSet) (i : Nat) : Prop :=
  ∃ k p bs, Part A data base fs k p bs ∧ Sits data p bs ∧ p ≤ i ∧ i < p + bs.length

end PS.Spec
