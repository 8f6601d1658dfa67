import Verif.Spec.FontSet
/-!
# Specification: where reading a font set ends
-/
namespace PS.Spec

/-- The end of a private dictionary and its local subroutines: that of the subroutines, if
there are any, wherever they are, and that of the dictionary otherwise. -/
def PrivateEnds (A : Addressing) (data : List UInt8) (top : Operations) (r : PrivateRecord) (q : Nat) : Prop :=
  ∃ size offset rest p, top.map .opPrivate = some (.integer size :: .integer offset :: rest) ∧ A.addr offset p ∧
    ((∃ o s p', IntOf r.operations .opSubrs o ∧ A.sum offset o s ∧ A.addr s p' ∧ IndexFromTo data p' r.subroutines q) ∨
     (Absent r.operations .opSubrs ∧ (q : Int) = p + size))

/-- The end of the record of a font: that of its private dictionary, of the last one if it
has several, and of the font dictionaries if there are none. -/
def RecordEnds (A : Addressing) (data : List UInt8) (top : Operations) (r : Record) (q : Nat) : Prop :=
  match r with
  | .characterNameKeyed r => PrivateEnds A data top r q
  | .characterIDKeyed c =>
    (∃ o r, c.operations.getLast? = some o ∧ c.records.getLast? = some r ∧ PrivateEnds A data o r q) ∨
    (c.operations = [] ∧ ∃ o p dictionaries, IntOf top .opFDArray o ∧ A.addr o p ∧ IndexFromTo data p dictionaries q)

/-- Where the reading of a font set ends: at the end of the record of the last font, and of
the global subroutines if there are no fonts. -/
def Ends (A : Addressing) (data : List UInt8) (fs : FontSet) (q : Nat) : Prop :=
  (∃ top r, fs.operations.getLast? = some top ∧ fs.records.getLast? = some r ∧ RecordEnds A data top r q) ∨
  (fs.operations = [] ∧ ∃ p1 p2 p3 p4 dictionaries, A.addr fs.header.headerSize.toNat p1 ∧ IndexFromTo data p1 fs.names p2 ∧
    IndexFromTo data p2 dictionaries p3 ∧ IndexFromTo data p3 fs.strings p4 ∧ IndexFromTo data p4 fs.subroutines q)

end PS.Spec
