import Verif.Spec.Writer
/-!
# Specification: font sets with the same contents
-/
namespace PS.Spec

/-- Two dictionaries agree, apart from some operators. -/
def SameDict (apart : List Operator) (o o' : Operations) : Prop := ∀ op, op ∉ apart → o.map op = o'.map op

/-- Two private dictionaries agree, apart from where the subroutines are. -/
def SamePrivate (r r' : PrivateRecord) : Prop :=
  SameDict [.opSubrs] r.operations r'.operations ∧ r.subroutines.data = r'.subroutines.data

/-- Two records agree, apart from where things are. -/
def SameRecord : Record → Record → Prop
  | .characterNameKeyed r, .characterNameKeyed r' => SamePrivate r r'
  | .characterIDKeyed r, .characterIDKeyed r' =>
    r.registry = r'.registry ∧ r.ordering = r'.ordering ∧ r.supplement = r'.supplement ∧ r.encoding = r'.encoding ∧
    List.Forall₂ (SameDict [.opPrivate]) r.operations r'.operations ∧ List.Forall₂ SamePrivate r.records r'.records
  | _, _ => False

/-- Two font sets have the same contents: they agree, apart from the header and from
where things are.  (The operators left out for top dictionaries lead to what is compared
by itself; `CharStringType` is 2.) -/
def SameContents (fs fs' : FontSet) : Prop :=
  fs.names.data = fs'.names.data ∧ fs.strings.data = fs'.strings.data ∧ fs.subroutines.data = fs'.subroutines.data ∧
  List.Forall₂ (SameDict FontDef.reserved) fs.operations fs'.operations ∧
  fs.characterStrings.map Index.data = fs'.characterStrings.map Index.data ∧
  fs.characterSets = fs'.characterSets ∧ fs.encodings = fs'.encodings ∧ List.Forall₂ SameRecord fs.records fs'.records

/-- The number of private dictionaries of a record. -/
def privates : Record → Nat
  | .characterNameKeyed _ => 1
  | .characterIDKeyed r => r.records.length

/-- The number of private dictionaries of a font set. -/
def FontSet.privates (fs : FontSet) : Nat := (fs.records.map Spec.privates).sum

end PS.Spec
