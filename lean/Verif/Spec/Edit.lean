import Verif.Spec.Rewrite
/-!
# Specification: font sets that were edited
-/
namespace PS.Spec

/-- The elements of a list at the positions `ks`, in this order. -/
def pick {α : Type} (ks : List Nat) (l : List α) : List α := ks.filterMap (l[·]?)

/-- `Selected ks fs fs'`: the fonts of `fs'` are those of `fs` at the positions `ks`, in
this order, and nothing else is different. -/
def Selected (ks : List Nat) (fs fs' : FontSet) : Prop :=
  fs'.names.data = pick ks fs.names.data ∧ fs'.strings.data = fs.strings.data ∧
  fs'.subroutines.data = fs.subroutines.data ∧
  List.Forall₂ (SameDict FontDef.reserved) (pick ks fs.operations) fs'.operations ∧
  fs'.characterStrings.map Index.data = pick ks (fs.characterStrings.map Index.data) ∧
  fs'.characterSets = pick ks fs.characterSets ∧ fs'.encodings = pick ks fs.encodings ∧
  List.Forall₂ SameRecord (pick ks fs.records) fs'.records

/-- `Replaced k i code fs fs'`: in `fs'`, the character string of the glyph `i` of the font
`k` is `code`, and nothing else is different from `fs`. -/
def Replaced (k i : Nat) (code : List UInt8) (fs fs' : FontSet) : Prop :=
  fs'.names.data = fs.names.data ∧ fs'.strings.data = fs.strings.data ∧ fs'.subroutines.data = fs.subroutines.data ∧
  List.Forall₂ (SameDict FontDef.reserved) fs.operations fs'.operations ∧
  (fs'.characterStrings.map fun cs => cs.data.length) = (fs.characterStrings.map fun cs => cs.data.length) ∧
  (∀ k' i' : Nat, (fs'.characterStrings[k']?.bind fun cs => cs.data[i']?) =
    if k' = k ∧ i' = i then some code else fs.characterStrings[k']?.bind fun cs => cs.data[i']?) ∧
  fs'.characterSets = fs.characterSets ∧ fs'.encodings = fs.encodings ∧ List.Forall₂ SameRecord fs.records fs'.records

end PS.Spec
