import Verif.Spec.Merge
/-!
# Specification: font sets without the strings they do not need
-/
namespace PS.Spec

/-- What becomes of string identifiers if only the strings with the numbers `ks` are kept, in
this order: the identifier of the string `ks[j]` becomes that of the string `j`. -/
def kept (ks : List Nat) (i : Nat) : Option Nat :=
  if i < 391 then some i else if i - 391 ∈ ks then some (391 + ks.idxOf (i - 391)) else none

/-- `Mentions fs k sid`: an operator of the dictionary of the font `k` that stands for a string
has the string identifier `sid`. -/
def Mentions (fs : FontSet) (k sid : Nat) : Prop :=
  ∃ op ∈ textual, ∃ o, fs.operations[k]? = some o ∧ o.map op = some [.integer (sid : Nat)]

/-- `Pruned ks fs fs'`: the font set `fs'` is `fs`, but that of the strings there are only those
with the numbers `ks`, in this order, and that the string identifiers are others. -/
def Pruned (ks : List Nat) (fs fs' : FontSet) : Prop :=
  fs'.strings.data.length = ks.length ∧ (∀ j i : Nat, ks[j]? = some i → fs'.strings.data[j]? = fs.strings.data[i]?) ∧
  fs'.names.data = fs.names.data ∧ fs'.subroutines.data = fs.subroutines.data ∧
  fs'.operations.length = fs.operations.length ∧ ∀ k < fs.operations.length, MovedFont (kept ks) fs k fs' k

end PS.Spec
