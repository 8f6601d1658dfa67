import Verif.Spec.FontSet
/-!
# Specification: how much a font set holds
-/
namespace PS.Spec

/-- The number of bytes of the objects of an INDEX. -/
def weight (ix : Index) : Nat := (ix.data.map List.length).sum

/-- The INDEXes of local subroutines of a font, one per private dictionary. -/
def locals : Record → List Index
  | .characterNameKeyed r => [r.subroutines]
  | .characterIDKeyed r => r.records.map PrivateRecord.subroutines

/-- The number of private dictionaries of a font set. -/
def privateCount (fs : FontSet) : Nat := (fs.records.map fun r => (locals r).length).sum

/-- The number of bytes that a font set holds in names, strings, subroutines and
character strings. -/
def held (fs : FontSet) : Nat :=
  weight fs.names + weight fs.strings + weight fs.subroutines + (fs.characterStrings.map weight).sum +
    (fs.records.map fun r => ((locals r).map weight).sum).sum

end PS.Spec
