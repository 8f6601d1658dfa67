import Verif.Spec.Outline
import Verif.Spec.Recode
/-!
# Specification: font sets in which fragments of code become subroutines
-/
namespace PS.Spec

/-- The new code is the old one but that fragments of it are in new subroutines, and but for the
numbers of the others: for each glyph, `g i j` says that the global subroutine `i` becomes `j`, and
`l i j` the same of the local subroutines; `qg` and `ql` say which of them never end the glyph.
Only the subroutines that the glyph needs have to become others; `m` is the size of its masks. -/
def OutlinedCode (checks : Bool) (G : List (List UInt8)) (L : Nat → Nat → List (List UInt8)) (C : Nat → List (List UInt8))
    (fs : FontSet) : Prop :=
  ∀ (k i d : Nat) cs r code code' priv, fs.characterStrings[k]? = some cs → fs.records[k]? = some r → cs.data[i]? = some code →
    (C k)[i]? = some code' → Chooses r i d → (privateList r)[d]? = some priv →
    ∃ (m : Nat) (g l : Nat → Nat → Prop) (qg ql : Nat → Prop),
      Type2.Spec.Coherent ⟨fs.subroutines.data, G, g, qg⟩ ⟨priv.subroutines.data, L k d, l, ql⟩ m ∧
      Type2.Spec.Outlined ⟨fs.subroutines.data, G, g, qg⟩ ⟨priv.subroutines.data, L k d, l, ql⟩ m .routine code code' ∧
      Type2.Spec.Masks checks (Type2.Spec.view (Type2.Program.new code fs.subroutines.data priv.subroutines.data)) m

end PS.Spec
