import Verif.Spec.Remask
import Verif.Spec.Recode
/-!
# Specification: font sets with other masks
-/
namespace PS.Spec

/-- The new code is the old one but for the contents of masks and the way operands are encoded,
and but for subroutines that are not called.  For each glyph, `m` is the size of its masks. -/
def RemaskedCode (checks : Bool) (G : List (List UInt8)) (L : Nat → Nat → List (List UInt8)) (C : Nat → List (List UInt8))
    (fs : FontSet) : Prop :=
  ∀ (k i d : Nat) cs r code code' priv, fs.characterStrings[k]? = some cs → fs.records[k]? = some r → cs.data[i]? = some code →
    (C k)[i]? = some code' → Chooses r i d → (privateList r)[d]? = some priv →
    fs.subroutines.data.length = G.length ∧ priv.subroutines.data.length = (L k d).length ∧
    ∃ σ m, σ = Type2.Spec.view (Type2.Program.new code fs.subroutines.data priv.subroutines.data) ∧
      Type2.Spec.Remasked m code code' ∧ Type2.Spec.Masks checks σ m ∧
      (∀ (j : Nat) b b', Type2.Spec.CallsGlobal checks σ j → fs.subroutines.data[j]? = some b → G[j]? = some b' → Type2.Spec.Remasked m b b') ∧
      ∀ (j : Nat) b b', Type2.Spec.CallsLocal checks σ j → priv.subroutines.data[j]? = some b → (L k d)[j]? = some b' →
        Type2.Spec.Remasked m b b'

end PS.Spec
