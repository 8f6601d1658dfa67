import Verif.Spec.Program
/-!
# Specification: subroutines in layers
-/
namespace PS.Type2.Spec

/-- The subroutines cannot call in circles, as can be seen from the bytes: no local
subroutine has the byte of `callsubr`, no global one has that of `callgsubr`, and one of
the kinds does not call the other. -/
def Layered (global «local» : List (List UInt8)) : Prop :=
  (∀ b ∈ «local», (10 : UInt8) ∉ b) ∧ (∀ b ∈ global, (29 : UInt8) ∉ b) ∧
  ((∀ b ∈ «local», (29 : UInt8) ∉ b) ∨ ∀ b ∈ global, (10 : UInt8) ∉ b)

end PS.Type2.Spec
