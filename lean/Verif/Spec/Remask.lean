import Verif.Spec.Renumber
/-!
# Specification: code with other masks

What a program that hints fonts does: masks are replaced by others, of the same length, and
operands are written in other ways.
-/
namespace PS.Type2.Spec
open PS.Spec

/-- `Remasked m code code'`: `code` and `code'` are the same but for the contents of masks, which
have `m` bytes, and for the way operands are encoded.  From some point on, at the end at
the latest, the two are the same; what is there need not make sense. -/
inductive Remasked (m : Nat) : List UInt8 → List UInt8 → Prop
  | same (r) : Remasked m r r
  | operand {x b b' r r'} : Operand x b → Operand x b' → Remasked m r r' → Remasked m (b ++ r) (b' ++ r')
  | operator {op r r'} : ¬ Mask op → Remasked m r r' → Remasked m (bytes op ++ r) (bytes op ++ r')
  | mask {op mask mask' r r'} : Mask op → mask.length = m → mask'.length = m → Remasked m r r' →
    Remasked m (bytes op ++ (mask ++ r)) (bytes op ++ (mask' ++ r'))

end PS.Type2.Spec
