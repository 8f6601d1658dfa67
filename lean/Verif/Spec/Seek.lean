import Verif.Spec.FontSet
/-!
# Specification: offsets that lead in front of a font set
-/
namespace PS.Spec

/-- A dictionary with an offset that leads in front of the font set. -/
inductive Backwards (data : List UInt8) (top : Operations) : Prop
  /-- The offset of a table is negative. -/
  | table {op : Operator} {i : Int} : op ∈ [Operator.opCharStrings, .opCharSet, .opEncoding, .opFDSelect, .opFDArray] →
    IntOf top op i → i < 0 → Backwards data top
  /-- The offset of the private dictionary is. -/
  | privateOffset {size offset : Int} {rest : List Number} :
    top.map .opPrivate = some (.integer size :: .integer offset :: rest) → offset < 0 → Backwards data top
  /-- That of the local subroutines is, or it exceeds 32 bits, after which it is. -/
  | subroutines {size offset s : Int} {rest : List Number} {chunk : List UInt8} {o : Operations} :
    top.map .opPrivate = some (.integer size :: .integer offset :: rest) → (chunk.length : Int) = size →
    chunk <:+: data → DictOf chunk o → IntOf o .opSubrs s → (offset + s < 0 ∨ 2 ^ 31 ≤ offset + s) → Backwards data top

end PS.Spec
