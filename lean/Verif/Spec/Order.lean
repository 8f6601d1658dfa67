import Verif.Spec.Arithmetic
import Verif.Spec.Number
import Verif.Model.Number
/-!
# Specification: order of literals, numbers that can be written
-/
namespace PS.Spec

/-- A magnitude with a sign. -/
def signed (neg : Bool) (q : ℚ) : ℚ := if neg then -q else q

/-- The value of a literal. -/
def Decimal.value (d : Decimal) : ℚ := signed d.neg d.magnitude

/-- The numbers that a dictionary can hold: 32-bit integers and binary32 numbers other
than NaN. -/
def Holdable : Number → Prop
  | .integer i => -2147483648 ≤ i ∧ i ≤ 2147483647
  | .real x => x.WF ∧ x ≠ F32.nan

end PS.Spec
