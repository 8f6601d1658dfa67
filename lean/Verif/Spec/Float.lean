import Verif.Model.F32
import Mathlib.Data.Rat.Defs
import Mathlib.Algebra.Order.Field.Rat
import Mathlib.Algebra.Order.Group.Unbundled.Abs
/-!
# Specification: the values of binary32 and rounding to nearest
-/
namespace PS.Spec
open F32

/-- The value of a finite binary32 number. -/
def val (neg : Bool) (m e : Nat) : ℚ :=
  (if neg then -1 else 1) * (m : ℚ) * (2 : ℚ) ^ e / (2 : ℚ) ^ 149

/-- `Nearest neg q x`: `x` is the binary32 number nearest to `± q` (`q ≥ 0`),
ties resolved to the even significand, the sign being `neg` also for zero.
From half a unit in the last place above the greatest finite number on, the
result is the infinity. -/
def Nearest (neg : Bool) (q : ℚ) : F32 → Prop
  | nan => False
  | inf s => s = neg ∧ (2 ^ 25 - 1) * 2 ^ 103 ≤ q
  | fin s m e => s = neg ∧ q < (2 ^ 25 - 1) * 2 ^ 103 ∧ (fin s m e).WF ∧
    ∀ n f, (fin false n f).WF →
      |q - val false m e| ≤ |q - val false n f| ∧
      (|q - val false m e| = |q - val false n f| → val false n f ≠ val false m e → m % 2 = 0)

end PS.Spec
