import Verif.Model.Work
import Verif.Spec.Program
/-!
# Specification: the work of executing programs
-/
namespace PS.Type2.Spec

/-- `Spends cfg s l out w`: as `Run cfg s l out`, and all the calls together do the work `w`. -/
inductive Spends (cfg : Config) : Program → List Observation → Outcome → Effort → Prop
  | ended {s t w} : Timed.Next cfg s (.ok none) t w → Spends cfg s [] (.ended t.width) w
  | failed {s r t w} : Timed.Next cfg s r t w → (∀ o, r ≠ .ok o) → Spends cfg s [] .failed w
  | more {s o t w l out w'} : Timed.Next cfg s (.ok (some o)) t w → Spends cfg t l out w' →
    Spends cfg s ((o, t.width, t.stems) :: l) out (w + w')

/-- `Moves op st m`: executing `op` with the operands `st` moves `m` operands one by one.  Rolling
`n` operands by `j` moves all of them `|j|` times; nothing else does. -/
inductive Moves : Operator → List F32 → Nat → Prop
  | roll (st as : List F32) {x y : F32} {n j : Int} : IntArg x n → IntArg y j → n = as.length → j ≠ -2 ^ 31 →
    Moves .opRoll (st ++ as ++ [x, y]) (as.length * j.natAbs)
  /-- Rolling by `-2^31` does nothing. -/
  | rollLeast (st as : List F32) {x y : F32} {n : Int} : IntArg x n → IntArg y (-2 ^ 31) → n = as.length →
    Moves .opRoll (st ++ as ++ [x, y]) 0
  | other {op : Operator} (st : List F32) : op ≠ .opRoll → Moves op st 0

/-- `0`, and a roll of this one operand by 2147352576: `0 1 32767 32767 mul 2 mul roll endchar`. -/
def rolling : List UInt8 := [139, 140, 28, 127, 255, 28, 127, 255, 12, 24, 141, 12, 24, 12, 30, 14]

end PS.Type2.Spec
