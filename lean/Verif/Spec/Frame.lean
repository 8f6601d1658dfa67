import Verif.Spec.Program
/-!
# Specification: fragments that only compute
-/
namespace PS.Type2.Spec

/-- `Computes checks global local f xs ys`: the code `f`, executed on its own with
nothing but the operands `xs`, yields no operation and leaves the operands `ys`. -/
def Computes (checks : Bool) (global «local» : List (List UInt8)) (f : List UInt8) (xs ys : List F32) : Prop :=
  Consumes checks { code := f, callers := [], global, «local», stack := xs, stems := 0, width := none } []
    { code := [], callers := [], global, «local», stack := ys, stems := 0, width := none } True

end PS.Type2.Spec
