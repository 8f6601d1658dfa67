import Verif.Model.Base
/-!
# Tapes, for the statements about readers
-/
namespace PS

/-- A tape whose bytes are `data`, in a program built as `cfg` says. -/
def tape (cfg : Config) (data : List UInt8) : Env := { cfg, data }

end PS
