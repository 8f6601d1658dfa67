import Verif.Spec.Program
/-!
# Specification: what a failed read leaves behind
-/
namespace PS.Type2.Spec

/-- A failed read leaves the position at the end of the tape, as recent versions of
`std::io::Cursor` do. -/
def LeavesEnd (cfg : Config) : Prop := ∀ p n, cfg.eofPos p n = n

/-- A failed read leaves the position where it was, as earlier versions of
`std::io::Cursor` did. -/
def LeavesPlace (cfg : Config) : Prop := ∀ p n, cfg.eofPos p n = p

end PS.Type2.Spec
