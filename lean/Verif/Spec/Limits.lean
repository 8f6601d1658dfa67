import Verif.Spec.Program
/-!
# Specification: limits of programs

Appendix B of the Type 2 specification (Technical Note #5177).
-/
namespace PS.Type2.Spec

/-- The limits of an implementation: 48 operands, 10 nested calls and 96 stem hints. -/
def WithinLimits (σ : State) : Prop := σ.stack.length ≤ 48 ∧ σ.callers.length ≤ 10 ∧ σ.stems ≤ 96

/-- The size of what a program shows: its operations and their operands. -/
def output (l : List Observation) : Nat := (l.map fun x => 1 + x.1.2.length).sum

end PS.Type2.Spec
