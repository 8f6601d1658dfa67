import Verif.Model.Base
/-!
# Specification: the same outcome on two tapes
-/
namespace PS.Spec

/-- Two readings have the same outcome, the second one `k` bytes further on: the same
value and a position `k` bytes further on, or the same error, or the same panic. -/
def SameOutcome (k : Nat) (r r' : Res α × Nat) : Prop :=
  (∃ a q, r = (.ok a, q) ∧ r' = (.ok a, q + k)) ∨
  (∃ e q q', r = (.err e, q) ∧ r' = (.err e, q')) ∨
  (∃ x q q', r = (.panic x, q) ∧ r' = (.panic x, q'))

/-- The second configuration checks less than the first: it has overflow checks, or
preallocates, only if the first one does, and the same positions can be sought.  What
is left of a tape at the end of file is arbitrary in both. -/
def Milder (c c' : Config) : Prop :=
  (c'.checks = true → c.checks = true) ∧ (c'.prealloc = true → c.prealloc = true) ∧ c.maxSeek = c'.maxSeek

end PS.Spec
