import Verif.Model.Source
/-!
# Specification: sources that hesitate and fail
-/
namespace PS.Spec

/-- No failure among these answers: fewer bytes than asked for, and interruptions only. -/
def Calm (answers : List Answer) : Prop := ∀ f, Answer.failure f ∉ answers

/-- What `peek` makes of a failure `f` and the answer to its second seek: the last failure counts. -/
def lastFailure (f : Nat) : Answer → Nat
  | .failure g => g
  | _ => f

/-- Reading from a source that gives these answers, compared with the result `r` and the position
`q` on a tape that delivers whatever is asked for.  Either no failure was among the answers that
were used, and the result and the position are the same.  Or one was, and it is reported, and
nothing was asked of the source after it, except that a second seek, after a failure in `peek`,
may have been, of which a failure is reported instead. -/
def Follows (r : Res α) (q : Nat) (answers : List Answer) (outcome : Upshot α) (left : Feed) : Prop :=
  (∃ used, answers = used ++ left.answers ∧ Calm used ∧ outcome = .done r ∧ left.position = q) ∨
  (∃ used f, answers = used ++ .failure f :: left.answers ∧ Calm used ∧ outcome = .failed f) ∨
  (∃ used f last, answers = used ++ .failure f :: last :: left.answers ∧ Calm used ∧ outcome = .failed (lastFailure f last))

/-- A tape of which reading beyond the end leaves the position at the end, as the loop of
`Read::read_exact` does. -/
def atEnd (c : Config) : Config := { c with eofPos := fun p n => max p n }

end PS.Spec
