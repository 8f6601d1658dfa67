import Verif.Lemmas.Source
import Verif.Props.Agree
/-!
# Properties: sources that hesitate and fail
-/
namespace PS
open PS.Spec

/-! ## C89 -/

/-- **C89.**  However a source answers, reading a font set from it gives the result that reading it
from a tape gives, or reports the failure of the source, after which nothing more is asked of it. -/
theorem C89_follows (cfg : Config) (data : List UInt8) (base : Nat) (answers : List Answer) :
    Follows (FontSet.read (tape (atEnd cfg) data) base).1 (FontSet.read (tape (atEnd cfg) data) base).2 answers
      (Source.readFontSet (tape (atEnd cfg) data) ⟨base, answers⟩).1 (Source.readFontSet (tape (atEnd cfg) data) ⟨base, answers⟩).2 :=
  Source.follow_readFontSet rfl base answers

/-- C89, for the number of fonts. -/
theorem C89_count (cfg : Config) (data : List UInt8) (base : Nat) (answers : List Answer) :
    Follows (FontSet.count (tape (atEnd cfg) data) base).1 (FontSet.count (tape (atEnd cfg) data) base).2 answers
      (Source.readCount (tape (atEnd cfg) data) ⟨base, answers⟩).1 (Source.readCount (tape (atEnd cfg) data) ⟨base, answers⟩).2 :=
  Source.follow_readCount rfl base answers

/-- C89, for what can be read by itself: dictionaries, whose end is the end of the source, numbers
and INDEXes. -/
theorem C89_parts (cfg : Config) (data : List UInt8) (p : Nat) (answers : List Answer) :
    Follows (Operations.read (tape (atEnd cfg) data) p).1 (Operations.read (tape (atEnd cfg) data) p).2 answers
      (Source.readOperations (tape (atEnd cfg) data) ⟨p, answers⟩).1 (Source.readOperations (tape (atEnd cfg) data) ⟨p, answers⟩).2 ∧
    Follows (Number.read (tape (atEnd cfg) data) p).1 (Number.read (tape (atEnd cfg) data) p).2 answers
      (Source.readNumber (tape (atEnd cfg) data) ⟨p, answers⟩).1 (Source.readNumber (tape (atEnd cfg) data) ⟨p, answers⟩).2 ∧
    Follows (Index.read (tape (atEnd cfg) data) p).1 (Index.read (tape (atEnd cfg) data) p).2 answers
      (Source.readIndex (tape (atEnd cfg) data) ⟨p, answers⟩).1 (Source.readIndex (tape (atEnd cfg) data) ⟨p, answers⟩).2 :=
  ⟨Source.follow_readOperations rfl p answers, Source.follow_readNumber rfl p answers, Source.follow_readIndex rfl p answers⟩

/-- **C89.**  If the source does not fail, however few bytes it delivers at a time and however often
it is interrupted, then the result is the one on a tape of any kind. -/
theorem C89_calm (cfg : Config) (data : List UInt8) (base : Nat) (answers : List Answer) (h : Calm answers) :
    (Source.readFontSet (tape (atEnd cfg) data) ⟨base, answers⟩).1 = .done (FontSet.read (tape cfg data) base).1 := by
  rcases C89_follows cfg data base answers with ⟨u, -, -, h1, -⟩ | ⟨u, f, h1, -⟩ | ⟨u, f, a, h1, -⟩
  · rw [h1, Source.read_atEnd]
  · exact absurd (by rw [h1]; simp) (h f)
  · exact absurd (by rw [h1]; simp) (h f)

/-- **C89.**  No failure is made up, and none is lost: one that is reported was among the answers,
and if the result is that of a tape, then none was among those that were used. -/
theorem C89_failures (cfg : Config) (data : List UInt8) (base : Nat) (answers : List Answer) :
    (∀ f left, Source.readFontSet (tape (atEnd cfg) data) ⟨base, answers⟩ = (.failed f, left) → Answer.failure f ∈ answers) ∧
    (∀ r left, Source.readFontSet (tape (atEnd cfg) data) ⟨base, answers⟩ = (.done r, left) →
      r = (FontSet.read (tape cfg data) base).1 ∧ ∃ used, answers = used ++ left.answers ∧ Calm used) := by
  have h := C89_follows cfg data base answers
  constructor
  · intro f left e
    rw [e] at h
    rcases h with ⟨u, -, -, h1, -⟩ | ⟨u, g, h1, -, h2⟩ | ⟨u, g, a, h1, -, h2⟩
    · cases h1
    · cases h2
      rw [h1]
      simp
    · cases h2
      rw [h1]
      cases a <;> simp [lastFailure]
  · intro r left e
    rw [e] at h
    rcases h with ⟨u, h0, hc, h1, -⟩ | ⟨u, g, h1, -, h2⟩ | ⟨u, g, a, h1, -, h2⟩
    · cases h1
      exact ⟨Source.read_atEnd _ _ _, u, h0, hc⟩
    · cases h2
    · cases h2

/-- A source that delivers one byte at a time, for as long as may be, and is interrupted before
each; it is read in the end. -/
example (n : Nat) : Calm ((List.replicate n [Answer.interrupted, .upTo 0]).flatten) ∧
    ∃ fs left, Source.readFontSet (tape (atEnd fileBuild) sampleFont) ⟨0, (List.replicate n [Answer.interrupted, .upTo 0]).flatten⟩ =
      (.done (.ok fs), left) ∧ FontSet.read (tape fileBuild sampleFont) 0 = (.ok fs, 38) := by
  have hc : Calm ((List.replicate n [Answer.interrupted, .upTo 0]).flatten) := fun f h => by
    simp only [List.mem_flatten, List.mem_replicate] at h
    obtain ⟨l, ⟨-, rfl⟩, h⟩ := h
    simp at h
  have h : ∃ fs, FontSet.read (tape fileBuild sampleFont) 0 = (.ok fs, 38) := ⟨_, rfl⟩
  obtain ⟨fs, h⟩ := h
  have h' := C89_calm fileBuild sampleFont 0 _ hc
  rw [h] at h'
  exact ⟨hc, fs, _, Prod.ext h' rfl, h⟩

/-- The failure, if any, and how many answers are left. -/
def complaint (x : Upshot α × Feed) : Option (Nat × Nat) :=
  match x with
  | (.failed f, left) => some (f, left.answers.length)
  | _ => none

/-- A source that fails at the twenty-first request: this is reported, and the rest is left. -/
example : complaint (Source.readFontSet (tape (atEnd fileBuild) sampleFont) ⟨0, List.replicate 20 (.upTo 0) ++ [.failure 5, .upTo 7, .failure 6]⟩) =
    some (5, 2) := by decide +kernel

/-- A number of two bytes, of which the second cannot be read; a dictionary likewise. -/
example : complaint (Source.readNumber (tape (atEnd fileBuild) [247, 3]) ⟨0, [.upTo 9, .failure 1]⟩) = some (1, 0) ∧
    complaint (Source.readOperations (tape (atEnd fileBuild) [247, 3, 5]) ⟨0, [.upTo 0, .upTo 0, .upTo 9, .upTo 0, .failure 1, .upTo 2]⟩) = some (1, 1) := by
  decide +kernel

/-- A failure in `peek`, and one of the seek after it, which is the one reported. -/
example : complaint (Source.readOperations (tape (atEnd fileBuild) [247, 3, 5]) ⟨0, [.upTo 0, .failure 1, .failure 2, .upTo 2]⟩) = some (2, 1) := by
  decide +kernel

end PS
