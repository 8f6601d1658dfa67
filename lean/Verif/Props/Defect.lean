import Verif.Lemmas.DefectTables
import Verif.Props.FontSet
/-!
# Property C76: a font set that cannot be read fails as its first defect says
-/
namespace PS
open Spec

/-- **C76.**  Reading a font set fails, with an error or with a panic, exactly when there
is something wrong with the file that this failure stands for. -/
theorem C76_failure_iff (cfg : Config) (data : List UInt8) (hdata : data.length < 2 ^ 61) (base : Nat) (f : Failure) :
    (∃ q, FontSet.read (tape cfg data) base = (f.result, q)) ↔ FontSetFault cfg data base f :=
  fails_fontSet (env := tape cfg data) hdata

/-- A computation ends in one way. -/
theorem ends_one_way {α : Type} (r : Res α) : (∃ a, r = .ok a ∧ ∀ f : Failure, r ≠ f.result) ∨ ∃ f : Failure, r = f.result ∧
    (∀ a, r ≠ .ok a) ∧ ∀ f' : Failure, r = f'.result → f' = f := by
  rcases r with a | e | x
  · exact .inl ⟨a, rfl, fun f => by cases f <;> simp [Failure.result]⟩
  · refine .inr ⟨.error e, rfl, by simp, fun f' h => ?_⟩
    cases f' <;> simp [Failure.result] at h
    rw [h]
  · refine .inr ⟨.panic x, rfl, by simp, fun f' h => ?_⟩
    cases f' <;> simp [Failure.result] at h
    rw [h]

/-- **C76.**  Either a font set is laid out at the position, and nothing is wrong; or none
is, and there is exactly one thing to blame. -/
theorem C76_one_of (cfg : Config) (data : List UInt8) (hdata : data.length < 2 ^ 61) (base : Nat) :
    ((∃ fs, LaidOut (machine cfg base) data base fs) ∧ ∀ f, ¬ FontSetFault cfg data base f) ∨
    ((∀ fs, ¬ LaidOut (machine cfg base) data base fs) ∧ ∃ f, FontSetFault cfg data base f ∧
      ∀ f', FontSetFault cfg data base f' → f' = f) := by
  rcases hr : FontSet.read (tape cfg data) base with ⟨r, q⟩
  have hok : ∀ fs, LaidOut (machine cfg base) data base fs ↔ r = .ok fs := by
    intro fs
    refine (fontSet_iff (tape cfg data) hdata base fs).symm.trans ?_
    rw [hr]
    simp
  have hf : ∀ f, FontSetFault cfg data base f ↔ r = f.result := by
    intro f
    rw [← C76_failure_iff cfg data hdata, hr]
    simp
  simp only [hok, hf]
  rcases ends_one_way r with ⟨a, h1, h2⟩ | ⟨f, h1, h2, h3⟩
  · exact .inl ⟨⟨a, h1⟩, h2⟩
  · exact .inr ⟨h2, f, h1, h3⟩

/-- **C76**, for the tables that can be read on their own: an INDEX, -/
theorem C76_index_iff (cfg : Config) (data : List UInt8) (p : Nat) (f : Failure) :
    (∃ q, Index.read (tape cfg data) p = (f.result, q)) ↔ IndexFault data p f :=
  fails_index (env := tape cfg data)

/-- an encoding, -/
theorem C76_encoding_iff (cfg : Config) (data : List UInt8) (p : Nat) (f : Failure) :
    (∃ q, Encoding.read (tape cfg data) p = (f.result, q)) ↔ CustomEncodingFault data p f :=
  fails_customEncoding (env := tape cfg data)

/-- a character set, of a font whose number of glyphs is that of an INDEX, -/
theorem C76_characterSet_iff (cfg : Config) (data : List UInt8) (hdata : data.length < 2 ^ 61) (p : Nat) (glyphs : UInt16)
    (f : Failure) : (∃ q, CharacterSet.read glyphs.toNat (tape cfg data) p = (f.result, q)) ↔
      CustomSetFault cfg data p glyphs.toNat f :=
  fails_customSet (env := tape cfg data) hdata glyphs

/-- and a dictionary. -/
theorem C76_dictionary_iff (cfg : Config) (chunk : List UInt8) (f : Failure) :
    Operations.ofBytes cfg chunk = f.result ↔ DictFault chunk f := fails_ofBytes

/-- **C76.**  The same for counting fonts: only the header and the number of names are
looked at. -/
theorem C76_count_iff (cfg : Config) (data : List UInt8) (base : Nat) (f : Failure) :
    (∃ q, FontSet.count (tape cfg data) base = (f.result, q)) ↔ CountFault cfg data base f := by
  show Fails (tape cfg data) FontSet.count base f ↔ _
  unfold FontSet.count
  rw [show ∀ g : Nat → Rd Nat, Fails (tape cfg data) (Rd.position >>= g) base f ↔ Fails (tape cfg data) (g base) base f from
    fun _ => Iff.rfl, Wide.header.fails_bind exact_header]
  simp only [fails_jumpTo_bind, Fails.map, Wide.u16.fails]
  constructor
  · rintro (⟨rfl, h, -⟩ | ⟨hd, _, rfl, h0, h | ⟨p, hp, rfl, h, -⟩⟩)
    · exact .header h
    · exact .reach h0 h
    · exact .names ⟨_, h0, hp⟩ h
  · intro hf
    cases hf with
    | header h => exact .inl ⟨rfl, h, by omega⟩
    | reach h0 h => exact .inr ⟨_, _, rfl, h0, .inl h⟩
    | names hb h =>
      obtain ⟨_, h0, hp⟩ := hb
      exact .inr ⟨_, _, rfl, h0, .inr ⟨_, hp, rfl, h, by omega⟩⟩

/-! ## Which failures there are -/

/-- The failures that there are. -/
def Known (f : Failure) : Prop :=
  (∃ r ∈ complaints, f = complaint r) ∨ f = ends ∨ f = .error .seek ∨ f = .panic .overflow ∨ f = .panic .capacity

namespace Known

theorem complaint {r : Reason} (h : r ∈ complaints) : Known (complaint r) := .inl ⟨r, h, rfl⟩
theorem ends : Known ends := .inr (.inl rfl)
theorem seek : Known (.error .seek) := .inr (.inr (.inl rfl))
theorem overflow : Known (.panic .overflow) := .inr (.inr (.inr (.inl rfl)))
theorem capacity : Known (.panic .capacity) := .inr (.inr (.inr (.inr rfl)))

variable {cfg : Config} {data : List UInt8} {base p glyphs : Nat} {top : Operations} {f : Failure}

/-- Close a case: the failure is on the list. -/
macro "known" : tactic => `(tactic| first
  | exact Known.complaint (by decide) | exact Known.ends | exact Known.seek | exact Known.overflow | exact Known.capacity)

theorem address {o : Int} (h : AddressFault cfg base o f) : Known f := by cases h <;> known
theorem index (h : IndexFault data p f) : Known f := by cases h <;> known
theorem dict {chunk : List UInt8} (h : DictFault chunk f) : Known f := by cases h <;> known
theorem dicts {chunks : List (List UInt8)} (h : DictsFault chunks f) : Known f := by
  obtain ⟨_, _, _, _, _, h⟩ := h
  exact dict h
theorem int {op : Operator} (h : IntFault top op f) : Known f := by cases h <;> known
theorem select (h : SelectFault data p glyphs f) : Known f := by cases h <;> known
theorem customSet (h : CustomSetFault cfg data p glyphs f) : Known f := by cases h <;> known
theorem customEncoding (h : CustomEncodingFault data p f) : Known f := by cases h <;> known

theorem priv (h : PrivateFault cfg data base top f) : Known f := by
  cases h <;> first | known | exact address (by assumption) | exact dict (by assumption) | exact index (by assumption)

theorem cid (h : CIDFault cfg data base top glyphs f) : Known f := by
  cases h <;> first | known | exact int (by assumption) | exact address (by assumption) | exact select (by assumption) | exact index (by assumption) | exact dicts (by assumption) | exact priv (by assumption)

theorem record (h : RecordFault cfg data base top glyphs f) : Known f := by
  cases h with
  | identifiers _ h => exact cid h
  | names _ h => exact priv h

theorem font (h : FontFault cfg data base top f) : Known f := by
  cases h with
  | strings h => cases h <;> first | known | exact int (by assumption) | exact address (by assumption) | exact index (by assumption)
  | set _ h => cases h <;> first | exact int (by assumption) | exact address (by assumption) | exact customSet (by assumption)
  | encoding _ _ h => cases h <;> first | exact int (by assumption) | exact address (by assumption) | exact customEncoding (by assumption)
  | record _ _ _ h => exact record h

theorem fontSet (h : FontSetFault cfg data base f) : Known f := by
  cases h <;> first | known | exact address (by assumption) | exact index (by assumption) | exact dicts (by assumption) | exact font (by assumption)

end Known

/-- A font with the top dictionary `top`, no strings, no global subroutines and `rest`
behind, at 19 and the length of the dictionary. -/
def fontWith (top rest : List UInt8) : List UInt8 :=
  [1, 0, 4, 1] ++ [0, 1, 1, 1, 2, 65] ++ [0, 1, 1, 1, UInt8.ofNat (top.length + 1)] ++ top ++ [0, 0] ++ [0, 0] ++ rest

/-- For each complaint a font set that it is made about. -/
def defective : Reason → List UInt8
  | .malformedNumber => fontWith [30, 0xd0] [0, 0]
  | .malformedOffset => [1, 0, 4, 1] ++ [0, 1, 5, 1, 2, 65]
  | .malformedIndex => [1, 0, 4, 1] ++ [0, 1, 1, 2, 2, 65]
  | .unknownOperator => fontWith [12, 99] []
  | .malformedStringID => fontWith [171, 17, 138, 141, 139, 12, 30, 173, 12, 37, 174, 12, 36] ([0, 0] ++ [0] ++ [0, 0])
  | .unknownCharacterStringFormat => fontWith [163, 17, 140, 12, 6] [0, 0]
  | .unknownCharacterSetFormat => fontWith [162, 17, 164, 15] ([0, 0] ++ [3])
  | .malformedCharacterSet => fontWith [162, 17, 164, 15] ([0, 0] ++ [1])
  | .unknownEncodingFormat => fontWith [162, 17, 164, 16] ([0, 0] ++ [2])
  | .malformedOperation => fontWith [30, 0x0f, 17] []
  | .missingOperation => fontWith [160, 17] [0, 0]
  | .malformedRecord => fontWith [164, 17, 140, 141, 12, 30] [0, 0]
  | .unknownDictionaryEncodingFormat => fontWith [168, 17, 140, 141, 139, 12, 30, 170, 12, 37] ([0, 0] ++ [1])
  | _ => []

/-- **C76.**  The complaints that reading a font set makes are those on the list, and each
of them is made about some file. -/
theorem C76_complaints (r : Reason) : r ∈ complaints ↔
    ∃ cfg data base q, data.length < 2 ^ 61 ∧ FontSet.read (tape cfg data) base = (.err (.raised r), q) := by
  constructor
  · intro h
    refine ⟨releaseBuild, defective r, 0, ?_⟩
    simp only [complaints, List.mem_cons, List.not_mem_nil, or_false] at h
    rcases h with rfl | rfl | rfl | rfl | rfl | rfl | rfl | rfl | rfl | rfl | rfl | rfl | rfl
    all_goals exact ⟨_, by decide, rfl⟩
  · rintro ⟨cfg, data, base, q, hd, h⟩
    have hf : FontSetFault cfg data base (complaint r) := (C76_failure_iff cfg data hd base _).mp ⟨q, h⟩
    rcases Known.fontSet hf with ⟨r', h1, h2⟩ | h | h | h | h
    · simp only [complaint, Failure.error.injEq, Err.raised.injEq] at h2
      exact h2 ▸ h1
    all_goals simp [complaint, ends] at h

/-- Reading from a file, where positions are signed. -/
def signedBuild : Config := ⟨false, true, 2 ^ 63 - 1, fun p _ => p⟩

/-- **C76.**  The other failures are that the file ends, that a position cannot be sought,
that something overflows, and that too much memory is asked for. -/
theorem C76_others (f : Failure) : (f = ends ∨ f = .error .seek ∨ f = .panic .overflow ∨ f = .panic .capacity) ↔
    (∀ r, f ≠ complaint r) ∧ ∃ cfg data base q, data.length < 2 ^ 61 ∧ FontSet.read (tape cfg data) base = (f.result, q) := by
  constructor
  · rintro (rfl | rfl | rfl | rfl)
    · exact ⟨by simp [ends, complaint], releaseBuild, [], 0, _, by decide, rfl⟩
    · exact ⟨by simp [complaint], signedBuild, negativeFont, 0, _, by decide, rfl⟩
    · exact ⟨by simp [complaint], checkedBuild, noGlyphs, 0, _, by decide, rfl⟩
    · exact ⟨by simp [complaint], releaseBuild, noGlyphs, 0, _, by decide, rfl⟩
  · rintro ⟨hn, cfg, data, base, q, hd, h⟩
    rcases Known.fontSet ((C76_failure_iff cfg data hd base f).mp ⟨q, h⟩) with ⟨r, -, h1⟩ | h
    · exact absurd h1 (hn r)
    · exact h

/-- **C36.**  When reading a font set panics. -/
theorem C36_panic_iff_partial (cfg : Config) (data : List UInt8) (hdata : data.length < 2 ^ 61) (base : Nat) (x : Panic) :
    (∃ q, FontSet.read (tape cfg data) base = (.panic x, q)) ↔ FontSetFault cfg data base (.panic x) :=
  C76_failure_iff cfg data hdata base (.panic x)

/-- The names of a font set are cut short. -/
example : ∃ q, FontSet.read (tape checkedBuild [1, 0, 4, 1, 0, 2, 1, 1, 3]) 0 = (ends.result, q) := ⟨_, rfl⟩

/-- What is wrong then: the file ends within the offsets. -/
example : FontSetFault checkedBuild [1, 0, 4, 1, 0, 2, 1, 1, 3] 0 ends :=
  .names (p := 4) ⟨⟨1, 0, 4, 1⟩, ⟨[0, 2, 1, 1, 3], rfl⟩, machine_addr.mpr (by decide)⟩
    (.offsets (n := 2) (w := 1) (by decide) (by decide) ⟨[1, 3], rfl⟩ (by decide) (by decide) (by decide))

end PS
