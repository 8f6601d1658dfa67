import Verif.Lemmas.Strings
import Verif.Lemmas.Reader
import Verif.Model.Number
/-!
# Properties C17–C20: strings, names and string identifiers
-/
namespace PS
open Spec

/-- **C17.**  Identifiers below 391 give the standard strings. -/
theorem C17_standard (strings : Index) (id : UInt16) (h : id.toNat < 391) :
    ∃ s, strings.getString id = some s ∧ standardStringList[id.toNat]? = some s := by
  have hl : id.toNat < standardStringList.length := by rw [standardStringList_length]; exact h
  refine ⟨standardStringList[id.toNat], ?_, List.getElem?_eq_getElem hl⟩
  unfold Index.getString
  simp only [numberOfStandardStrings, if_pos h, getStandardString_eq]
  exact List.getElem?_eq_getElem hl

/-- **C17.**  The following identifiers give the custom strings in order, as long
as there are any, decoded as text. -/
theorem C17_custom (strings : Index) (id : UInt16) (h : 391 ≤ id.toNat) :
    (∀ chunk, strings.data[id.toNat - 391]? = some chunk →
      ∃ s, strings.getString id = some s ∧ Decodes chunk s.toList) ∧
    (strings.data.length ≤ id.toNat - 391 → strings.getString id = none) := by
  unfold Index.getString
  have hn : ¬ id.toNat < numberOfStandardStrings := by unfold numberOfStandardStrings; omega
  simp only [if_neg hn]
  unfold numberOfStandardStrings
  refine ⟨?_, ?_⟩
  · intro chunk hc
    rw [hc]
    exact ⟨_, rfl, lossy_decodes chunk⟩
  · intro hl
    rw [List.getElem?_eq_none hl]
    rfl

/-- **C17.**  Every custom string that an identifier can address is reached, by its
position plus 391 and by no other identifier from 391 on. -/
theorem C17_reachable (strings : Index) (i : Nat) (h : i < strings.data.length) (hi : i + 391 < 65536) :
    ∃ id : UInt16, 391 ≤ id.toNat ∧ (∃ s, strings.getString id = some s ∧ Decodes strings.data[i] s.toList) ∧
      id.toNat - 391 = i ∧ ∀ id' : UInt16, 391 ≤ id'.toNat → id'.toNat - 391 = i → id' = id := by
  have ht : (UInt16.ofNat (i + 391)).toNat = i + 391 := UInt16.toNat_ofNat_of_lt' hi
  refine ⟨UInt16.ofNat (i + 391), by omega, ?_, by omega, ?_⟩
  · refine (C17_custom strings _ (by omega)).1 _ ?_
    rw [ht, Nat.add_sub_cancel, List.getElem?_eq_getElem h]
  · intro id' h1 h2
    apply UInt16.toNat_inj.mp
    omega

/-- **C17.**  No other identifier depends on a custom string: if only the `i`-th string is
changed, only the identifier `i + 391` can lead to something else, if there is such an
identifier at all. -/
theorem C17_only (strings strings' : Index) (i : Nat) (hsame : ∀ j, j ≠ i → strings.data[j]? = strings'.data[j]?)
    (id : UInt16) (h : id.toNat ≠ i + 391) : strings.getString id = strings'.getString id := by
  unfold Index.getString
  by_cases hid : id.toNat < 391
  · simp [numberOfStandardStrings, hid]
  · simp only [numberOfStandardStrings, hid, if_false]
    rw [hsame _ (by omega)]

/-- An INDEX with two custom strings, "AB" and an invalid byte. -/
example : (Index.mk 2 1 [1, 3, 4] [[65, 66], [0xff]]).getString 391 = some "AB" ∧
    (Index.mk 2 1 [1, 3, 4] [[65, 66], [0xff]]).getString 392 = some "\uFFFD" ∧
    (Index.mk 2 1 [1, 3, 4] [[65, 66], [0xff]]).getString 393 = none ∧
    (Index.mk 2 1 [1, 3, 4] [[65, 66], [0xff]]).getString 390 = some "Semibold" := by
  refine ⟨?_, ?_, ?_, ?_⟩ <;> decide +kernel

/-- Changing the second string of two does not change what the identifier 391 leads to. -/
example : (Index.mk 2 1 [1, 3, 4] [[65, 66], [0xff]]).getString 391 = (Index.mk 2 1 [1, 3, 4] [[65, 66], [67]]).getString 391 :=
  C17_only _ _ 1 (fun j hj => match j, hj with
    | 0, _ => rfl
    | j + 2, _ => by simp) 391 (by decide)

/-- **C18.**  The standard strings are those of the specification, for every
identifier. -/
theorem C18_standard_strings (id : UInt16) : getStandardString id = standardStringList[id.toNat]? :=
  getStandardString_eq id

/-- **C18.**  Exactly the identifiers from 0 to 390 have a standard string. -/
theorem C18_standard_complete (id : UInt16) : (∃ s, getStandardString id = some s) ↔ id.toNat < 391 := by
  rw [getStandardString_eq]
  constructor
  · rintro ⟨s, h⟩
    have := (List.getElem?_eq_some_iff.mp h).1
    rwa [standardStringList_length] at this
  · intro h
    exact ⟨_, List.getElem?_eq_getElem (by rw [standardStringList_length]; exact h)⟩

/-- **C18.**  No two identifiers share a standard string. -/
theorem C18_standard_unambiguous {id id' : UInt16} {s : String} (h : getStandardString id = some s)
    (h' : getStandardString id' = some s) : id = id' := by
  rw [getStandardString_eq] at h h'
  obtain ⟨hl, he⟩ := List.getElem?_eq_some_iff.mp h
  obtain ⟨hl', he'⟩ := List.getElem?_eq_some_iff.mp h'
  exact UInt16.toNat_inj.mp ((List.Nodup.getElem_inj_iff standardStringList_nodup).mp (he.trans he'.symm))

example : getStandardString 390 = some "Semibold" := by decide +kernel

/-- **C19.**  A custom string or a name that is the encoding of a text decodes to
that text. -/
theorem C19_utf8_exact (text : String) :
    Utf8.lossy (encodeText text) = text ∧ Utf8.strict (encodeText text) = some text := by
  unfold Utf8.lossy Utf8.strict encodeText
  rw [Utf8.chunks_enc]
  constructor
  · rw [List.map_map]
    have : (fun c : Option Char => c.getD '�') ∘ some = id := rfl
    rw [this, List.map_id, String.ofList_toList]
  · have : (List.map some text.toList).all Option.isSome = true := by simp
    rw [if_pos this]
    congr 1
    rw [List.filterMap_map]
    have : (id : Option Char → Option Char) ∘ some = some := rfl
    rw [this, List.filterMap_some, String.ofList_toList]

/-- **C19.**  Anything else is not taken for valid text. -/
theorem C19_utf8_strict {bs : List UInt8} {text : String} (h : Utf8.strict bs = some text) : bs = encodeText text := by
  unfold Utf8.strict at h
  split at h
  · rename_i ha
    injection h with h
    subst h
    unfold encodeText
    rw [String.toList_ofList]
    exact Utf8.chunks_all_some _ bs le_rfl ha
  · simp at h

/-- **C19.**  Any byte string decodes to text, with a replacement character for each
maximal invalid subpart; and there is only one such text. -/
theorem C19_utf8_lossy (bs : List UInt8) :
    Decodes bs (Utf8.lossy bs).toList ∧ ∀ text, Decodes bs text → text = (Utf8.lossy bs).toList := by
  refine ⟨lossy_decodes bs, fun text h => ?_⟩
  unfold Utf8.lossy
  rw [String.toList_ofList]
  exact Utf8.decodes_unique h

/-- **C19.**  Converting names never fails, keeps their number and order, and decodes
each of them. -/
theorem C19_names (names : Index) :
    ∃ xs, names.toNames = .ok xs ∧ xs.length = names.data.length ∧
      ∀ (i : Nat) (chunk : List UInt8), names.data[i]? = some chunk → ∃ s, xs[i]? = some s ∧ Decodes chunk s.toList ∧
        ∀ text, chunk = encodeText text → s = text := by
  refine ⟨_, rfl, by simp, ?_⟩
  intro i chunk hc
  have he : ∀ text, chunk = encodeText text → Utf8.lossy chunk = text := by
    rintro text rfl
    exact (C19_utf8_exact text).1
  have hs : (match Utf8.strict chunk with
      | some string => string
      | none => Utf8.lossy chunk) = Utf8.lossy chunk := by
    rcases h : Utf8.strict chunk with _ | s
    · rfl
    · exact (he s (C19_utf8_strict h)).symm
  refine ⟨Utf8.lossy chunk, ?_, lossy_decodes chunk, he⟩
  rw [List.getElem?_map, hc, Option.map_some]
  exact congrArg some hs

/-- Two encoded characters, one of them of three bytes; and a cut encoding. -/
example : encodeText "A€" = [65, 0xe2, 0x82, 0xac] ∧ Utf8.lossy [65, 0xe2, 0x82] = "A\uFFFD" ∧
    Utf8.strict [65, 0xe2, 0x82] = none := by
  refine ⟨?_, ?_, ?_⟩ <;> decide +kernel

/-- **C20** does not hold as stated: integers above 65535 are accepted and lose
their upper half. -/
theorem C20_string_id_lossy : stringIDOfNumber (.integer 65536) = .ok 0 := by decide

/-- **C20**, the part that holds.  Missing: integers above 65535 are accepted and
taken modulo 65536 instead of being rejected. -/
theorem C20_string_id_partial (n : Number) (id : UInt16) :
    (stringIDOfNumber n = .ok id ↔ ∃ i : Int, n = .integer i ∧ 0 ≤ i ∧ (id.toNat : Int) = i % 65536) ∧
    (∀ i : Int, n = .integer i → 0 ≤ i → i ≤ 65535 → stringIDOfNumber n = .ok id → (id.toNat : Int) = i) ∧
    ((∃ i : Int, n = .integer i ∧ i < 0) ∨ (∃ x, n = .real x) →
      stringIDOfNumber n = .err (.raised .malformedStringID)) := by
  have key : ∀ i : Int, 0 ≤ i → ((UInt16.ofNat (toU 16 i)).toNat : Int) = i % 65536 := by
    intro i hi
    have h1 : toU 16 i < 65536 := toU_lt 16 i
    rw [UInt16.toNat_ofNat_of_lt' h1]
    unfold toU
    omega
  have main : stringIDOfNumber n = .ok id ↔ ∃ i : Int, n = .integer i ∧ 0 ≤ i ∧ (id.toNat : Int) = i % 65536 := by
    cases n with
    | real x => simp [stringIDOfNumber]
    | integer i =>
      unfold stringIDOfNumber
      by_cases hi : 0 ≤ i
      · simp only [if_pos hi, Res.ok.injEq, Number.integer.injEq]
        constructor
        · rintro rfl
          exact ⟨i, rfl, hi, key i hi⟩
        · rintro ⟨_, rfl, -, h⟩
          apply UInt16.toNat_inj.mp
          have := key _ hi
          omega
      · simp only [if_neg hi, reduceCtorEq, false_iff]
        rintro ⟨_, h, h0, -⟩
        injection h with h
        omega
  refine ⟨main, ?_, ?_⟩
  · rintro i rfl h0 h1 h
    obtain ⟨j, hj, -, h2⟩ := main.mp h
    injection hj with hj
    subst hj
    omega
  · rintro (⟨i, rfl, hi⟩ | ⟨x, rfl⟩)
    · simp [stringIDOfNumber, show ¬ 0 ≤ i by omega]
    · rfl

example : stringIDOfNumber (.integer 391) = .ok 391 ∧
    stringIDOfNumber (.integer (-1)) = .err (.raised .malformedStringID) := by decide

end PS
