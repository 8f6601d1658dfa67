import Verif.Props.GlyphName
import Verif.Props.Writer
import Verif.Spec.Codes
import Mathlib.Data.List.Nodup
/-!
# Property C80: character codes lead to glyphs
-/
namespace PS
open Spec

/-- **C80.**  With a predefined encoding, the glyphs of a code are those with the identifier
that `get` gives for it, unless this is `.notdef`. -/
theorem C80_predefined (s : CharacterSet) (e : Encoding) (he : PredefinedEncoding e) (code : UInt16) (g : Nat) :
    Leads s e code.toNat g ↔ ∃ sid, e.get code = some sid ∧ sid ≠ 0 ∧ (sids s)[g]? = some sid.toNat := by
  have key : ∀ (codes : List (Nat × Nat × Nat)), (∀ sid : UInt16, e.get code = some sid ↔
      code.toNat < 256 ∧ sid.toNat = codeSID codes code.toNat) → (code.toNat < 256 → codeSID codes code.toNat < 391) →
      ((code.toNat < 256 ∧ codeSID codes code.toNat ≠ 0 ∧ (sids s)[g]? = some (codeSID codes code.toNat)) ↔
        ∃ sid, e.get code = some sid ∧ sid ≠ 0 ∧ (sids s)[g]? = some sid.toNat) := by
    intro codes h1 h2
    have h0 : ∀ x : UInt16, x ≠ 0 ↔ x.toNat ≠ 0 := fun x => not_congr UInt16.toNat_inj.symm
    constructor
    · rintro ⟨a, b, c⟩
      have : (UInt16.ofNat (codeSID codes code.toNat)).toNat = codeSID codes code.toNat :=
        UInt16.toNat_ofNat_of_lt' (by have := h2 a; simp only [UInt16.size]; omega)
      exact ⟨UInt16.ofNat (codeSID codes code.toNat), (h1 _).mpr ⟨a, this⟩, by rw [h0, this]; exact b, by rw [this]; exact c⟩
    · rintro ⟨sid, a, b, c⟩
      obtain ⟨a1, a2⟩ := (h1 _).mp a
      rw [h0, a2] at b
      rw [a2] at c
      exact ⟨a1, b, c⟩
  rcases he with rfl | rfl
  · exact key standardCodes (fun sid => (C26_encodings code sid).1) fun h => (codeSID_lt _ h).1
  · exact key expertCodes (fun sid => (C26_encodings code sid).2) fun h => (codeSID_lt _ h).2

theorem sids_nodup {s : CharacterSet} (hs : PredefinedSet s) : (sids s).Nodup := by
  rcases hs with rfl | rfl | rfl
  · exact List.nodup_range
  · show expertGlyphs.Nodup; decide +kernel
  · show expertSubsetGlyphs.Nodup; decide +kernel

/-- **C80**, the part that holds: with a predefined encoding and a predefined character
set, or any one without repetitions, a code leads to at most one glyph, no two codes lead
to the same one, and none leads to `.notdef`.  Missing: custom encodings and character
sets, for which the claim is false. -/
theorem C80_one_partial (s : CharacterSet) (hs : PredefinedSet s ∨ (sids s).Nodup) (e : Encoding) (he : PredefinedEncoding e)
    (code code' : UInt16) (g g' : Nat) (h : Leads s e code.toNat g) (h' : Leads s e code'.toNat g') :
    (code = code' ↔ g = g') ∧ ((sids s)[0]? = some 0 → g ≠ 0) := by
  have hn : (sids s).Nodup := hs.elim sids_nodup id
  rw [C80_predefined s e he] at h h'
  obtain ⟨sid, a1, a2, a3⟩ := h
  obtain ⟨sid', b1, b2, b3⟩ := h'
  refine ⟨⟨?_, ?_⟩, ?_⟩
  · rintro rfl
    obtain rfl : sid = sid' := by simpa [a1] using b1
    obtain ⟨l1, -⟩ := List.getElem?_eq_some_iff.mp a3
    exact (List.getElem?_inj l1 hn).mp (a3.trans b3.symm)
  · rintro rfl
    have : sid = sid' := UInt16.toNat_inj.mp (by simpa [a3] using b3)
    subst this
    refine (C26_unambiguous code code' sid ?_).resolve_right a2
    rcases he with rfl | rfl
    · exact .inl ⟨a1, b1⟩
    · exact .inr ⟨a1, b1⟩
  · rintro h0 rfl
    rw [h0] at a3
    exact a2 (UInt16.toNat_inj.mp (by simpa using a3.symm))

/-- The codes 65 and 97 of the standard encoding lead to the glyphs 34 and 66. -/
example : Leads .isoAdobe .standard (65 : UInt16).toNat 34 ∧ Leads .isoAdobe .standard (97 : UInt16).toNat 66 ∧
    ((65 : UInt16) = 97 ↔ 34 = 66) := by
  have key : ∀ code g : Nat, code < 256 → g < 229 → codeSID standardCodes code = g → g ≠ 0 → Leads .isoAdobe .standard code g := by
    intro code g h1 h2 h3 h4
    refine ⟨h1, by rw [h3]; exact h4, ?_⟩
    show (List.range 229)[g]? = _
    rw [List.getElem?_range h2, h3]
  have h1 := key 65 34 (by decide) (by decide) (by decide +kernel) (by decide)
  have h2 := key 97 66 (by decide) (by decide) (by decide +kernel) (by decide)
  exact ⟨h1, h2, (C80_one_partial .isoAdobe (.inl (.inl rfl)) .standard (.inl rfl) 65 97 34 66 h1 h2).1⟩

/-- **C80**, the part that holds: Standard covers ISOAdobe's part and Expert covers Expert:
each code that is not `.notdef` leads to a glyph. -/
theorem C80_covered_partial (code sid : UInt16) (h0 : sid ≠ 0) :
    (Encoding.standard.get code = some sid → ∃ g, g < 150 ∧ Leads .isoAdobe .standard code.toNat g) ∧
    (Encoding.expert.get code = some sid → ∃ g, g < 166 ∧ Leads .expert .expert code.toNat g) := by
  constructor
  · intro h
    obtain ⟨a, b⟩ := (C26_encodings code sid).1.mp h
    refine ⟨sid.toNat, ?_, (C80_predefined _ _ (.inl rfl) _ _).mpr ⟨sid, h, h0, ?_⟩⟩
    · have : ∀ c < 256, codeSID standardCodes c < 150 := by decide +kernel
      rw [b]; exact this _ a
    · have : ∀ c < 256, codeSID standardCodes c < 150 := by decide +kernel
      have := this _ a
      show (List.range 229)[sid.toNat]? = _
      rw [List.getElem?_range (by omega)]
  · intro h
    obtain ⟨a, b⟩ := (C26_encodings code sid).2.mp h
    have key : ∀ c < 256, codeSID expertCodes c ∈ expertGlyphs := by decide +kernel
    obtain ⟨g, hg⟩ := List.mem_iff_getElem?.mp (key _ a)
    refine ⟨g, ?_, (C80_predefined _ _ (.inr rfl) _ _).mpr ⟨sid, h, h0, ?_⟩⟩
    · have := (List.getElem?_eq_some_iff.mp hg).1
      have e : expertGlyphs.length = 166 := by decide +kernel
      omega
    · rw [b]; exact hg

example : ∃ g, g < 166 ∧ Leads .expert .expert (48 : UInt16).toNat g :=
  (C80_covered_partial 48 239 (by decide)).2 (by decide +kernel)

/-- **C80**, the part that holds: with a predefined encoding and a predefined character
set, the code, the glyph and its identifier have one and the same name, for whoever asks. -/
theorem C80_names_partial (strings : Index) (s : CharacterSet) (hs : PredefinedSet s) (e : Encoding) (he : PredefinedEncoding e)
    (code : UInt16) (g : Nat) (h : Leads s e code.toNat g) :
    ∃ sid name, e.get code = some sid ∧ s.get sid = some name ∧ strings.getString sid = some name ∧
      glyphName (sids s) g = some name := by
  obtain ⟨sid, a1, a2, a3⟩ := (C80_predefined s e he code g).mp h
  obtain ⟨name, n1, n2⟩ := C26_standard_strings strings code sid (by rcases he with rfl | rfl <;> simp [a1])
  have hm := List.mem_of_getElem? a3
  have h0 : sid.toNat ≠ 0 := fun h => a2 (UInt16.toNat_inj.mp h)
  refine ⟨sid, name, a1, ?_, n2, by rw [glyphName, a3]; exact n1⟩
  rcases hs with rfl | rfl | rfl
  · rw [C24_iso_adobe]
    have : sid.toNat < 229 := by simpa [sids, isoAdobeGlyphs] using hm
    exact ⟨by omega, by omega, n1⟩
  · rw [C24_expert]; exact ⟨hm, h0, n1⟩
  · rw [C24_expert_subset]; exact ⟨hm, h0, n1⟩

/-- The code 48 of the expert encoding leads to glyph 16 of Expert, `zerooldstyle`. -/
example (strings : Index) : ∃ sid name, Encoding.expert.get 48 = some sid ∧ CharacterSet.expert.get sid = some name ∧
    strings.getString sid = some name ∧ glyphName (sids .expert) 16 = some name :=
  C80_names_partial strings .expert (.inr (.inl rfl)) .expert (.inr rfl) 48 16 ⟨by decide, by decide +kernel, by decide +kernel⟩

/-- **C80** does not hold for any custom encoding: whatever a code leads to, `get` gives
nothing for it. -/
theorem C80_custom_lost (s : CharacterSet) (e : Encoding) (he : Encodable e) (code : UInt16) (g : Nat)
    (_ : Leads s e code.toNat g) : e.get code = none := C26_custom e he code

/-- A custom encoding leads from 66 to glyph 2, and does not tell. -/
example : Leads .isoAdobe (.format1 1 1 [⟨65, 2⟩]) (66 : UInt16).toNat 2 ∧ (Encoding.format1 1 1 [⟨65, 2⟩]).get 66 = none := by
  have h : Leads .isoAdobe (.format1 1 1 [⟨65, 2⟩]) (66 : UInt16).toNat 2 := ⟨by decide, by decide, by decide⟩
  exact ⟨h, C80_custom_lost _ (.format1 1 1 [⟨65, 2⟩]) ⟨rfl, rfl⟩ _ _ h⟩

/-- **C80**, what would be needed of a custom encoding that was read: codes lead to one
glyph each if and only if no code is repeated, and to glyphs that are there if and only if
there are not more codes than glyphs, apart from `.notdef`. -/
theorem C80_custom_iff (s : CharacterSet) (e : Encoding) (hf : (∃ f n codes, e = .format0 f n codes) ∨ ∃ f n ranges, e = .format1 f n ranges)
    (hc : ∀ c ∈ codesOf e, c < 256) (glyphs : Nat) :
    ((∀ code g g', Leads s e code g → Leads s e code g' → g = g') ↔ (codesOf e).Nodup) ∧
    ((∀ code g, Leads s e code g → g < 1 + glyphs) ↔ (codesOf e).length ≤ glyphs) := by
  have hl : ∀ code g, Leads s e code g ↔ 1 ≤ g ∧ (codesOf e)[g - 1]? = some code := by
    intro code g
    have : Leads s e code g ↔ code < 256 ∧ 1 ≤ g ∧ (codesOf e)[g - 1]? = some code := by
      rcases hf with ⟨f, n, x, rfl⟩ | ⟨f, n, x, rfl⟩ <;> rfl
    rw [this]
    exact ⟨fun h => h.2, fun h => ⟨hc _ (List.mem_of_getElem? h.2), h⟩⟩
  simp only [hl]
  constructor
  · rw [List.nodup_iff_getElem?_ne_getElem?]
    constructor
    · intro h i j hij hj heq
      obtain ⟨c, hcj⟩ : ∃ c, (codesOf e)[j]? = some c := ⟨_, List.getElem?_eq_getElem hj⟩
      have := h c (i + 1) (j + 1) ⟨by omega, by rw [Nat.add_sub_cancel, heq, hcj]⟩ ⟨by omega, by rw [Nat.add_sub_cancel, hcj]⟩
      omega
    · rintro h code g g' ⟨a1, a2⟩ ⟨b1, b2⟩
      have l1 := (List.getElem?_eq_some_iff.mp a2).1
      have l2 := (List.getElem?_eq_some_iff.mp b2).1
      rcases Nat.lt_trichotomy g g' with hlt | rfl | hlt
      · exact (h (g - 1) (g' - 1) (by omega) l2 (a2.trans b2.symm)).elim
      · rfl
      · exact (h (g' - 1) (g - 1) (by omega) l1 (b2.trans a2.symm)).elim
  · constructor
    · intro h
      by_contra hc
      obtain ⟨c, hcj⟩ : ∃ c, (codesOf e)[glyphs]? = some c := ⟨_, List.getElem?_eq_getElem (by omega)⟩
      have := h c (glyphs + 1) ⟨by omega, by rw [Nat.add_sub_cancel, hcj]⟩
      omega
    · rintro h code g ⟨a1, a2⟩
      have l1 := (List.getElem?_eq_some_iff.mp a2).1
      omega

/-! ## A font set whose encoding is ambiguous -/

/-- A font with the glyphs `.notdef` and `A` and three times the code 65. -/
def ambiguousDef : FontSetDef where
  names := [[65]]
  strings := []
  globals := []
  fonts := [
    { entries := ⟨[], []⟩
      codes := [[14], [14]]
      set := .format0 0 [34]
      encoding := .format0 0 3 [65, 65, 66]
      keying := .names ⟨⟨[], []⟩, []⟩ }]

theorem ambiguousDef_valid : ambiguousDef.Valid := by
  have fits : ∀ {items : List (List UInt8)}, items.length ≤ 65535 → 1 + items.flatten.length < 2 ^ 32 → IndexFits 4 items :=
    fun h1 h2 => ⟨h1, by omega, by omega, h2⟩
  refine ⟨fits (by decide) (by decide), fits (by decide) (by decide), fits (by decide) (by decide), by decide, ?_, by decide +kernel⟩
  intro f hf
  simp only [ambiguousDef, List.mem_cons, List.not_mem_nil, or_false] at hf
  subst hf
  exact ⟨⟨.nil, by decide⟩, fits (by decide) (by decide), .inr ⟨rfl, rfl⟩, .inr ⟨rfl, rfl⟩,
      ⟨.nil, by decide⟩, fits (by decide) (by decide)⟩

/-- **C80** does not hold: a font set can be read in which a code leads to two glyphs, and
in which codes lead to glyphs that there are not. -/
theorem C80_ambiguous : ∃ (data : List UInt8) (fs : FontSet) (q : Nat) (s : CharacterSet) (e : Encoding) (cs : Index),
    FontSet.read (tape checkedBuild data) 0 = (.ok fs, q) ∧ fs.characterSets = [s] ∧ fs.encodings = [e] ∧
    fs.characterStrings = [cs] ∧ Leads s e 65 1 ∧ Leads s e 65 2 ∧ Leads s e 66 3 ∧ cs.data.length = 2 := by
  obtain ⟨fs, q, h, hin⟩ := C60_round_trip ambiguousDef_valid checkedBuild [] [] (by decide +kernel) (by decide)
  rw [List.nil_append, List.append_nil] at h
  obtain ⟨-, -, -, -, h5, h6, h7, -⟩ := hin
  obtain ⟨cs, hcs, hd⟩ : ∃ cs, fs.characterStrings = [cs] ∧ cs.data = [[14], [14]] := by
    generalize fs.characterStrings = l at h5
    simp only [ambiguousDef] at h5
    cases h5 with
    | cons a b => cases b; exact ⟨_, rfl, a⟩
  exact ⟨_, fs, q, _, _, cs, h, h6, h7, hcs, ⟨by decide, by decide, rfl⟩, ⟨by decide, by decide, rfl⟩, ⟨by decide, by decide, rfl⟩,
    by rw [hd]; rfl⟩

/-- `A` is at 65 in Standard; Expert has old style figures at 48. -/
example : Leads .isoAdobe .standard 65 34 ∧ Leads .expert .expert 48 16 ∧ ¬ (∃ g, Leads .expertSubset .expert 33 g) := by
  refine ⟨⟨by decide, by decide +kernel, ?_⟩, ⟨by decide, by decide +kernel, by decide +kernel⟩, ?_⟩
  · show (List.range 229)[34]? = _
    rw [List.getElem?_range (by omega)]
    decide +kernel
  · rintro ⟨g, -, -, h⟩
    have := List.mem_of_getElem? h
    revert this
    show ¬ codeSID expertCodes 33 ∈ expertSubsetGlyphs
    decide +kernel

example : (codesOf (.format1 1 2 [⟨65, 2⟩, ⟨97, 0⟩])) = [65, 66, 67, 97] ∧ ∀ c ∈ codesOf (.format1 1 2 [⟨65, 2⟩, ⟨97, 0⟩]), c < 256 := by
  decide +kernel

end PS
