import Verif.Spec.GlyphName
import Verif.Props.Writer
import Verif.Props.CharacterSet
import Verif.Props.Strings
/-!
# Properties: the names of glyphs
-/
namespace PS
open Spec

/-! ## C73 -/

/-- The glyph number `g` has a name: there is an identifier for it in the character set,
and looking the identifier up in the strings of the font set gives the string. -/
def Named (strings : Index) (s : CharacterSet) (g : Nat) : Prop :=
  ∃ id : UInt16, (sids s)[g]? = some id.toNat ∧ ∃ name, strings.getString id = some name ∧ StringOf strings.data id.toNat name

/-- **C73**, the full statement: each glyph of a font keyed by names that was read has a
name. -/
def C73Statement : Prop := ∀ (cfg : Config) (data : List UInt8) (base q : Nat) (fs : FontSet) (k : Nat) (cs : Index)
  (s : CharacterSet) (r : PrivateRecord), data.length < 2 ^ 61 → FontSet.read (tape cfg data) base = (.ok fs, q) →
  fs.characterStrings[k]? = some cs → fs.characterSets[k]? = some s → fs.records[k]? = some (.characterNameKeyed r) →
  ∀ g < cs.data.length, Named fs.strings s g

/-- **C73** Looking up an identifier gives the string that the specification has for it,
or nothing if there is none. -/
theorem C73_lookup (strings : Index) (id : UInt16) (name : String) :
    strings.getString id = some name ↔ StringOf strings.data id.toNat name := by
  by_cases h : id.toNat < 391
  · obtain ⟨s, h1, h2⟩ := C17_standard strings id h
    rw [h1, StringOf, h2]
    constructor
    · exact .inl
    · rintro (h' | ⟨h', -⟩)
      · exact h'
      · omega
  · have h391 : 391 ≤ id.toNat := by omega
    have hs : standardStringList[id.toNat]? = none :=
      List.getElem?_eq_none (by rw [standardStringList_length]; exact h391)
    rw [StringOf, hs]
    obtain ⟨c1, c2⟩ := C17_custom strings id h391
    constructor
    · intro hn
      cases hc : strings.data[id.toNat - 391]? with
      | none =>
        rw [c2 (List.getElem?_eq_none_iff.mp hc)] at hn
        simp at hn
      | some chunk =>
        obtain ⟨s, h1, h2⟩ := c1 chunk hc
        rw [h1] at hn
        injection hn with hn
        subst hn
        exact .inr ⟨h391, chunk, rfl, h2⟩
    · rintro (h' | ⟨-, chunk, hc, hd⟩)
      · simp at h'
      · obtain ⟨s, h1, h2⟩ := c1 chunk hc
        rw [h1]
        have e := (C19_utf8_lossy chunk).2
        rw [← String.ofList_toList (s := s), ← String.ofList_toList (s := name), e _ h2, e _ hd]

/-- **C73** An identifier can be looked up if and only if it is below 391 and the number
of strings of the font set together. -/
theorem C73_lookup_some (strings : Index) (id : UInt16) :
    (∃ name, strings.getString id = some name) ↔ id.toNat < 391 + strings.data.length := by
  by_cases h : id.toNat < 391
  · obtain ⟨s, h1, -⟩ := C17_standard strings id h
    exact ⟨fun _ => by omega, fun _ => ⟨s, h1⟩⟩
  · obtain ⟨c1, c2⟩ := C17_custom strings id (by omega)
    constructor
    · rintro ⟨name, hn⟩
      by_contra hl
      rw [c2 (by omega)] at hn
      simp at hn
    · intro hl
      obtain ⟨s, h1, -⟩ := c1 _ (List.getElem?_eq_getElem (by omega))
      exact ⟨s, h1⟩

/-- **C73** A glyph has a name if and only if the character set has an identifier for it
that fits 16 bits and is below 391 and the number of strings together. -/
theorem C73_named_iff (strings : Index) (s : CharacterSet) (g : Nat) :
    Named strings s g ↔ ∃ sid, (sids s)[g]? = some sid ∧ sid < 65536 ∧ sid < 391 + strings.data.length := by
  constructor
  · rintro ⟨id, h1, name, h2, -⟩
    exact ⟨_, h1, id.toNat_lt, (C73_lookup_some strings id).mp ⟨name, h2⟩⟩
  · rintro ⟨sid, h1, h2, h3⟩
    have e : (UInt16.ofNat sid).toNat = sid := UInt16.toNat_ofNat_of_lt' h2
    obtain ⟨name, hn⟩ := (C73_lookup_some strings (UInt16.ofNat sid)).mpr (by rw [e]; exact h3)
    exact ⟨UInt16.ofNat sid, by rw [e]; exact h1, name, hn, (C73_lookup strings _ name).mp hn⟩

theorem sids_length {s : CharacterSet} (h : Custom s) : (sids s).length = 1 + covered s := by
  cases s with
  | isoAdobe => exact h.elim
  | expert => exact h.elim
  | expertSubset => exact h.elim
  | format0 f gs => simp [sids, covered, Nat.add_comm]
  | format1 f rs => simp [sids, covered, Nat.add_comm, List.length_flatMap]
  | format2 f rs => simp [sids, covered, Nat.add_comm, List.length_flatMap]

theorem set_at {cfg : Config} {data : List UInt8} (hdata : data.length < 2 ^ 61) {base q : Nat} {fs : FontSet}
    (h : FontSet.read (tape cfg data) base = (.ok fs, q)) {k : Nat} {cs : Index} {s : CharacterSet}
    (hcs : fs.characterStrings[k]? = some cs) (hs : fs.characterSets[k]? = some s) :
    ∃ top, fs.operations[k]? = some top ∧ CharacterSetAt (machine cfg base) data top cs.data.length s := by
  obtain ⟨-, -, h1, -, -, h2, h3⟩ := (C32_layout_iff cfg data hdata base fs).mp ⟨q, h⟩
  have hk : k < fs.operations.length := by
    rw [← h1]
    exact (List.getElem?_eq_some_iff.mp hcs).1
  obtain ⟨cs', s', _, r', e1, e2, -, -, -, hset, -⟩ := h3 k _ (List.getElem?_eq_getElem hk)
  rw [hcs] at e1
  rw [hs] at e2
  injection e1 with e1
  injection e2 with e2
  subst e1 e2
  exact ⟨_, List.getElem?_eq_getElem hk, hset⟩

/-- **C73** A custom character set that was read has one identifier for each glyph, the
one of `.notdef` for the first. -/
theorem C73_identifiers (cfg : Config) (data : List UInt8) (hdata : data.length < 2 ^ 61) (base q : Nat) (fs : FontSet)
    (h : FontSet.read (tape cfg data) base = (.ok fs, q)) (k : Nat) (cs : Index) (s : CharacterSet)
    (hcs : fs.characterStrings[k]? = some cs) (hs : fs.characterSets[k]? = some s)
    (hc : s ≠ .isoAdobe ∧ s ≠ .expert ∧ s ≠ .expertSubset) :
    (sids s).length = cs.data.length ∧ (sids s)[0]? = some 0 := by
  obtain ⟨_, -, _, -, h⟩ := set_at hdata h hcs hs
  rcases h with ⟨-, h⟩ | ⟨-, h⟩ | ⟨-, h⟩ | ⟨-, -, -, _, -, h1, h2, -⟩
  · exact (hc.1 h).elim
  · exact (hc.2.1 h).elim
  · exact (hc.2.2 h).elim
  · refine ⟨(sids_length h1).trans h2, ?_⟩
    cases s <;> first | exact h1.elim | rfl

/-- **C73**, for the fonts whose identifiers exist.  What is missing: the code checks
neither that nor that a predefined character set has enough glyphs. -/
theorem C73_names_partial (cfg : Config) (data : List UInt8) (hdata : data.length < 2 ^ 61) (base q : Nat) (fs : FontSet)
    (h : FontSet.read (tape cfg data) base = (.ok fs, q)) (k : Nat) (cs : Index) (s : CharacterSet)
    (hcs : fs.characterStrings[k]? = some cs) (hs : fs.characterSets[k]? = some s)
    (hpre : s = .isoAdobe ∨ s = .expert ∨ s = .expertSubset → cs.data.length ≤ (sids s).length)
    (hsid : ∀ sid ∈ sids s, sid < 65536 ∧ sid < 391 + fs.strings.data.length) :
    ∀ g < cs.data.length, Named fs.strings s g := by
  intro g hg
  have hl : cs.data.length ≤ (sids s).length := by
    by_cases hc : s = .isoAdobe ∨ s = .expert ∨ s = .expertSubset
    · exact hpre hc
    · push Not at hc
      exact (C73_identifiers cfg data hdata base q fs h k cs s hcs hs hc).1.ge
  have hi := List.getElem?_eq_getElem (Nat.lt_of_lt_of_le hg hl)
  obtain ⟨h1, h2⟩ := hsid _ (List.mem_of_getElem? hi)
  exact (C73_named_iff fs.strings s g).mpr ⟨_, hi, h1, h2⟩

/-- The identifiers of the predefined character sets are those of standard strings. -/
theorem predefined_standard {s : CharacterSet} (hs : s = .isoAdobe ∨ s = .expert ∨ s = .expertSubset) :
    ∀ sid ∈ sids s, sid < 391 := by
  rcases hs with rfl | rfl | rfl <;> decide +kernel

/-- **C73** In a predefined character set, whatever the strings of the font set, the glyph
has a name if and only if it is one of those of the set. -/
theorem C73_predefined (strings : Index) {s : CharacterSet} (hs : s = .isoAdobe ∨ s = .expert ∨ s = .expertSubset)
    (g : Nat) : Named strings s g ↔ g < (sids s).length := by
  rw [C73_named_iff]
  constructor
  · rintro ⟨_, h, -⟩
    exact (List.getElem?_eq_some_iff.mp h).1
  · intro h
    have hi := List.getElem?_eq_getElem h
    have := predefined_standard hs _ (List.mem_of_getElem? hi)
    exact ⟨_, hi, by omega, by omega⟩

/-! ## Fonts with any character set -/

/-- A font with any character set and any number of glyphs. -/
def setDef (s : CharacterSet) (codes strings : List (List UInt8)) : FontSetDef where
  names := [[65]]
  strings := strings
  globals := []
  fonts := [
    { entries := ⟨[], []⟩
      codes := codes
      set := s
      encoding := .standard
      keying := .names ⟨⟨[], []⟩, []⟩ }]

/-- The font is read, with its character set. -/
theorem setDef_read {s : CharacterSet} {codes strings : List (List UInt8)}
    (hs : (s = .isoAdobe ∨ s = .expert ∨ s = .expertSubset) ∨ (Custom s ∧ 1 + covered s = codes.length))
    (h1 : IndexFits 4 codes) (h2 : IndexFits 4 strings) (hsize : (setDef s codes strings).write.length < 2 ^ 31) :
    ∃ fs q cs r, FontSet.read (tape checkedBuild (setDef s codes strings).write) 0 = (.ok fs, q) ∧
      fs.characterStrings[0]? = some cs ∧ fs.characterSets[0]? = some s ∧
      fs.records[0]? = some (.characterNameKeyed r) ∧ cs.data = codes ∧ fs.strings.data = strings := by
  have fits : ∀ {items : List (List UInt8)}, items.length ≤ 65535 → 1 + items.flatten.length < 2 ^ 32 → IndexFits 4 items :=
    fun h1 h2 => ⟨h1, by omega, by omega, h2⟩
  have hv : (setDef s codes strings).Valid := by
    refine ⟨fits (by simp [setDef]) (by simp [setDef]), h2, fits (by simp [setDef]) (by simp [setDef]), by simp [setDef], ?_, hsize⟩
    intro f hf
    simp only [setDef, List.mem_cons, List.not_mem_nil, or_false] at hf
    subst hf
    exact ⟨⟨.nil, by simp⟩, h1, hs, .inl (.inl rfl), ⟨.nil, by simp⟩, fits (by simp) (by simp)⟩
  obtain ⟨fs, q, h, hin⟩ := C60_round_trip hv checkedBuild [] [] (by simp; omega) (by decide)
  rw [List.nil_append, List.append_nil] at h
  obtain ⟨-, h0, -, -, h5, h6, -, h8⟩ := hin
  obtain ⟨cs, h1, h2⟩ := forall₂_getElem? h5 (k := 0) rfl
  obtain ⟨r, h3, h4⟩ := forall₂_getElem? h8 (k := 0) rfl
  cases r with
  | characterIDKeyed => exact h4.elim
  | characterNameKeyed r => exact ⟨fs, q, cs, r, h, h1, by rw [h6]; rfl, h3, h2, h0⟩

/-- **C73** is false: an identifier of a string that does not exist is accepted. -/
theorem C73_false : ¬ C73Statement := by
  intro h
  obtain ⟨fs, q, cs, r, h1, h2, h3, h4, h5, h6⟩ := setDef_read (s := .format0 0 [391]) (codes := [[14], [14]]) (strings := [])
    (.inr ⟨rfl, rfl⟩) ⟨by decide, by decide, by decide, by decide⟩ ⟨by decide, by decide, by decide, by decide⟩ (by decide +kernel)
  obtain ⟨sid, e1, -, e2⟩ := (C73_named_iff _ _ _).mp
    (h checkedBuild _ 0 q fs 0 cs _ r (by decide +kernel) h1 h2 h3 h4 1 (by rw [h5]; decide))
  rw [h6] at e2
  injection e1 with e1
  simp at e1 e2
  omega

/-- **C73** is false for predefined character sets: a font may have more glyphs than they. -/
theorem C73_false_predefined : ¬ ∀ (cfg : Config) (data : List UInt8) (base q : Nat) (fs : FontSet) (k : Nat) (cs : Index)
    (r : PrivateRecord), data.length < 2 ^ 61 → FontSet.read (tape cfg data) base = (.ok fs, q) →
    fs.characterStrings[k]? = some cs → fs.characterSets[k]? = some .expertSubset →
    fs.records[k]? = some (.characterNameKeyed r) → ∀ g < cs.data.length, Named fs.strings .expertSubset g := by
  intro h
  obtain ⟨fs, q, cs, r, h1, h2, h3, h4, h5, h6⟩ := setDef_read (s := .expertSubset) (codes := List.replicate 88 [14]) (strings := [])
    (.inl (.inr (.inr rfl))) ⟨by decide, by decide, by decide, by decide⟩ ⟨by decide, by decide, by decide, by decide⟩ (by decide +kernel)
  obtain ⟨sid, e1, -⟩ := (C73_named_iff _ _ _).mp
    (h checkedBuild _ 0 q fs 0 cs r (by decide +kernel) h1 h2 h3 h4 87 (by rw [h5]; decide))
  exact absurd (List.getElem?_eq_some_iff.mp e1).1 (by decide +kernel)

/-- Four glyphs in two ranges, one of which has the strings of the font set. -/
example : ∃ fs q cs r, FontSet.read (tape checkedBuild
    (setDef (.format1 1 [⟨34, 0⟩, ⟨391, 1⟩]) [[14], [14], [14], [14]] [[72], [105]]).write) 0 = (.ok fs, q) ∧
    fs.characterStrings[0]? = some cs ∧ fs.characterSets[0]? = some (.format1 1 [⟨34, 0⟩, ⟨391, 1⟩]) ∧
    fs.records[0]? = some (.characterNameKeyed r) ∧ cs.data.length = 4 ∧
    sids (.format1 1 [⟨34, 0⟩, ⟨391, 1⟩]) = [0, 34, 391, 392] ∧
    ∀ sid ∈ sids (.format1 1 [⟨34, 0⟩, ⟨391, 1⟩]), sid < 65536 ∧ sid < 391 + fs.strings.data.length := by
  obtain ⟨fs, q, cs, r, h1, h2, h3, h4, h5, h6⟩ := setDef_read (s := .format1 1 [⟨34, 0⟩, ⟨391, 1⟩])
    (codes := [[14], [14], [14], [14]]) (strings := [[72], [105]])
    (.inr ⟨rfl, rfl⟩) ⟨by decide, by decide, by decide, by decide⟩ ⟨by decide, by decide, by decide, by decide⟩ (by decide +kernel)
  refine ⟨fs, q, cs, r, h1, h2, h3, h4, by rw [h5]; rfl, rfl, ?_⟩
  rw [h6]
  decide

end PS
