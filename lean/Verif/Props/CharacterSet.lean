import Verif.Lemmas.Encoding
import Verif.Props.Numbers
import Verif.Props.Strings
/-!
# Properties C21–C28: character sets and encodings
-/
namespace PS
open Spec

/-! ## Custom character sets -/

/-- **C21.**  Whatever is read for `count` glyphs, from whatever bytes, describes
exactly `count - 1` of them, and is the character set that is serialised there.
(A tape of `2^64` bytes does not exist; it matters for a count of zero in a release
build, which wraps around.) -/
theorem C21_cover (cfg : Config) (data : List UInt8) (p q count : Nat) (s : CharacterSet)
    (hcount : count < 2 ^ 64) (hdata : data.length < 2 ^ 61)
    (h : CharacterSet.read count (tape cfg data) p = (.ok s, q)) :
    1 + covered s = count ∧ Custom s ∧ encodeCharacterSet s <+: data.drop p ∧
      q = p + (encodeCharacterSet s).length := by
  by_cases hc : 1 ≤ count ∧ count ≤ 2 ^ 62
  · obtain ⟨bs, ⟨h1, h2, rfl⟩, h3, h4⟩ := (CharacterSet.exact_characterSet count hc.1 hc.2 _ _ _ _).mp h
    exact ⟨h2, h1, h3, h4⟩
  · unfold CharacterSet.read at h
    obtain ⟨b, p', hb, h⟩ := Rd.bind_ok.mp h
    rcases hd : (tape cfg data).data.drop p with _ | ⟨b', l⟩
    · rw [peek_u8_eof _ _ hd] at hb
      simp at hb
    rw [peek_u8 _ _ _ _ hd] at hb
    obtain ⟨h1, rfl⟩ := Prod.mk.inj hb
    by_cases h0 : b = 0
    · rw [if_pos h0] at h
      exfalso
      unfold CharacterSet.read0 at h
      obtain ⟨f, p1, -, h⟩ := Rd.bind_ok.mp h
      by_cases hf : f ≠ 0
      · rw [if_pos hf] at h; simp [Rd.raise] at h
      rw [if_neg hf, cfg_bind] at h
      by_cases hz : count = 0 ∧ (tape cfg data).cfg.checks
      · rw [if_pos hz] at h; simp [Rd.panic] at h
      rw [if_neg hz] at h
      obtain ⟨gs, p2, h, -⟩ := Rd.bind_ok.mp h
      unfold Rd.vec at h
      rw [cfg_bind] at h
      by_cases hv : (tape cfg data).cfg.prealloc ∧ (if count = 0 then 2 ^ 64 - 1 else count - 1) * 2 > 2 ^ 63 - 1
      · rw [if_pos hv] at h; simp [Rd.panic] at h
      · rw [if_neg hv] at h
        have := CharacterSet.replicate_ok_length exact_u16 (by
          intro a bs h; subst h; intro h0
          have := congrArg List.length h0
          rw [be_length] at this; simp at this) h
        simp only [tape] at this
        split at this <;> omega
    rw [if_neg h0] at h
    by_cases h1 : b = 1
    · rw [if_pos h1] at h
      obtain ⟨bs, ⟨rs, rfl, h2, rfl⟩, h3, h4⟩ := (CharacterSet.exact_read1 count _ _ _ _).mp h
      exact ⟨h2, rfl, h3, h4⟩
    rw [if_neg h1] at h
    by_cases h2 : b = 2
    · rw [if_pos h2] at h
      obtain ⟨bs, ⟨rs, rfl, h2, rfl⟩, h3, h4⟩ := (CharacterSet.exact_read2 count _ _ _ _).mp h
      exact ⟨h2, rfl, h3, h4⟩
    rw [if_neg h2] at h
    simp [Rd.raise] at h

/-- **C21.**  Ranges of which the last one overshoots the number of glyphs are
rejected. -/
theorem C21_overshoot (cfg : Config) (pre post : List UInt8) (count : Nat) (s : CharacterSet) (hs : Custom s)
    (h : (∃ rs r, s = .format1 1 (rs ++ [r]) ∧ 1 + covered (.format1 1 rs) < count) ∨
         (∃ rs r, s = .format2 2 (rs ++ [r]) ∧ 1 + covered (.format2 2 rs) < count))
    (hover : count < 1 + covered s) :
    ∃ q, CharacterSet.read count (tape cfg (pre ++ encodeCharacterSet s ++ post)) pre.length =
      (.err (.raised .malformedCharacterSet), q) := by
  have reach : ∀ (l : List Nat) (x found : Nat), (∀ y ∈ l, 0 < y) → found + l.sum < count → count < found + l.sum + x →
      CharacterSet.Reach count found (l ++ [x]) (found + l.sum + x) := by
    intro l
    induction l with
    | nil => intro x found _ h1 h2; simp only [List.sum_nil] at *; exact ⟨h1, by omega, by omega⟩
    | cons y l ih =>
      intro x found hl h1 h2
      simp only [List.sum_cons] at h1 h2 ⊢
      refine ⟨by omega, ?_⟩
      have := ih x (found + y) (fun z hz => hl z (by simp [hz])) (by omega) (by omega)
      rw [show found + (y + l.sum) + x = found + y + l.sum + x by omega]
      exact this
  rcases h with ⟨rs, r, rfl, hlt⟩ | ⟨rs, r, rfl, hlt⟩
  all_goals
    set env : Env := tape cfg _ with henv
  · have hd : env.data.drop pre.length = 1 :: ((rs ++ [r]).flatMap fun r => be 2 r.firstStringID.toNat ++ [r.leftCount]) ++ post := by
      simp [henv, tape, encodeCharacterSet]
    have hr := (CharacterSet.exact_ranges1 count count 1 (by omega) env (pre.length + 1)
      (1 + covered (.format1 1 (rs ++ [r])), rs ++ [r]) _).mpr
      ⟨_, ⟨by
        simp only [List.map_append, List.map_cons, List.map_nil, covered, List.sum_append, List.sum_cons, List.sum_nil]
        have := reach (rs.map fun r => 1 + r.leftCount.toNat) (1 + r.leftCount.toNat) 1 (by simp) hlt (by
          simp only [covered, List.map_append, List.map_cons, List.map_nil, List.sum_append, List.sum_cons, List.sum_nil] at hover; omega)
        rw [show ∀ a b : Nat, 1 + (a + (b + 0)) = 1 + a + b by intros; omega]
        exact this, rfl⟩, by
        have : env.data.drop (pre.length + 1) = (env.data.drop pre.length).drop 1 := by rw [List.drop_drop]
        rw [this, hd]
        exact ⟨post, by simp⟩, rfl⟩
    unfold CharacterSet.read
    rw [Rd.bind_of_ok (peek_u8 _ _ _ _ hd), if_neg (by decide), if_pos rfl]
    unfold CharacterSet.read1
    rw [Rd.bind_of_ok (u8_cons _ _ _ _ hd), if_neg (by decide), Rd.bind_of_ok hr]
    simp only
    rw [if_pos (by omega)]
    exact ⟨_, rfl⟩
  · have hd : env.data.drop pre.length = 2 :: ((rs ++ [r]).flatMap fun r => be 2 r.firstStringID.toNat ++ be 2 r.leftCount.toNat) ++ post := by
      simp [henv, tape, encodeCharacterSet]
    have hr := (CharacterSet.exact_ranges2 count count 1 (by omega) env (pre.length + 1)
      (1 + covered (.format2 2 (rs ++ [r])), rs ++ [r]) _).mpr
      ⟨_, ⟨by
        simp only [List.map_append, List.map_cons, List.map_nil, covered, List.sum_append, List.sum_cons, List.sum_nil]
        have := reach (rs.map fun r => 1 + r.leftCount.toNat) (1 + r.leftCount.toNat) 1 (by simp) hlt (by
          simp only [covered, List.map_append, List.map_cons, List.map_nil, List.sum_append, List.sum_cons, List.sum_nil] at hover; omega)
        rw [show ∀ a b : Nat, 1 + (a + (b + 0)) = 1 + a + b by intros; omega]
        exact this, rfl⟩, by
        have : env.data.drop (pre.length + 1) = (env.data.drop pre.length).drop 1 := by rw [List.drop_drop]
        rw [this, hd]
        exact ⟨post, by simp⟩, rfl⟩
    unfold CharacterSet.read
    rw [Rd.bind_of_ok (peek_u8 _ _ _ _ hd), if_neg (by decide), if_neg (by decide), if_pos rfl]
    unfold CharacterSet.read2
    rw [Rd.bind_of_ok (u8_cons _ _ _ _ hd), if_neg (by decide), Rd.bind_of_ok hr]
    simp only
    rw [if_pos (by omega)]
    exact ⟨_, rfl⟩

/-- Two ranges of sizes 3 and 2 for six glyphs are read; for five they overshoot. -/
example : covered (.format1 1 [⟨34, 2⟩, ⟨60, 1⟩]) = 5 ∧ covered (.format1 1 [⟨34, 2⟩]) = 3 ∧
    encodeCharacterSet (.format1 1 [⟨34, 2⟩, ⟨60, 1⟩]) = [1, 0, 34, 2, 0, 60, 1] ∧
    (∃ (rs : List CharRange1) (r : CharRange1), CharacterSet.format1 1 [⟨34, 2⟩, ⟨60, 1⟩] = .format1 1 (rs ++ [r]) ∧
      1 + covered (.format1 1 rs) < 5) :=
  ⟨by decide, by decide, by decide, [⟨34, 2⟩], ⟨60, 1⟩, rfl, by decide⟩

/-- **C22.**  A serialised character set reads back, for the number of glyphs it
covers, and the tape is left right after it. -/
theorem C22_character_set_round_trip (cfg : Config) (pre post : List UInt8) (s : CharacterSet) (hs : Custom s)
    (hlen : covered s < 2 ^ 62) :
    CharacterSet.read (1 + covered s) (tape cfg (pre ++ encodeCharacterSet s ++ post)) pre.length =
      (.ok s, pre.length + (encodeCharacterSet s).length) :=
  (CharacterSet.exact_characterSet (1 + covered s) (by omega) (by omega)).parse ⟨hs, rfl, rfl⟩ cfg pre post

example : Custom (.format2 2 [⟨391, 300⟩, ⟨1, 0⟩]) ∧ covered (.format2 2 [⟨391, 300⟩, ⟨1, 0⟩]) = 302 :=
  ⟨rfl, by decide⟩

/-- **C23** does not hold as stated: with overflow checks a glyph count of zero
panics in format 0. -/
theorem C23_panics_for_no_glyphs (cfg : Config) (h : cfg.checks = true) :
    CharacterSet.read 0 (tape cfg [0]) 0 = (.panic .overflow, 1) := by
  rcases cfg with ⟨c, _, _, _⟩
  cases h
  rfl

/-- **C23** does not hold as stated: without overflow checks the count wraps around
and the reservation of memory panics, if there is one. -/
theorem C23_panics_for_no_glyphs_unchecked (cfg : Config) (h : cfg.checks = false) (h' : cfg.prealloc = true) :
    CharacterSet.read 0 (tape cfg [0]) 0 = (.panic .capacity, 1) := by
  rcases cfg with ⟨c, d, _, _⟩
  cases h
  cases h'
  rfl

/-- **C23**, the part that holds.  Missing: a glyph count of zero (which is an empty
CharStrings INDEX) panics in format 0 with overflow checks.  Counts come from an
INDEX, so that they are far below `2^62`. -/
theorem C23_no_panic_partial (cfg : Config) (data : List UInt8) (p count : Nat) (h1 : 1 ≤ count) (h2 : count ≤ 2 ^ 62) :
    (∃ s q, CharacterSet.read count (tape cfg data) p = (.ok s, q)) ∨
    (∃ e q, CharacterSet.read count (tape cfg data) p = (.err e, q) ∧
      (e = .eof ∨ e = .raised .malformedCharacterSet ∨ e = .raised .unknownCharacterSetFormat)) := by
  rcases total_of (CharacterSet.errs_characterSet count) (CharacterSet.noPanic_characterSet count h1 h2) (tape cfg data) p
    with h | ⟨e, q, he, h⟩
  · exact .inl h
  · exact .inr ⟨e, q, h, he⟩

/-- The largest count that an INDEX can announce. -/
example (cfg : Config) (data : List UInt8) :
    (∃ s q, CharacterSet.read 65535 (tape cfg data) 0 = (.ok s, q)) ∨
    (∃ e q, CharacterSet.read 65535 (tape cfg data) 0 = (.err e, q) ∧
      (e = .eof ∨ e = .raised .malformedCharacterSet ∨ e = .raised .unknownCharacterSetFormat)) :=
  C23_no_panic_partial cfg data 0 65535 (by decide) (by decide)

/-- **C23**, for a count of zero: in the other formats it is an error. -/
theorem C23_no_glyphs_partial (cfg : Config) (data : List UInt8) (p : Nat) (h : data[p]? ≠ some 0) :
    ∃ e q, CharacterSet.read 0 (tape cfg data) p = (.err e, q) ∧
      (e = .eof ∨ e = .raised .malformedCharacterSet ∨ e = .raised .unknownCharacterSetFormat) := by
  unfold CharacterSet.read
  rcases hd : (tape cfg data).data.drop p with _ | ⟨b, l⟩
  · exact ⟨_, _, Rd.bind_of_err (peek_u8_eof _ _ hd), .inl rfl⟩
  rw [Rd.bind_of_ok (peek_u8 _ _ _ _ hd)]
  have hb : data[p]? = some b := by
    have : (data.drop p)[0]? = some b := by rw [show data.drop p = b :: l from hd]; rfl
    simpa using this
  have h0 : b ≠ 0 := by rintro rfl; exact h hb
  rw [if_neg h0]
  by_cases h1 : b = 1
  · rw [if_pos h1]
    subst h1
    unfold CharacterSet.read1
    rw [Rd.bind_of_ok (u8_cons _ _ _ _ hd)]
    exact ⟨_, _, rfl, .inr (.inl rfl)⟩
  rw [if_neg h1]
  by_cases h2 : b = 2
  · rw [if_pos h2]
    subst h2
    unfold CharacterSet.read2
    rw [Rd.bind_of_ok (u8_cons _ _ _ _ hd)]
    exact ⟨_, _, rfl, .inr (.inl rfl)⟩
  rw [if_neg h2]
  exact ⟨_, _, rfl, .inr (.inr rfl)⟩

/-- Ranges for no glyphs. -/
example (cfg : Config) : ∃ e q, CharacterSet.read 0 (tape cfg [1, 0, 34, 2]) 0 = (.err e, q) ∧
    (e = .eof ∨ e = .raised .malformedCharacterSet ∨ e = .raised .unknownCharacterSetFormat) :=
  C23_no_glyphs_partial cfg _ _ (by decide)

/-! ## Predefined character sets -/

/-- **C24.**  ISOAdobe names exactly the identifiers 1 to 228, each by its standard
string. -/
theorem C24_iso_adobe (g : UInt16) (name : String) : CharacterSet.isoAdobe.get g = some name ↔
    1 ≤ g.toNat ∧ g.toNat ≤ 228 ∧ standardStringList[g.toNat]? = some name := by
  have := lookup_glyphs isoAdobe_eq (by decide +kernel) g.toNat name
  unfold CharacterSet.get
  simp only [this]
  have h : g.toNat ∈ isoAdobeGlyphs.drop 1 ↔ 1 ≤ g.toNat ∧ g.toNat ≤ 228 := by
    rw [show isoAdobeGlyphs.drop 1 = List.range' 1 228 by decide +kernel, List.mem_range'_1]
    omega
  rw [h, and_assoc]

/-- **C24.**  Expert names the identifiers listed in the specification except
`.notdef`, each by its standard string. -/
theorem C24_expert (g : UInt16) (name : String) : CharacterSet.expert.get g = some name ↔
    g.toNat ∈ expertGlyphs ∧ g.toNat ≠ 0 ∧ standardStringList[g.toNat]? = some name := by
  have := lookup_glyphs expertSet_eq (by decide +kernel) g.toNat name
  unfold CharacterSet.get
  simp only [this]
  have h : ∀ k, k ∈ expertGlyphs.drop 1 ↔ k ∈ expertGlyphs ∧ k ≠ 0 := by
    intro k
    have h1 : ∀ k ∈ expertGlyphs.drop 1, k ≠ 0 := by decide +kernel
    constructor
    · exact fun h => ⟨List.mem_of_mem_drop h, h1 k h⟩
    · rintro ⟨h2, h3⟩
      rw [show expertGlyphs = 0 :: expertGlyphs.drop 1 by decide +kernel] at h2
      exact (List.mem_cons.mp h2).resolve_left h3
  rw [h, and_assoc]

/-- **C24.**  ExpertSubset names the identifiers listed in the specification except
`.notdef`, each by its standard string. -/
theorem C24_expert_subset (g : UInt16) (name : String) : CharacterSet.expertSubset.get g = some name ↔
    g.toNat ∈ expertSubsetGlyphs ∧ g.toNat ≠ 0 ∧ standardStringList[g.toNat]? = some name := by
  have := lookup_glyphs expertSubset_eq (by decide +kernel) g.toNat name
  unfold CharacterSet.get
  simp only [this]
  have h : ∀ k, k ∈ expertSubsetGlyphs.drop 1 ↔ k ∈ expertSubsetGlyphs ∧ k ≠ 0 := by
    intro k
    have h1 : ∀ k ∈ expertSubsetGlyphs.drop 1, k ≠ 0 := by decide +kernel
    constructor
    · exact fun h => ⟨List.mem_of_mem_drop h, h1 k h⟩
    · rintro ⟨h2, h3⟩
      rw [show expertSubsetGlyphs = 0 :: expertSubsetGlyphs.drop 1 by decide +kernel] at h2
      exact (List.mem_cons.mp h2).resolve_left h3
  rw [h, and_assoc]

/-- **C24.**  ExpertSubset agrees with Expert wherever it is defined. -/
theorem C24_subset_agrees (g : UInt16) (name : String) (h : CharacterSet.expertSubset.get g = some name) :
    CharacterSet.expert.get g = some name := by
  rw [C24_expert_subset] at h
  rw [C24_expert]
  have hs : ∀ k ∈ expertSubsetGlyphs, k ∈ expertGlyphs := by decide +kernel
  exact ⟨hs _ h.1, h.2⟩

/-- **C24.**  Custom character sets name no glyph. -/
theorem C24_custom (s : CharacterSet) (hs : Custom s) (g : UInt16) : s.get g = none := by
  cases s <;> first | rfl | exact hs.elim

example : CharacterSet.expertSubset.get 231 = some "dollaroldstyle" ∧ CharacterSet.expert.get 231 = some "dollaroldstyle" ∧
    CharacterSet.expertSubset.get 229 = none ∧ CharacterSet.isoAdobe.get 228 = some "zcaron" := by
  refine ⟨?_, ?_, ?_, ?_⟩ <;> decide +kernel

/-- **C25** does not hold as stated: glyph 2 of Expert is `exclamsmall`, but it has
no name here, as the table is keyed by string identifiers. -/
theorem C25_expert_not_indexed : CharacterSet.expert.get 2 = none ∧ glyphName expertGlyphs 2 = some "exclamsmall" ∧
    CharacterSet.expertSubset.get 2 = none ∧ glyphName expertSubsetGlyphs 2 = some "dollaroldstyle" := by
  refine ⟨?_, ?_, ?_, ?_⟩ <;> decide +kernel

/-- **C25** does not hold as stated: glyph 13 of Expert is `hyphen`, here it is
`comma`. -/
theorem C25_expert_wrong_name : CharacterSet.expert.get 13 = some "comma" ∧
    glyphName expertGlyphs 13 = some "hyphen" := by
  refine ⟨?_, ?_⟩ <;> decide +kernel

/-- **C25** does not hold as stated: `.notdef` is missing from all three. -/
theorem C25_notdef : CharacterSet.isoAdobe.get 0 = none ∧ CharacterSet.expert.get 0 = none ∧
    CharacterSet.expertSubset.get 0 = none := by
  refine ⟨?_, ?_, ?_⟩ <;> decide +kernel

/-- **C25**, the part that holds: ISOAdobe, except `.notdef`.  Missing: Expert and
ExpertSubset, for which the claim is false. -/
theorem C25_iso_adobe_partial (g : UInt16) (h : g ≠ 0) :
    CharacterSet.isoAdobe.get g = glyphName isoAdobeGlyphs g.toNat := by
  have h0 : g.toNat ≠ 0 := fun h' => h (UInt16.toNat_inj.mp h')
  apply Option.ext
  intro name
  rw [C24_iso_adobe]
  unfold glyphName isoAdobeGlyphs
  by_cases hg : g.toNat < 229
  · rw [List.getElem?_range hg]
    constructor
    · exact fun h => h.2.2
    · exact fun h => ⟨by omega, by omega, h⟩
  · rw [show (List.range 229)[g.toNat]? = none from List.getElem?_eq_none (by rw [List.length_range]; omega)]
    constructor
    · rintro ⟨-, h, -⟩; omega
    · intro h; cases h

/-- The table of a set and the glyphs of it agree for the space, and where there is neither a glyph
with the index nor a string with the identifier. -/
theorem expert_agreement {glyphs : List Nat} {s : CharacterSet}
    (hget : ∀ (g : UInt16) (name : String), s.get g = some name ↔
      g.toNat ∈ glyphs ∧ g.toNat ≠ 0 ∧ standardStringList[g.toNat]? = some name)
    (hlt : ∀ k ∈ glyphs, k < 391)
    (hall : ∀ k < glyphs.length, (if k ∈ glyphs ∧ k ≠ 0 then standardStringList[k]? else none) = glyphName glyphs k ↔ k = 1)
    (h1 : 1 < glyphs.length) (g : UInt16) :
    s.get g = glyphName glyphs g.toNat ↔ g = 1 ∨ (glyphs.length ≤ g.toNat ∧ g.toNat ∉ glyphs) := by
  have hone : g = 1 ↔ g.toNat = 1 := ⟨fun h => by rw [h]; rfl, fun h => UInt16.toNat_inj.mp h⟩
  have hs : s.get g = if g.toNat ∈ glyphs ∧ g.toNat ≠ 0 then standardStringList[g.toNat]? else none := by
    apply Option.ext
    intro name
    rw [hget]
    split
    · rename_i h; exact ⟨fun h' => h'.2.2, fun h' => ⟨h.1, h.2, h'⟩⟩
    · rename_i h; exact ⟨fun h' => absurd ⟨h'.1, h'.2.1⟩ h, fun h' => by cases h'⟩
  rw [hs, hone]
  by_cases hl : g.toNat < glyphs.length
  · rw [hall _ hl]
    constructor
    · exact .inl
    · rintro (h | ⟨h, -⟩)
      · exact h
      · omega
  · have hn : glyphName glyphs g.toNat = none := by
      unfold glyphName
      rw [List.getElem?_eq_none (by omega)]
    rw [hn]
    constructor
    · intro h
      refine .inr ⟨by omega, fun hm => ?_⟩
      rw [if_pos ⟨hm, by omega⟩] at h
      have := hlt _ hm
      rw [List.getElem?_eq_none_iff] at h
      have h391 : standardStringList.length = 391 := by decide +kernel
      omega
    · rintro (h | ⟨-, h⟩)
      · omega
      · rw [if_neg (fun h' => h h'.1)]

/-- **C25**, the part that holds of Expert, and all of it: the name of a glyph is right for the
space only, and where there is none to be given. -/
theorem C25_expert_partial (g : UInt16) : CharacterSet.expert.get g = glyphName expertGlyphs g.toNat ↔
    g = 1 ∨ (expertGlyphs.length ≤ g.toNat ∧ g.toNat ∉ expertGlyphs) :=
  expert_agreement C24_expert (by decide +kernel) (by decide +kernel) (by decide +kernel) g

/-- **C25**, the same for ExpertSubset. -/
theorem C25_expert_subset_partial (g : UInt16) : CharacterSet.expertSubset.get g = glyphName expertSubsetGlyphs g.toNat ↔
    g = 1 ∨ (expertSubsetGlyphs.length ≤ g.toNat ∧ g.toNat ∉ expertSubsetGlyphs) :=
  expert_agreement C24_expert_subset (by decide +kernel) (by decide +kernel) (by decide +kernel) g

/-- The glyph counts of the three predefined sets. -/
example : isoAdobeGlyphs.length = 229 ∧ expertGlyphs.length = 166 ∧ expertSubsetGlyphs.length = 87 := by
  refine ⟨?_, ?_, ?_⟩ <;> decide +kernel

/-! ## Predefined encodings -/

theorem codeSID_lt : ∀ k < 256, codeSID standardCodes k < 391 ∧ codeSID expertCodes k < 391 := by decide +kernel

/-- **C26.**  The predefined encodings are those of the specification: defined for
the codes up to 255, with the string identifiers listed there. -/
theorem C26_encodings (code : UInt16) (sid : UInt16) :
    (Encoding.standard.get code = some sid ↔ code.toNat < 256 ∧ sid.toNat = codeSID standardCodes code.toNat) ∧
    (Encoding.expert.get code = some sid ↔ code.toNat < 256 ∧ sid.toNat = codeSID expertCodes code.toNat) := by
  have key : ∀ (codes : List (Nat × Nat × Nat)) (t : List (Nat × Nat × String)),
      t = (List.range 256).map (fun k => (k, codeSID codes k, stdName (codeSID codes k))) →
      (∀ k < 256, codeSID codes k < 391) →
      ((t.lookup code.toNat).map (fun x => UInt16.ofNat x.1) = some sid ↔
        code.toNat < 256 ∧ sid.toNat = codeSID codes code.toNat) := by
    rintro codes t rfl hlt
    rw [Option.map_eq_some_iff]
    constructor
    · rintro ⟨x, hx, rfl⟩
      obtain ⟨h1, rfl⟩ := (lookup_map_key _ (fun k => (codeSID codes k, stdName (codeSID codes k))) _ _).mp hx
      have h1 := List.mem_range.mp h1
      have := hlt _ h1
      exact ⟨h1, UInt16.toNat_ofNat_of_lt' (by simp only [UInt16.size]; omega)⟩
    · rintro ⟨h1, h2⟩
      refine ⟨_, (lookup_map_key _ (fun k => (codeSID codes k, stdName (codeSID codes k))) _ _).mpr
        ⟨List.mem_range.mpr h1, rfl⟩, ?_⟩
      simp only [← h2]
      exact UInt16.ofNat_toNat
  exact ⟨key _ _ standardEncoding_eq (fun k h => (codeSID_lt k h).1),
    key _ _ expertEncoding_eq (fun k h => (codeSID_lt k h).2)⟩

/-- **C26.**  The predefined encodings are defined for the codes 0 to 255, and for
nothing else. -/
theorem C26_total (code : UInt16) :
    ((Encoding.standard.get code).isSome ↔ code.toNat < 256) ∧ ((Encoding.expert.get code).isSome ↔ code.toNat < 256) := by
  have key : ∀ n, n < 391 → (UInt16.ofNat n).toNat = n := fun n h => UInt16.toNat_ofNat_of_lt' (by
    simp only [UInt16.size]; omega)
  simp only [Option.isSome_iff_exists]
  refine ⟨⟨?_, fun h => ?_⟩, ⟨?_, fun h => ?_⟩⟩
  · rintro ⟨sid, h⟩; exact ((C26_encodings code sid).1.mp h).1
  · exact ⟨_, (C26_encodings code _).1.mpr ⟨h, key _ (codeSID_lt _ h).1⟩⟩
  · rintro ⟨sid, h⟩; exact ((C26_encodings code sid).2.mp h).1
  · exact ⟨_, (C26_encodings code _).2.mpr ⟨h, key _ (codeSID_lt _ h).2⟩⟩

/-- **C26.**  Every identifier in an encoding is a standard string. -/
theorem C26_standard_strings (strings : Index) (code sid : UInt16)
    (h : Encoding.standard.get code = some sid ∨ Encoding.expert.get code = some sid) :
    ∃ name, standardStringList[sid.toNat]? = some name ∧ strings.getString sid = some name := by
  have hs : sid.toNat < 391 := by
    rcases h with h | h
    · obtain ⟨h1, h2⟩ := (C26_encodings code sid).1.mp h
      have := (codeSID_lt _ h1).1; omega
    · obtain ⟨h1, h2⟩ := (C26_encodings code sid).2.mp h
      have := (codeSID_lt _ h1).2; omega
  obtain ⟨name, h1, h2⟩ := C17_standard strings sid hs
  exact ⟨name, h2, h1⟩

/-- The code 65 stands for `A`, whatever strings the font set has. -/
example (strings : Index) : ∃ name, standardStringList[34]? = some name ∧ strings.getString 34 = some name :=
  C26_standard_strings strings 65 34 (.inl (by decide +kernel))

/-- **C26.**  The names written beside the identifiers in the tables are the
standard strings. -/
theorem C26_names (code sid : Nat) (name : String)
    (h : (code, sid, name) ∈ Tables.standardEncoding ∨ (code, sid, name) ∈ Tables.expertEncoding) :
    standardStringList[sid]? = some name := by
  rcases h with h | h
  · rw [standardEncoding_eq, List.mem_map] at h
    obtain ⟨k, hk, h⟩ := h
    simp only [Prod.mk.injEq] at h
    obtain ⟨rfl, rfl, h⟩ := h
    exact (stdName_eq (codeSID_lt _ (List.mem_range.mp hk)).1).mp h
  · rw [expertEncoding_eq, List.mem_map] at h
    obtain ⟨k, hk, h⟩ := h
    simp only [Prod.mk.injEq] at h
    obtain ⟨rfl, rfl, h⟩ := h
    exact (stdName_eq (codeSID_lt _ (List.mem_range.mp hk)).2).mp h

example : (65, 34, "A") ∈ Tables.standardEncoding ∧ standardStringList[34]? = some "A" := by
  have h : (65, 34, "A") ∈ Tables.standardEncoding := by decide +kernel
  exact ⟨h, C26_names 65 34 "A" (.inl h)⟩

theorem codeSID_inj (codes : List (Nat × Nat × Nat))
    (h : distinct 0 (((List.range 256).filter fun k => codeSID codes k ≠ 0).map (codeSID codes)) = true) :
    ∀ i < 256, ∀ j < 256, codeSID codes i = codeSID codes j → i = j ∨ codeSID codes i = 0 := by
  intro i hi j hj hij
  by_cases h0 : codeSID codes i = 0
  · exact .inr h0
  · refine .inl (List.inj_on_of_nodup_map (distinct_nodup h).1 ?_ ?_ hij)
    · simp [hi, h0]
    · simp [hj, ← hij, h0]

/-- **C26.**  Two codes share an identifier only if it is that of `.notdef`. -/
theorem C26_unambiguous (a b sid : UInt16)
    (h : (Encoding.standard.get a = some sid ∧ Encoding.standard.get b = some sid) ∨
         (Encoding.expert.get a = some sid ∧ Encoding.expert.get b = some sid)) : a = b ∨ sid = 0 := by
  have inj : ∀ codes, (∀ i < 256, ∀ j < 256, codeSID codes i = codeSID codes j → i = j ∨ codeSID codes i = 0) →
      a.toNat < 256 → b.toNat < 256 → sid.toNat = codeSID codes a.toNat → sid.toNat = codeSID codes b.toNat →
      a = b ∨ sid = 0 := by
    intro codes h ha hb h1 h2
    rcases h _ ha _ hb (h1.symm.trans h2) with h | h
    · exact .inl (UInt16.toNat_inj.mp h)
    · exact .inr (UInt16.toNat_inj.mp (by rw [h1, h]; rfl))
  rcases h with ⟨h1, h2⟩ | ⟨h1, h2⟩
  · obtain ⟨ha, ha'⟩ := (C26_encodings a sid).1.mp h1
    obtain ⟨hb, hb'⟩ := (C26_encodings b sid).1.mp h2
    exact inj standardCodes (codeSID_inj _ (by decide +kernel)) ha hb ha' hb'
  · obtain ⟨ha, ha'⟩ := (C26_encodings a sid).2.mp h1
    obtain ⟨hb, hb'⟩ := (C26_encodings b sid).2.mp h2
    exact inj expertCodes (codeSID_inj _ (by decide +kernel)) ha hb ha' hb'

/-- Two codes of `.notdef`, and a code of another glyph. -/
example : Encoding.standard.get 0 = some 0 ∧ Encoding.standard.get 1 = some 0 ∧
    ∀ b, Encoding.standard.get b = some 34 → (65 : UInt16) = b := by
  refine ⟨by decide +kernel, by decide +kernel, fun b hb => ?_⟩
  exact (C26_unambiguous 65 b 34 (.inl ⟨by decide +kernel, hb⟩)).resolve_right (by decide)

/-- **C26.**  Custom encodings return nothing. -/
theorem C26_custom (e : Encoding) (he : Encodable e) (code : UInt16) : e.get code = none := by
  cases e <;> first | rfl | exact he.elim

example : Encoding.standard.get 65 = some 34 ∧ Encoding.expert.get 255 = some 378 ∧ Encoding.expert.get 256 = none := by
  refine ⟨?_, ?_, ?_⟩ <;> decide +kernel

/-! ## Custom encodings -/

/-- **C27.**  A serialised encoding reads back, and the tape is left right after it. -/
theorem C27_encoding_round_trip (cfg : Config) (pre post : List UInt8) (e : Encoding) (he : Encodable e) :
    Encoding.read (tape cfg (pre ++ encodeEncoding e ++ post)) pre.length =
      (.ok e, pre.length + (encodeEncoding e).length) :=
  Encoding.exact_encoding.parse ⟨he, rfl⟩ cfg pre post

/-- **C27.**  Whatever is read, from whatever bytes, is the encoding serialised
there, with as many entries as announced. -/
theorem C27_encoding_exact (cfg : Config) (data : List UInt8) (p q : Nat) (e : Encoding)
    (h : Encoding.read (tape cfg data) p = (.ok e, q)) :
    Encodable e ∧ encodeEncoding e <+: data.drop p ∧ q = p + (encodeEncoding e).length := by
  obtain ⟨bs, ⟨h1, rfl⟩, h2, h3⟩ := (Encoding.exact_encoding _ _ _ _).mp h
  exact ⟨h1, h2, h3⟩

/-- **C27.**  Format bytes other than 0, 1 and those with the high bit are rejected. -/
theorem C27_encoding_formats (cfg : Config) (data : List UInt8) (p : Nat) (b : UInt8) (hb : data[p]? = some b)
    (h : 2 ≤ b.toNat ∧ b.toNat < 128) :
    Encoding.read (tape cfg data) p = (.err (.raised .unknownEncodingFormat), p) := by
  have hd : (tape cfg data).data.drop p = b :: data.drop (p + 1) := by
    obtain ⟨hp, rfl⟩ := List.getElem?_eq_some_iff.mp hb
    exact List.drop_eq_getElem_cons hp
  unfold Encoding.read
  rw [Rd.bind_of_ok (peek_u8 _ _ _ _ hd), if_neg, if_neg, if_neg]
  · rfl
  · rw [Encoding.highBit]; omega
  · rintro rfl; simp at h
  · rintro rfl; simp at h

/-- **C27.**  Reading an encoding returns a value or one of two errors and never
panics. -/
theorem C27_encoding_total (cfg : Config) (data : List UInt8) (p : Nat) :
    (∃ e q, Encoding.read (tape cfg data) p = (.ok e, q)) ∨
    (∃ e q, Encoding.read (tape cfg data) p = (.err e, q) ∧ (e = .eof ∨ e = .raised .unknownEncodingFormat)) := by
  rcases total_of Encoding.errs_encoding Encoding.noPanic_encoding (tape cfg data) p with h | ⟨e, q, he, h⟩
  · exact .inl h
  · exact .inr ⟨e, q, h, he⟩

example : Encodable (.format1 1 2 [⟨32, 94⟩, ⟨161, 14⟩]) ∧
    encodeEncoding (.format1 1 2 [⟨32, 94⟩, ⟨161, 14⟩]) = [1, 2, 32, 94, 161, 14] := by
  refine ⟨⟨rfl, rfl⟩, rfl⟩

/-! ## Encodings with a supplement -/

/-- **C28** does not hold as stated: two codes with one supplement are read as two
supplements, made of the bytes of the codes, and the base encoding is lost. -/
theorem C28_base_lost (cfg : Config) :
    encodeSupplemented (.format0 0 2 [65, 66]) [⟨67, 391⟩] = [0x80, 2, 65, 66, 1, 67, 1, 135] ∧
    Encoding.read (tape cfg [0x80, 2, 65, 66, 1, 67, 1, 135]) 0 =
      (.ok (.supplemental 0x80 2 [⟨65, 16897⟩, ⟨67, 391⟩]), 8) := by
  refine ⟨rfl, ?_⟩
  have := (C27_encoding_round_trip cfg [] [] (.supplemental 0x80 2 [⟨65, 16897⟩, ⟨67, 391⟩]) ⟨by decide, rfl⟩)
  exact this

/-- **C28** does not hold for any encoding: what is read has no codes or ranges. -/
theorem C28_never_base (cfg : Config) (data : List UInt8) (p q : Nat) (b : UInt8) (hb : data[p]? = some b)
    (h : 128 ≤ b.toNat) (e : Encoding) (he : Encoding.read (tape cfg data) p = (.ok e, q)) :
    ∃ n sups, e = .supplemental b n sups := by
  obtain ⟨h1, h2, -⟩ := C27_encoding_exact cfg data p q e he
  have hd : data.drop p = b :: data.drop (p + 1) := by
    obtain ⟨hp, rfl⟩ := List.getElem?_eq_some_iff.mp hb
    exact List.drop_eq_getElem_cons hp
  rw [hd] at h2
  rcases e with _ | _ | ⟨f, n, x⟩ | ⟨f, n, x⟩ | ⟨f, n, x⟩ <;> try exact h1.elim
  all_goals
    have hf := (List.cons_prefix_cons.mp h2).1
  · subst hf; simp at h
  · subst hf; simp at h
  · subst hf; exact ⟨n, x, rfl⟩

example (cfg : Config) (q : Nat) (e : Encoding) (h : Encoding.read (tape cfg [0x81, 1, 65, 1, 135]) 0 = (.ok e, q)) :
    ∃ n sups, e = .supplemental 0x81 n sups :=
  C28_never_base cfg _ 0 q 0x81 rfl (by decide) e h

/-- **C28**, the part that holds: if the base encoding has no codes or ranges and
there are no supplements, nothing is lost but the end of the structure: the count
of supplements is left on the tape.  Missing: everything else, for which the claim
is false. -/
theorem C28_empty_base_partial (cfg : Config) (pre post : List UInt8) :
    Encoding.read (tape cfg (pre ++ encodeSupplemented (.format0 0 0 []) [] ++ post)) pre.length =
      (.ok (.supplemental 0x80 0 []), pre.length + 2) ∧
    (encodeSupplemented (.format0 0 0 []) []).length = 3 := by
  refine ⟨?_, rfl⟩
  have := C27_encoding_round_trip cfg pre (0 :: post) (.supplemental 0x80 0 []) ⟨by decide, rfl⟩
  simpa [encodeEncoding, encodeSupplemented] using this

end PS
