import Verif.Lemmas.FontSetPanic
/-!
# Properties C29–C36: font sets

Throughout, the tape has fewer than `2^61` bytes.
-/
namespace PS
open Spec

/-! ## An example

A font set with one font: the name "A"; `CharStrings` at 24, `Private` of two bytes
at 30; no strings and no global subroutines; one glyph; local subroutines two bytes
after the beginning of the private dictionary. -/

/-- The bytes of the example. -/
def sampleFont : List UInt8 :=
  [1, 0, 4, 1] ++ [0, 1, 1, 1, 2, 65] ++ [0, 1, 1, 1, 6, 163, 17, 141, 169, 18] ++ [0, 0] ++ [0, 0] ++
  [0, 1, 1, 1, 2, 14] ++ [141, 19] ++ [0, 1, 1, 1, 2, 11]

/-- A font set keyed by character identifiers: `ROS`, `FDSelect` of format 3 and one
font dictionary. -/
def sampleCID : List UInt8 :=
  [1, 0, 4, 1] ++ [0, 1, 1, 1, 2, 65] ++
  [0, 1, 1, 1, 14, 140, 141, 139, 12, 30, 175, 17, 181, 12, 37, 189, 12, 36] ++
  [0, 1, 1, 1, 2, 65] ++ [0, 0] ++
  [0, 1, 1, 1, 2, 14] ++ [3, 0, 1, 0, 0, 0, 0, 1] ++ [0, 1, 1, 1, 4, 139, 139, 18]

/-- The configuration of a build with overflow checks, reading from memory. -/
def checkedBuild : Config := ⟨true, true, 2 ^ 64 - 1, fun p _ => p⟩

/-- The configuration of a build without overflow checks, reading from memory. -/
def releaseBuild : Config := ⟨false, true, 2 ^ 64 - 1, fun p _ => p⟩

/-! ## Counting -/

/-- Two names and no dictionaries. -/
def unbalanced : List UInt8 := [1, 0, 4, 1] ++ [0, 2, 1, 1, 2, 3, 65, 66] ++ [0, 0] ++ [0, 0] ++ [0, 0]

/-- **C29** does not hold as stated: in a file whose INDEX of names and INDEX of top
dictionaries disagree, `count` is not the number of fonts. -/
theorem C29_count_differs : ∃ fs q q', FontSet.read (tape checkedBuild unbalanced) 0 = (.ok fs, q) ∧
    FontSet.count (tape checkedBuild unbalanced) 0 = (.ok 2, q') ∧ fs.names.data = [[65], [66]] ∧
    fs.operations.length = 0 ∧ fs.records.length = 0 :=
  ⟨_, _, _, rfl, rfl, rfl, rfl, rfl⟩

/-- **C29**, the part that holds.  Whenever the font set can be read, `count` succeeds
with the number of names; it is the number of fonts exactly when there are as many
top dictionaries as names.  Missing: `read` does not check the latter. -/
theorem C29_count_partial (cfg : Config) (data : List UInt8) (hdata : data.length < 2 ^ 61) (base q : Nat) (fs : FontSet)
    (h : FontSet.read (tape cfg data) base = (.ok fs, q)) :
    (∃ q', FontSet.count (tape cfg data) base = (.ok fs.names.data.length, q')) ∧
    fs.encodings.length = fs.operations.length ∧ fs.characterStrings.length = fs.operations.length ∧
    fs.characterSets.length = fs.operations.length ∧ fs.records.length = fs.operations.length := by
  obtain ⟨h0, ⟨p1, p2, p3, p4, p5, dicts, h1, ⟨bs, h2, hs, -⟩, -⟩, h7, h8, h9, h10, -⟩ :=
    (fontSet_iff (tape cfg data) hdata base fs).mp ⟨q, h⟩
  refine ⟨?_, h9, h7, h8, h10⟩
  unfold FontSet.count
  rw [show ∀ f : Nat → Rd Nat, (Rd.position >>= f) (tape cfg data) base = f base (tape cfg data) base from fun _ => rfl,
    exact_header.bind_at]
  refine ⟨fs.header, _, ⟨_, rfl, h0, rfl⟩, ?_⟩
  rw [jumpTo_bind_at]
  refine ⟨p1, h1, ?_⟩
  rw [exact_u16.bind_at]
  have key : ∃ rest, bs = be 2 fs.names.count.toNat ++ rest ∧ fs.names.count.toNat = fs.names.data.length := by
    rcases h2 with ⟨he, rfl⟩ | ⟨h1, h2, h3, h4, rfl⟩
    · rw [he]; exact ⟨[], by decide, rfl⟩
    · refine ⟨be 1 fs.names.offsetSize.toNat ++ ((offsetsFrom 1 fs.names.data).flatMap (be fs.names.offsetSize.toNat) ++
        fs.names.data.flatten), ?_, h3⟩
      unfold encodeIndex
      rw [if_neg h1, h3, List.append_assoc, List.append_assoc]
  obtain ⟨rest, rfl, hc⟩ := key
  exact ⟨fs.names.count, _, ⟨_, rfl, (List.prefix_append _ _).trans hs, rfl⟩, _, by rw [hc]; rfl⟩

example : ∃ fs q, FontSet.read (tape checkedBuild sampleFont) 0 = (.ok fs, q) ∧ fs.names.data.length = 1 ∧
    fs.operations.length = 1 := ⟨_, _, rfl, rfl, rfl⟩

/-! ## The vectors of a font set -/

/-- **C30.**  The vectors are parallel, and the entries at `i` are what the top
dictionary at `i` locates. -/
theorem C30_parallel (cfg : Config) (data : List UInt8) (hdata : data.length < 2 ^ 61) (base q : Nat) (fs : FontSet)
    (h : FontSet.read (tape cfg data) base = (.ok fs, q)) :
    fs.encodings.length = fs.operations.length ∧ fs.characterStrings.length = fs.operations.length ∧
    fs.characterSets.length = fs.operations.length ∧ fs.records.length = fs.operations.length ∧
    ∀ (i : Nat) (top : Operations), fs.operations[i]? = some top → ∃ cs s e r,
      fs.characterStrings[i]? = some cs ∧ fs.characterSets[i]? = some s ∧ fs.encodings[i]? = some e ∧
      fs.records[i]? = some r ∧ FontAt (machine cfg base) data top cs s e r := by
  obtain ⟨-, -, h7, h8, h9, h10, h11⟩ := (fontSet_iff (tape cfg data) hdata base fs).mp ⟨q, h⟩
  exact ⟨h9, h7, h8, h10, h11⟩

/-- **C30.**  In a file, nothing but the top dictionary decides upon the entries: equal
dictionaries, at whatever indices, have equal entries. -/
theorem C30_determined (cfg : Config) (data : List UInt8) (hdata : data.length < 2 ^ 61) (base q : Nat) (fs : FontSet)
    (h : FontSet.read (tape cfg data) base = (.ok fs, q)) (i j : Nat) (top : Operations)
    (hi : fs.operations[i]? = some top) (hj : fs.operations[j]? = some top) :
    fs.characterStrings[i]? = fs.characterStrings[j]? ∧ fs.characterSets[i]? = fs.characterSets[j]? ∧
    fs.encodings[i]? = fs.encodings[j]? ∧ fs.records[i]? = fs.records[j]? := by
  obtain ⟨-, ⟨p1, p2, p3, p4, p5, dicts, -, -, -, -, -, hd⟩, -, -, -, -, h11⟩ :=
    (fontSet_iff (tape cfg data) hdata base fs).mp ⟨q, h⟩
  obtain ⟨_, _, htop⟩ := forall₂_right_mem hd (List.mem_of_getElem? hi)
  have hs := dictOf_small htop
  obtain ⟨cs, s, e, r, e1, e2, e3, e4, hf⟩ := h11 i top hi
  obtain ⟨cs', s', e', r', e1', e2', e3', e4', hf'⟩ := h11 j top hj
  obtain ⟨q1, k1⟩ := (any_entry (tape cfg data) hdata base top hs 0 ⟨cs, s, e, r⟩).mpr hf
  obtain ⟨q2, k2⟩ := (any_entry (tape cfg data) hdata base top hs 0 ⟨cs', s', e', r'⟩).mpr hf'
  rw [k1] at k2
  have k := (Prod.mk.inj k2).1
  clear k1 k2
  injection k with k
  injection k with k1 k2 k3 k4
  subst k1 k2 k3 k4
  rw [e1, e2, e3, e4, e1', e2', e3', e4']
  exact ⟨rfl, rfl, rfl, rfl⟩

/-! ## Layouts -/

/-- **C32.**  A font set whose parts sit where the header and the dictionaries say,
with offsets counted from its beginning, in whatever order and however overlapping,
is read back, if no position exceeds the limit of the tape. -/
theorem C32_layout (cfg : Config) (data : List UInt8) (hdata : data.length < 2 ^ 61) (base limit : Nat) (fs : FontSet)
    (hlimit : limit ≤ cfg.maxSeek) (hlimit' : limit < 2 ^ 64) (h : LaidOut (relativeTo base limit) data base fs) :
    ∃ q, FontSet.read (tape cfg data) base = (.ok fs, q) := by
  rw [fontSet_iff (tape cfg data) hdata base fs]
  refine Transfer.laidOut (N := fun _ => True) (A := relativeTo base limit) (data := data) ⟨?_, ?_, ?_⟩ (fun bs _ h => h)
    (fun _ _ _ _ _ => trivial) h
  · rintro o p bs ⟨h1, h2⟩ - ⟨h3, h4, h5⟩ hs
    exact ⟨p, ⟨by omega, Nat.le_trans h5 hlimit, fun _ => by omega⟩, hs⟩
  · rintro o p ⟨h1, h2⟩ - ⟨h3, h4, h5⟩
    exact ⟨p, ⟨by omega, Nat.le_trans h5 hlimit, fun _ => by omega⟩⟩
  · rintro a b c p bs - - - ⟨rfl, h2, h3⟩ - -
    exact ⟨⟨by simp, by omega, h3, fun _ => rfl⟩, by omega, h3⟩

/-- **C32.**  Nothing else is ever read: reading succeeds with `fs` exactly when `fs`
is laid out there, offsets being resolved in the arithmetic of the machine. -/
theorem C32_layout_iff (cfg : Config) (data : List UInt8) (hdata : data.length < 2 ^ 61) (base : Nat) (fs : FontSet) :
    (∃ q, FontSet.read (tape cfg data) base = (.ok fs, q)) ↔ LaidOut (machine cfg base) data base fs :=
  fontSet_iff (tape cfg data) hdata base fs

/-- **C32.**  With overflow checks, if the offsets of empty private dictionaries are
not negative, the parts of a font set that was read sit at the offsets in the
dictionaries, counted from its beginning. -/
theorem C32_layout_only (cfg : Config) (data : List UInt8) (hdata : data.length < 2 ^ 61) (base q limit : Nat) (fs : FontSet)
    (hbase : base + 2 ^ 31 ≤ limit) (hlimit : limit < 2 ^ 63) (hchecks : cfg.checks = true)
    (hneg : ∀ o, HasPrivate fs o → ∀ offset rest,
      o.map .opPrivate = some (.integer 0 :: .integer offset :: rest) → 0 ≤ offset)
    (h : FontSet.read (tape cfg data) base = (.ok fs, q)) : LaidOut (relativeTo base limit) data base fs := by
  have key : ∀ (o : Int) (p : Nat) (bs : List UInt8), Int32 o → bs ≠ [] → (machine cfg base).addr o p → Sits data p bs →
      0 ≤ o ∧ (p : Int) = base + o ∧ p ≤ limit := by
    rintro o p bs ⟨h1, h2⟩ hne ⟨h3, h4, h5⟩ hs
    have hp : p < data.length := by
      by_contra hp
      unfold Sits at hs
      rw [List.drop_eq_nil_of_le (by omega), List.prefix_nil] at hs
      exact hne hs
    have := h5 hchecks
    omega
  refine Transfer.laidOut (N := fun o => 0 ≤ o) (A := machine cfg base) (data := data) ⟨?_, ?_, ?_⟩ (fun bs _ h => h)
    hneg ((C32_layout_iff cfg data hdata base fs).mp ⟨q, h⟩)
  · intro o p bs h1 h2 h3 h4
    exact ⟨p, key o p bs h1 h2 h3 h4, h4⟩
  · rintro o p ⟨h1, h2⟩ hn ⟨h3, h4, h5⟩
    exact ⟨p, hn, by omega, by omega⟩
  · rintro a b c p bs - - hne ⟨h1, h2, h3, h4⟩ h5 h6
    obtain ⟨g1, -, -⟩ := key c p bs ⟨h2, h3⟩ hne h5 h6
    exact ⟨⟨h4 hchecks, g1, h3⟩, h2, h3⟩

example : ∃ fs, LaidOut (relativeTo 0 (2 ^ 32)) sampleFont 0 fs ∧ fs.records.length = 1 := by
  obtain ⟨fs, q, h, h1, h2, h3⟩ : ∃ fs q, FontSet.read (tape checkedBuild sampleFont) 0 = (.ok fs, q) ∧
      fs.records.length = 1 ∧ (fs.operations.map fun o => o.map .opPrivate) = [some [.integer 2, .integer 30]] ∧
      (fs.records.all fun | .characterIDKeyed _ => false | .characterNameKeyed _ => true) := ⟨_, _, rfl, rfl, rfl, rfl⟩
  refine ⟨fs, C32_layout_only checkedBuild sampleFont (by decide) 0 q _ fs (by norm_num) (by norm_num) rfl ?_ h, h1⟩
  intro o ho offset rest hp
  rcases ho with ⟨i, r, ho, -⟩ | ⟨r, hr, -⟩
  · have := List.mem_map_of_mem (f := fun o => Operations.map o .opPrivate) (List.mem_of_getElem? ho)
    rw [h2, List.mem_singleton, hp] at this
    simp only [Option.some.injEq, List.cons.injEq, Number.integer.injEq] at this
    omega
  · exact absurd (List.all_eq_true.mp h3 _ hr) (by simp)

/-! ## Embedding -/

/-- Without overflow checks, or if no empty private dictionary has a negative offset, a
font set can be moved. -/
theorem embed (cfg : Config) (pre font post : List UInt8) (q : Nat) (fs : FontSet)
    (hdata : (pre ++ font ++ post).length < 2 ^ 61) (hseek : cfg.maxSeek = 2 ^ 63 - 1 ∨ cfg.maxSeek = 2 ^ 64 - 1)
    (hneg : cfg.checks = true → ∀ o, HasPrivate fs o → ∀ offset rest,
      o.map .opPrivate = some (.integer 0 :: .integer offset :: rest) → 0 ≤ offset)
    (h : FontSet.read (tape cfg font) 0 = (.ok fs, q)) :
    ∃ q', FontSet.read (tape cfg (pre ++ font ++ post)) pre.length = (.ok fs, q') := by
  have hlen : pre.length + font.length ≤ (pre ++ font ++ post).length := by simp only [List.length_append]; omega
  have hsit : ∀ p bs, bs ≠ [] → Sits font p bs → p < font.length ∧ Sits (pre ++ font ++ post) (pre.length + p) bs := by
    intro p bs hne hs
    unfold Sits at *
    refine ⟨?_, ?_⟩
    · by_contra hp
      rw [List.drop_eq_nil_of_le (by omega), List.prefix_nil] at hs
      exact hne hs
    · rw [List.append_assoc, List.drop_append, List.drop_of_length_le (by omega), List.nil_append, Nat.add_sub_cancel_left]
      exact hs.trans (by rw [List.drop_append]; exact List.prefix_append _ _)
  have hpre := hdata
  simp only [List.length_append] at hpre
  rw [C32_layout_iff cfg _ hdata]
  have hl := (C32_layout_iff cfg font (by omega) 0 fs).mp ⟨q, h⟩
  refine Transfer.laidOut (N := fun o => cfg.checks = true → 0 ≤ o) ⟨?_, ?_, ?_⟩ ?_ ?_ hl
  · rintro o p bs ⟨h1, h2⟩ hne ⟨h3, h4, h5⟩ hs
    obtain ⟨g1, g2⟩ := hsit p bs hne hs
    exact ⟨pre.length + p, ⟨by omega, by omega, fun _ => by omega⟩, g2⟩
  · rintro o p ⟨h1, h2⟩ hn ⟨h3, h4, h5⟩
    refine ⟨((pre.length + o) % 2 ^ 64).toNat, by omega, ?_, fun hc => ?_⟩
    · omega
    · have := hn hc
      omega
  · rintro a b c p bs - - hne ⟨h1, h2, h3, h4⟩ h5 h6
    exact ⟨⟨h1, h2, h3, h4⟩, h2, h3⟩
  · intro bs hne hs
    have := (hsit 0 bs hne hs).2
    rwa [Nat.add_zero] at this
  · intro o ho offset rest hp hc
    exact hneg hc o ho offset rest hp

/-- **C31**, in a build without overflow checks, for a tape over a file (positions up to
`2^63 - 1`) or over memory (up to `2^64 - 1`): what is read from the beginning of a
byte string is read from that byte string anywhere in a file. -/
theorem C31_embed_unchecked (cfg : Config) (hchecks : cfg.checks = false) (pre font post : List UInt8) (q : Nat) (fs : FontSet)
    (hdata : (pre ++ font ++ post).length < 2 ^ 61) (hseek : cfg.maxSeek = 2 ^ 63 - 1 ∨ cfg.maxSeek = 2 ^ 64 - 1)
    (h : FontSet.read (tape cfg font) 0 = (.ok fs, q)) :
    ∃ q', FontSet.read (tape cfg (pre ++ font ++ post)) pre.length = (.ok fs, q') :=
  embed cfg pre font post q fs hdata hseek (by simp [hchecks]) h

example : ∃ fs q q', FontSet.read (tape releaseBuild sampleFont) 0 = (.ok fs, q) ∧
    FontSet.read (tape releaseBuild ([7, 7] ++ sampleFont ++ [9])) 2 = (.ok fs, q') := by
  obtain ⟨fs, q, h⟩ : ∃ fs q, FontSet.read (tape releaseBuild sampleFont) 0 = (.ok fs, q) := ⟨_, _, rfl⟩
  obtain ⟨q', h'⟩ := C31_embed_unchecked releaseBuild rfl [7, 7] sampleFont [9] q fs (by decide) (.inr rfl) h
  exact ⟨fs, q, q', h, h'⟩

/-- **C31**, over a file, in all builds. -/
theorem C31_embed_file (cfg : Config) (pre font post : List UInt8) (q : Nat) (fs : FontSet)
    (hdata : (pre ++ font ++ post).length < 2 ^ 61) (hseek : cfg.maxSeek = 2 ^ 63 - 1)
    (h : FontSet.read (tape cfg font) 0 = (.ok fs, q)) :
    ∃ q', FontSet.read (tape cfg (pre ++ font ++ post)) pre.length = (.ok fs, q') := by
  refine embed cfg pre font post q fs hdata (.inl hseek) (fun hc o ho offset rest hp => ?_) h
  have hf : font.length < 2 ^ 61 := by simp only [List.length_append] at hdata; omega
  obtain ⟨-, ⟨_, _, _, _, _, _, -, -, -, -, -, hd⟩, -, -, -, h10, h11⟩ := (C32_layout_iff cfg font hf 0 fs).mp ⟨q, h⟩
  have key : ∀ r, Small o → PrivateAt (machine cfg 0) font o r → 0 ≤ offset := by
    rintro r hs ⟨size', offset', rest', p, chunk, g1, ⟨g2, g3, g4⟩, -⟩
    have := hs _ _ offset hp (by simp)
    rw [hp] at g1
    simp only [Option.some.injEq, List.cons.injEq, Number.integer.injEq] at g1
    obtain ⟨rfl, rfl, rfl⟩ := g1
    omega
  rcases ho with ⟨i, r, ho, hr⟩ | ⟨r, hr, ho⟩
  · obtain ⟨cs, s, e, r', -, -, -, e4, hfont⟩ := h11 i o ho
    rw [hr] at e4
    injection e4 with e4
    subst e4
    obtain ⟨_, _, hdict⟩ := forall₂_right_mem hd (List.mem_of_getElem? ho)
    exact key r (dictOf_small hdict) hfont.2.2.2.2
  · obtain ⟨i, hi⟩ := List.mem_iff_getElem?.mp hr
    have hlt : i < fs.operations.length := by
      have := (List.getElem?_eq_some_iff.mp hi).1
      omega
    obtain ⟨cs, s, e, r', -, -, -, e4, hfont⟩ := h11 i _ (List.getElem?_eq_getElem hlt)
    rw [hi] at e4
    injection e4 with e4
    subst e4
    obtain ⟨-, -, ⟨_, _, _, -, -, -, g1⟩, g2⟩ := hfont.2.2.2
    obtain ⟨_, _, hdict⟩ := forall₂_right_mem g1 ho
    obtain ⟨r', -, hr'⟩ := forall₂_left_mem g2 ho
    exact key r' (dictOf_small hdict) hr'

/-- A font set between other bytes, with negative numbers but no negative offset, in a file. -/
example : ∃ fs q q', FontSet.read (tape ⟨true, true, 2 ^ 63 - 1, fun p _ => p⟩ sampleFont) 0 = (.ok fs, q) ∧
    FontSet.read (tape ⟨true, true, 2 ^ 63 - 1, fun p _ => p⟩ ([7, 7] ++ sampleFont ++ [9])) 2 = (.ok fs, q') := by
  obtain ⟨fs, q, h⟩ : ∃ fs q, FontSet.read (tape ⟨true, true, 2 ^ 63 - 1, fun p _ => p⟩ sampleFont) 0 = (.ok fs, q) := ⟨_, _, rfl⟩
  obtain ⟨q', h'⟩ := C31_embed_file ⟨true, true, 2 ^ 63 - 1, fun p _ => p⟩ [7, 7] sampleFont [9] q fs (by decide) rfl h
  exact ⟨fs, q, q', h, h'⟩

/-- A font whose private dictionary is empty, with the offset -1. -/
def negativeFont : List UInt8 :=
  [1, 0, 4, 1] ++ [0, 1, 1, 1, 2, 65] ++ [0, 1, 1, 1, 6, 163, 17, 139, 138, 18] ++ [0, 0] ++ [0, 0] ++
  [0, 1, 1, 1, 2, 14]

/-- **C31** does not hold as stated in a build with overflow checks, reading from
memory: an empty private dictionary with a negative offset is accepted at the
beginning of a tape, and panics elsewhere. -/
theorem C31_negative_offset :
    (∃ fs q, FontSet.read (tape checkedBuild negativeFont) 0 = (.ok fs, q)) ∧
    (∃ q, FontSet.read (tape checkedBuild (0 :: negativeFont)) 1 = (.panic .overflow, q)) :=
  ⟨⟨_, _, rfl⟩, ⟨_, rfl⟩⟩

/-- **C31**, in all builds, over files and memory.  Missing: empty private dictionaries
with negative offsets, in a build with overflow checks, over memory. -/
theorem C31_embed_partial (cfg : Config) (pre font post : List UInt8) (q : Nat) (fs : FontSet)
    (hdata : (pre ++ font ++ post).length < 2 ^ 61) (hseek : cfg.maxSeek = 2 ^ 63 - 1 ∨ cfg.maxSeek = 2 ^ 64 - 1)
    (hneg : cfg.checks = true → ∀ o, HasPrivate fs o → ∀ offset rest,
      o.map .opPrivate = some (.integer 0 :: .integer offset :: rest) → 0 ≤ offset)
    (h : FontSet.read (tape cfg font) 0 = (.ok fs, q)) :
    ∃ q', FontSet.read (tape cfg (pre ++ font ++ post)) pre.length = (.ok fs, q') :=
  embed cfg pre font post q fs hdata hseek hneg h

example : ∃ q fs, FontSet.read (tape ⟨true, true, 2 ^ 63 - 1, fun p _ => p⟩ sampleCID) 0 = (.ok fs, q) ∧
    fs.records.length = 1 := ⟨_, _, rfl, rfl⟩

/-! ## Records -/

/-- **C33.**  A record is keyed by identifiers exactly if the top dictionary has `ROS`,
and reading succeeds exactly with what the dictionary locates. -/
theorem C33_kind (cfg : Config) (data : List UInt8) (hdata : data.length < 2 ^ 61) (base p : Nat) (top : Operations)
    (htop : Small top) (cs : Index) (r : Record) :
    (∃ q, Record.read base top cs (tape cfg data) p = (.ok r, q)) ↔
      ((∃ r', r = .characterIDKeyed r' ∧ top.map .opROS ≠ none ∧ CIDAt (machine cfg base) data top cs.count.toNat r') ∨
       (∃ r', r = .characterNameKeyed r' ∧ top.map .opROS = none ∧ PrivateAt (machine cfg base) data top r')) := by
  rw [any_record (tape cfg data) hdata base top htop cs p r]
  cases r with
  | characterIDKeyed r =>
    constructor
    · intro h
      refine .inl ⟨r, rfl, ?_, h⟩
      obtain ⟨⟨a, b, h, -⟩, -⟩ := h
      rw [h]; simp
    · rintro (⟨r', h, -, h'⟩ | ⟨r', h, -⟩)
      · injection h with h; subst h; exact h'
      · simp at h
  | characterNameKeyed r =>
    constructor
    · rintro ⟨h, h'⟩
      exact .inr ⟨r, rfl, h, h'⟩
    · rintro (⟨r', h, -⟩ | ⟨r', h, h1, h2⟩)
      · simp at h
      · injection h with h; subst h; exact ⟨h1, h2⟩

/-- **C33.**  A missing or malformed `Private` is an error. -/
theorem C33_private_required (cfg : Config) (data : List UInt8) (base p : Nat) (top : Operations) (cs : Index)
    (hros : top.map .opROS = none)
    (h : ¬ ∃ size offset rest, top.map .opPrivate = some (.integer size :: .integer offset :: rest)) :
    Record.read base top cs (tape cfg data) p = (.err (.raised .missingOperation), p) ∨
    Record.read base top cs (tape cfg data) p = (.err (.raised .malformedOperation), p) := by
  have key : getII top .opPrivate = .err (.raised .missingOperation) ∨ getII top .opPrivate = .err (.raised .malformedOperation) := by
    rcases hg : getII top .opPrivate with ⟨a, b⟩ | e | x
    · exact absurd ⟨a, b, getPrivate_ok.mp hg⟩ h
    · unfold getII at hg
      split at hg <;> simp_all
    · exact absurd hg (getII_no_panic _ _ _)
  unfold Record.read PrivateRecord.read
  have hc : ¬ top.containsKey .opROS = true := by simp [Operations.containsKey, hros]
  rw [if_neg hc]
  rcases key with key | key <;> rw [key]
  · exact .inl rfl
  · exact .inr rfl

/-- A dictionary with a `Private` of one operand. -/
example (cfg : Config) (data : List UInt8) (base p : Nat) (cs : Index) :
    let top := Operations.empty.insert .opPrivate [.integer 2]
    Record.read base top cs (tape cfg data) p = (.err (.raised .missingOperation), p) ∨
    Record.read base top cs (tape cfg data) p = (.err (.raised .malformedOperation), p) := by
  refine C33_private_required cfg data base p _ cs rfl ?_
  rintro ⟨_, _, _, h⟩
  simp [Operations.insert] at h

/-- **C33.**  A missing or malformed `CharStrings` is an error: the font cannot be
read. -/
theorem C33_character_strings_required (cfg : Config) (data : List UInt8) (base p : Nat) (top : Operations)
    (h : ¬ ∃ offset, IntOf top .opCharStrings offset) :
    FontEntry.read base top (tape cfg data) p = (.err (.raised .missingOperation), p) ∨
    FontEntry.read base top (tape cfg data) p = (.err (.raised .malformedOperation), p) := by
  have key : getI top .opCharStrings = .err (.raised .missingOperation) ∨
      getI top .opCharStrings = .err (.raised .malformedOperation) := by
    rcases hg : getI top .opCharStrings with a | e | x
    · exact absurd ⟨a, getI_ok.mp hg⟩ h
    · unfold getI at hg
      split at hg <;> simp_all
    · exact absurd hg (getI_no_panic _ _ _)
  unfold FontEntry.read
  rcases key with key | key <;> rw [key]
  · exact .inl rfl
  · exact .inr rfl

/-- A dictionary with a real number for an offset. -/
example (cfg : Config) (data : List UInt8) (base p : Nat) :
    let top := Operations.empty.insert .opCharStrings [.real (.inf false)]
    FontEntry.read base top (tape cfg data) p = (.err (.raised .missingOperation), p) ∨
    FontEntry.read base top (tape cfg data) p = (.err (.raised .malformedOperation), p) := by
  refine C33_character_strings_required cfg data base p _ ?_
  rintro ⟨_, _, h⟩
  simp [Given, Operations.insert] at h

/-- **C33.**  A `ROS` without exactly three operands is an error. -/
theorem C33_ros_malformed (cfg : Config) (data : List UInt8) (base p : Nat) (top : Operations) (cs : Index) (operands : List Number)
    (hros : top.map .opROS = some operands) (h : operands.length ≠ 3) :
    Record.read base top cs (tape cfg data) p = (.err (.raised .malformedRecord), p) := by
  unfold Record.read CIDRecord.read
  have hc : top.containsKey .opROS = true := by simp [Operations.containsKey, hros]
  rw [if_pos hc, get_ros, hros]
  rcases operands with _ | ⟨a, _ | ⟨b, _ | ⟨c, _ | ⟨d, l⟩⟩⟩⟩ <;> first | rfl | simp at h

example (cfg : Config) (data : List UInt8) (base p : Nat) (cs : Index) :
    Record.read base (Operations.empty.insert .opROS [.integer 1, .integer 2]) cs (tape cfg data) p =
      (.err (.raised .malformedRecord), p) :=
  C33_ros_malformed cfg data base p _ cs [.integer 1, .integer 2] rfl (by decide)

/-- **C33.**  A missing or malformed `FDSelect` is an error. -/
theorem C33_select_required (cfg : Config) (data : List UInt8) (base p : Nat) (top : Operations) (cs : Index)
    (hros : top.map .opROS ≠ none) (h : ¬ ∃ offset, IntOf top .opFDSelect offset) :
    ∃ e, Record.read base top cs (tape cfg data) p = (.err (.raised e), p) ∧
      (e = .missingOperation ∨ e = .malformedOperation ∨ e = .malformedRecord) := by
  have key : getI top .opFDSelect = .err (.raised .missingOperation) ∨
      getI top .opFDSelect = .err (.raised .malformedOperation) := by
    rcases hg : getI top .opFDSelect with a | e | x
    · exact absurd ⟨a, getI_ok.mp hg⟩ h
    · unfold getI at hg
      split at hg <;> simp_all
    · exact absurd hg (getI_no_panic _ _ _)
  rcases hm : top.map .opROS with _ | operands
  · exact absurd hm hros
  by_cases hl : operands.length = 3
  · unfold Record.read CIDRecord.read
    have hc : top.containsKey .opROS = true := by simp [Operations.containsKey, hm]
    rw [if_pos hc, get_ros, hm]
    rcases operands with _ | ⟨a, _ | ⟨b, _ | ⟨c, _ | ⟨d, l⟩⟩⟩⟩ <;> try (simp at hl; done)
    rcases key with key | key <;> rw [key]
    · exact ⟨_, rfl, .inl rfl⟩
    · exact ⟨_, rfl, .inr (.inl rfl)⟩
  · exact ⟨_, C33_ros_malformed cfg data base p top cs operands hm hl, .inr (.inr rfl)⟩

/-- **C34.**  A record keyed by identifiers: `ROS` has three operands, the first two
the string identifiers of the registry and of the ordering, the last one the
supplement; there is one private record per font dictionary, and the record at `i` is
what the font dictionary at `i` locates. -/
theorem C34_records (cfg : Config) (data : List UInt8) (hdata : data.length < 2 ^ 61) (base p q : Nat) (top : Operations)
    (cs : Index) (r : CIDRecord) (h : CIDRecord.read base top cs (tape cfg data) p = (.ok r, q)) :
    (∃ a b, top.map .opROS = some [a, b, r.supplement] ∧ StandsForID a r.registry ∧ StandsForID b r.ordering) ∧
    r.records.length = r.operations.length ∧
    ∀ (i : Nat) (o : Operations) (x : PrivateRecord), r.operations[i]? = some o → r.records[i]? = some x →
      PrivateAt (machine cfg base) data o x := by
  obtain ⟨h1, -, -, h4⟩ := (any_cid (tape cfg data) hdata base top cs p r).mp ⟨q, h⟩
  refine ⟨h1, h4.length_eq.symm, ?_⟩
  intro i o x ho hx
  obtain ⟨hi, rfl⟩ := List.getElem?_eq_some_iff.mp ho
  obtain ⟨hi', rfl⟩ := List.getElem?_eq_some_iff.mp hx
  exact h4.get hi hi'

/-- **C34.**  The font dictionaries are those of the INDEX at `FDArray`, in order, and the
mapping of glyphs to them is at `FDSelect`; conversely, all that suffices. -/
theorem C34_iff (cfg : Config) (data : List UInt8) (hdata : data.length < 2 ^ 61) (base p : Nat) (top : Operations)
    (cs : Index) (r : CIDRecord) :
    (∃ q, CIDRecord.read base top cs (tape cfg data) p = (.ok r, q)) ↔
      CIDAt (machine cfg base) data top cs.count.toNat r :=
  any_cid (tape cfg data) hdata base top cs p r

example : ∃ fs q r, FontSet.read (tape checkedBuild sampleCID) 0 = (.ok fs, q) ∧ fs.records = [.characterIDKeyed r] ∧
    r.records.length = 1 ∧ r.registry = 1 ∧ r.ordering = 2 ∧ r.encoding = .format3 3 1 [⟨0, 0⟩] 1 :=
  ⟨_, _, _, rfl, rfl, rfl, rfl, rfl, rfl⟩

/-! ## FDSelect -/

/-- **C35.**  Reading what was serialised, anywhere on a tape, returns it and consumes
exactly its bytes. -/
theorem C35_round_trip (cfg : Config) (pre post : List UInt8) (cs : Index) (e : DictEncoding)
    (h : SelectFits cs.count.toNat e) :
    DictEncoding.read cs (tape cfg (pre ++ encodeSelect e ++ post)) pre.length = (.ok e, pre.length + (encodeSelect e).length) :=
  Exact.parse (DictEncoding.exact_select cs) ⟨h, rfl⟩ cfg pre post

/-- **C35.**  Whatever is read, from whatever bytes, is what is serialised there; in
format 0 there is one entry per character string. -/
theorem C35_exact (cfg : Config) (data : List UInt8) (p q : Nat) (cs : Index) (e : DictEncoding)
    (h : DictEncoding.read cs (tape cfg data) p = (.ok e, q)) :
    SelectFits cs.count.toNat e ∧ encodeSelect e <+: data.drop p ∧ q = p + (encodeSelect e).length := by
  obtain ⟨bs, ⟨h1, rfl⟩, h2, h3⟩ := (DictEncoding.exact_select cs _ _ _ _).mp h
  exact ⟨h1, h2, h3⟩

/-- **C35.**  Other formats are rejected. -/
theorem C35_unknown_format (cfg : Config) (pre post : List UInt8) (b : UInt8) (cs : Index) (h0 : b ≠ 0) (h3 : b ≠ 3) :
    DictEncoding.read cs (tape cfg (pre ++ b :: post)) pre.length =
      (.err (.raised .unknownDictionaryEncodingFormat), pre.length) := by
  unfold DictEncoding.read
  rw [Rd.bind_of_ok (peek_u8 _ _ b post (by simp [tape])), if_neg h0, if_neg h3]
  rfl

/-- **C35.**  Reading never panics. -/
theorem C35_total (cfg : Config) (data : List UInt8) (p : Nat) (cs : Index) :
    (∃ e q, DictEncoding.read cs (tape cfg data) p = (.ok e, q)) ∨
    (∃ e q, DictEncoding.read cs (tape cfg data) p = (.err e, q) ∧ (e = .eof ∨ e = .raised .malformedTable ∨
      e = .raised .unknownDictionaryEncodingFormat)) := by
  rcases total_of (DictEncoding.errs_select cs) (DictEncoding.noPanic_select cs) (tape cfg data) p with h | ⟨e, q, he, h⟩
  · exact .inl h
  · exact .inr ⟨e, q, h, he⟩

/-- **C33.**  With a missing or malformed `FDArray` reading fails, unless a build with
overflow checks already panics because of where `FDSelect` says to be. -/
theorem C33_array_required (cfg : Config) (data : List UInt8) (base p : Nat) (top : Operations) (cs : Index)
    (hros : top.map .opROS ≠ none) (h : ¬ ∃ offset, IntOf top .opFDArray offset) :
    (∃ e q, Record.read base top cs (tape cfg data) p = (.err e, q)) ∨
    (Record.read base top cs (tape cfg data) p = (.panic .overflow, p) ∧ cfg.checks = true ∧
      ∃ offset, IntOf top .opFDSelect offset ∧ (offset < 0 ∨ 2 ^ 64 ≤ base + offset)) := by
  by_cases hs : ∃ offset, IntOf top .opFDSelect offset
  swap
  · obtain ⟨e, he, -⟩ := C33_select_required cfg data base p top cs hros hs
    exact .inl ⟨_, _, he⟩
  obtain ⟨offset, ho⟩ := hs
  rcases hm : top.map .opROS with _ | operands
  · exact absurd hm hros
  by_cases hl : operands.length = 3
  swap
  · exact .inl ⟨_, _, C33_ros_malformed cfg data base p top cs operands hm hl⟩
  have key : ∃ e, getI top .opFDArray = .err e := by
    rcases hg : getI top .opFDArray with a | e | x
    · exact absurd ⟨a, getI_ok.mp hg⟩ h
    · exact ⟨e, rfl⟩
    · exact absurd hg (getI_no_panic _ _ _)
  obtain ⟨e, key⟩ := key
  unfold Record.read CIDRecord.read
  have hc : top.containsKey .opROS = true := by simp [Operations.containsKey, hm]
  rw [if_pos hc, get_ros, hm]
  rcases operands with _ | ⟨a, _ | ⟨b, _ | ⟨c, _ | ⟨d, l⟩⟩⟩⟩ <;> try (simp at hl; done)
  rw [getI_ok.mpr ho, key]
  dsimp only
  show (_ ∨ _)
  rcases hj : jumpTo base offset (tape cfg data) p with ⟨u | e' | x, q⟩
  · rcases C35_total cfg data q cs with ⟨enc, q', hq⟩ | ⟨e', q', hq, -⟩
    · refine .inl ⟨e, q', ?_⟩
      refine Rd.bind_of_err ?_
      rw [cfg_bind, Rd.bind_of_ok (m := Rd.ofRes (.ok offset)) (p' := p) rfl, Rd.bind_of_ok hj, Rd.bind_of_ok hq]
      exact Rd.bind_of_err rfl
    · refine .inl ⟨e', q', ?_⟩
      refine Rd.bind_of_err ?_
      rw [cfg_bind, Rd.bind_of_ok (m := Rd.ofRes (.ok offset)) (p' := p) rfl, Rd.bind_of_ok hj]
      exact Rd.bind_of_err hq
  · refine .inl ⟨e', q, ?_⟩
    refine Rd.bind_of_err ?_
    rw [cfg_bind, Rd.bind_of_ok (m := Rd.ofRes (.ok offset)) (p' := p) rfl]
    exact Rd.bind_of_err hj
  · have hx : x = .overflow ∧ q = p ∧ cfg.checks = true ∧ 2 ^ 64 ≤ base + toU 64 offset := by
      rw [jumpTo_eq] at hj
      split at hj
      · split at hj <;> cases hj
      · split at hj
        · cases hj
          exact ⟨rfl, rfl, by assumption, by omega⟩
        · split at hj <;> cases hj
    obtain ⟨rfl, rfl, hk, hb⟩ := hx
    refine .inr ⟨?_, hk, offset, ho, ?_⟩
    · refine Rd.bind_of_panic ?_
      rw [cfg_bind, Rd.bind_of_ok (m := Rd.ofRes (.ok offset)) (p' := q) rfl]
      exact Rd.bind_of_panic hj
    · by_contra hn
      unfold toU at hb
      omega

example : SelectFits 3 (.format0 0 [1, 0, 2]) ∧ SelectFits 3 (.format3 3 2 [⟨0, 1⟩, ⟨2, 0⟩] 3) ∧
    encodeSelect (.format3 3 2 [⟨0, 1⟩, ⟨2, 0⟩] 3) = [3, 0, 2, 0, 0, 1, 0, 2, 0, 0, 3] :=
  ⟨⟨rfl, rfl⟩, ⟨rfl, rfl⟩, by decide⟩

/-! ## Panics -/

/-- A font whose private dictionary has the size -1. -/
def negativeSize : List UInt8 :=
  [1, 0, 4, 1] ++ [0, 1, 1, 1, 2, 65] ++ [0, 1, 1, 1, 6, 163, 17, 138, 139, 18] ++ [0, 0] ++ [0, 0] ++
  [0, 1, 1, 1, 2, 14]

/-- A font with a custom character set, of format 0 at 26, and no glyphs. -/
def noGlyphs : List UInt8 :=
  [1, 0, 4, 1] ++ [0, 1, 1, 1, 2, 65] ++ [0, 1, 1, 1, 5, 162, 17, 164, 15] ++ [0, 0] ++ [0, 0] ++
  [0, 0] ++ [0]

/-- **C36** does not hold as stated: a private dictionary of a negative size panics in
all builds. -/
theorem C36_panics_for_negative_size :
    (∃ q, FontSet.read (tape checkedBuild negativeSize) 0 = (.panic .capacity, q)) ∧
    (∃ q, FontSet.read (tape releaseBuild negativeSize) 0 = (.panic .capacity, q)) :=
  ⟨⟨_, rfl⟩, ⟨_, rfl⟩⟩

/-- **C36** does not hold as stated: so does a font without glyphs that has a character
set of format 0. -/
theorem C36_panics_for_no_glyphs :
    (∃ q, FontSet.read (tape checkedBuild noGlyphs) 0 = (.panic .overflow, q)) ∧
    (∃ q, FontSet.read (tape releaseBuild noGlyphs) 0 = (.panic .capacity, q)) :=
  ⟨⟨_, rfl⟩, ⟨_, rfl⟩⟩

/-- **C36** does not hold as stated: so does a negative offset in a build with overflow
checks, unless the font set is at the beginning of the tape. -/
theorem C36_panics_for_negative_offset :
    ∃ q, FontSet.read (tape checkedBuild (0 :: negativeFont)) 1 = (.panic .overflow, q) :=
  ⟨_, rfl⟩

/-- **C36**, the part that holds.  A panic has one of the causes above: some byte string
in the file is a dictionary that has a negative offset, or offsets whose sum is
negative or too big, in builds with overflow checks; or a negative size; or a character
set in spite of having no glyphs.  Missing: these. -/
theorem C36_panics_partial (cfg : Config) (data : List UInt8) (hdata : data.length < 2 ^ 61) (base : Nat)
    (hbase : base + 2 ^ 31 ≤ 2 ^ 64) (x : Panic) (q : Nat) (h : FontSet.read (tape cfg data) base = (.panic x, q)) :
    ∃ chunk top, chunk <:+: data ∧ DictOf chunk top ∧ Culprit cfg data base top x :=
  panics_fontSet (tape cfg data) hdata base hbase x q h

/-- The panic of `negativeSize` has a culprit. -/
example : ∃ chunk top, chunk <:+: negativeSize ∧ DictOf chunk top ∧ Culprit checkedBuild negativeSize 0 top .capacity := by
  obtain ⟨q, h⟩ := C36_panics_for_negative_size.1
  exact C36_panics_partial checkedBuild negativeSize (by decide) 0 (by decide) _ q h

/-- **C36.**  Without overflow checks the only panic is that of reserving memory. -/
theorem C36_unchecked_partial (cfg : Config) (data : List UInt8) (hdata : data.length < 2 ^ 61) (base : Nat)
    (hbase : base + 2 ^ 31 ≤ 2 ^ 64) (hchecks : cfg.checks = false) (x : Panic) (q : Nat)
    (h : FontSet.read (tape cfg data) base = (.panic x, q)) : x = .capacity ∧ cfg.prealloc = true := by
  obtain ⟨chunk, top, -, -, hc⟩ := C36_panics_partial cfg data hdata base hbase x q h
  clear h
  cases hc with
  | offset h => rw [hchecks] at h; simp at h
  | privateOffset h => rw [hchecks] at h; simp at h
  | subroutines h => rw [hchecks] at h; simp at h
  | size h => exact ⟨rfl, h⟩
  | glyphs _ _ _ _ _ h =>
    rcases h with ⟨-, h⟩ | h
    · rw [hchecks] at h; simp at h
    · exact h

/-- The panic of `noGlyphs` without overflow checks. -/
example : (∃ q, FontSet.read (tape releaseBuild noGlyphs) 0 = (.panic .capacity, q)) ∧ noGlyphs.length < 2 ^ 61 ∧
    0 + 2 ^ 31 ≤ 2 ^ 64 ∧ releaseBuild.checks = false :=
  ⟨C36_panics_for_no_glyphs.2, by decide, by decide, rfl⟩

end PS
