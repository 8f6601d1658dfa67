import Verif.Spec.Select
import Verif.Props.Writer
/-!
# Properties: the private dictionaries of the glyphs
-/
namespace PS
open Spec

/-! ## C72 -/

/-- **C72**, the full statement: in a font keyed by character identifiers that was read,
FDSelect gives each glyph one dictionary, and that dictionary exists. -/
def C72Statement : Prop := ∀ (cfg : Config) (data : List UInt8) (base q : Nat) (fs : FontSet) (k : Nat) (cs : Index)
  (r : CIDRecord), data.length < 2 ^ 61 → FontSet.read (tape cfg data) base = (.ok fs, q) →
  fs.characterStrings[k]? = some cs → fs.records[k]? = some (.characterIDKeyed r) →
  ∀ g < cs.data.length, ∃ d, Selects r.encoding g d ∧ d < r.records.length ∧ ∀ d', Selects r.encoding g d' → d' = d

theorem cid_record {cfg : Config} {data : List UInt8} (hdata : data.length < 2 ^ 61) {base q : Nat} {fs : FontSet}
    (h : FontSet.read (tape cfg data) base = (.ok fs, q)) {k : Nat} {cs : Index} {r : CIDRecord}
    (hcs : fs.characterStrings[k]? = some cs) (hr : fs.records[k]? = some (.characterIDKeyed r)) :
    ∃ top, fs.operations[k]? = some top ∧ CIDAt (machine cfg base) data top cs.data.length r := by
  obtain ⟨-, -, h1, -, -, h2, h3⟩ := (C32_layout_iff cfg data hdata base fs).mp ⟨q, h⟩
  have hk : k < fs.operations.length := by
    rw [← h1]
    exact (List.getElem?_eq_some_iff.mp hcs).1
  obtain ⟨cs', _, _, r', e1, -, -, e2, -, -, -, hrec⟩ := h3 k _ (List.getElem?_eq_getElem hk)
  rw [hcs] at e1
  rw [hr] at e2
  injection e1 with e1
  injection e2 with e2
  subst e1 e2
  exact ⟨_, List.getElem?_eq_getElem hk, hrec⟩

theorem pairwise_le {l : List Nat} (h : l.Pairwise (· < ·)) {i j a b : Nat} (hij : i ≤ j) (ha : l[i]? = some a)
    (hb : l[j]? = some b) : a ≤ b := by
  obtain ⟨hi, rfl⟩ := List.getElem?_eq_some_iff.mp ha
  obtain ⟨hj, rfl⟩ := List.getElem?_eq_some_iff.mp hb
  rcases Nat.lt_or_eq_of_le hij with h' | rfl
  · exact Nat.le_of_lt (List.pairwise_iff_getElem.mp h i j hi hj h')
  · exact Nat.le_refl _

/-- In a list that goes from `a ≤ g` to `b > g` there are neighbours between which `g` is. -/
theorem exists_between (l : List Nat) (g : Nat) : ∀ a b, l.head? = some a → l.getLast? = some b → a ≤ g → g < b →
    ∃ i x y, l[i]? = some x ∧ l[i + 1]? = some y ∧ x ≤ g ∧ g < y := by
  induction l with
  | nil => simp
  | cons x l ih =>
    intro a b ha hb h1 h2
    simp only [List.head?_cons, Option.some.injEq] at ha
    subst ha
    cases l with
    | nil =>
      simp only [List.getLast?_singleton, Option.some.injEq] at hb
      omega
    | cons y l =>
      by_cases hy : g < y
      · exact ⟨0, x, y, rfl, rfl, h1, hy⟩
      · obtain ⟨i, u, v, e1, e2, e3⟩ := ih y b rfl (by simpa using hb) (by omega) h2
        exact ⟨i + 1, u, v, by simpa using e1, by simpa using e2, e3⟩

theorem bounds_getElem? {ranges : List Range3} {sentinel : UInt16} {i : Nat} {r : Range3} (h : ranges[i]? = some r) :
    (bounds ranges sentinel)[i]? = some r.firstGlyphID.toNat := by
  obtain ⟨hi, rfl⟩ := List.getElem?_eq_some_iff.mp h
  rw [bounds, List.getElem?_append_left (by simpa using hi), List.getElem?_map, h]
  rfl

/-- What FDSelect gives is a number that it mentions. -/
theorem selects_mentioned {e : DictEncoding} {g d : Nat} (h : Selects e g d) : d ∈ mentioned e := by
  cases e with
  | format0 f ids =>
    obtain ⟨id, h, rfl⟩ := h
    exact List.mem_map.mpr ⟨id, List.mem_of_getElem? h, rfl⟩
  | format3 f n ranges s =>
    obtain ⟨i, r, _, h, -, -, -, rfl⟩ := h
    exact List.mem_map.mpr ⟨r, List.mem_of_getElem? h, rfl⟩

/-- **C72** In order, the ranges give a glyph one dictionary at most. -/
theorem C72_unique {f : UInt8} {n sentinel : UInt16} {ranges : List Range3}
    (ho : (bounds ranges sentinel).Pairwise (· < ·)) {g d d' : Nat} (h : Selects (.format3 f n ranges sentinel) g d)
    (h' : Selects (.format3 f n ranges sentinel) g d') : d = d' := by
  obtain ⟨i, r, x, h1, h2, h3, h4, rfl⟩ := h
  obtain ⟨j, r', x', h1', h2', h3', h4', rfl⟩ := h'
  rcases Nat.lt_trichotomy i j with hij | rfl | hij
  · have := pairwise_le ho hij h2 (bounds_getElem? h1')
    omega
  · rw [h1] at h1'
    injection h1' with e
    rw [e]
  · have := pairwise_le ho hij h2' (bounds_getElem? h1)
    omega

/-- Two ranges: glyphs 0 and 1, and glyph 2. -/
example : (bounds [⟨0, 5⟩, ⟨2, 6⟩] 3).Pairwise (· < ·) ∧ Selects (.format3 3 2 [⟨0, 5⟩, ⟨2, 6⟩] 3) 1 5 ∧
    ∀ d, Selects (.format3 3 2 [⟨0, 5⟩, ⟨2, 6⟩] 3) 1 d → d = 5 := by
  have ho : (bounds [⟨0, 5⟩, ⟨2, 6⟩] 3).Pairwise (· < ·) := by decide
  have h : Selects (.format3 3 2 [⟨0, 5⟩, ⟨2, 6⟩] 3) 1 5 := ⟨0, ⟨0, 5⟩, 2, rfl, rfl, by decide, by decide, rfl⟩
  exact ⟨ho, h, fun d hd => C72_unique ho hd h⟩

/-- **C72** In order, the ranges give a dictionary to the glyphs from the beginning of
the first one to the sentinel, and to no other glyph. -/
theorem C72_covers {f : UInt8} {n sentinel : UInt16} {ranges : List Range3}
    (ho : (bounds ranges sentinel).Pairwise (· < ·)) (g : Nat) :
    (∃ d, Selects (.format3 f n ranges sentinel) g d) ↔
      ∃ first, (bounds ranges sentinel).head? = some first ∧ first ≤ g ∧ g < sentinel.toNat := by
  constructor
  · rintro ⟨d, i, r, x, h1, h2, h3, h4, -⟩
    have hne : bounds ranges sentinel ≠ [] := by simp [bounds]
    have h0 : (bounds ranges sentinel)[0]? = some ((bounds ranges sentinel).head hne) := by
      rw [← List.head?_eq_getElem?, List.head?_eq_some_head hne]
    have hl : (bounds ranges sentinel)[ranges.length]? = some sentinel.toNat := by
      rw [bounds, List.getElem?_append_right (by simp)]
      simp
    have hi : i < ranges.length := (List.getElem?_eq_some_iff.mp h1).1
    have g1 := pairwise_le ho (Nat.zero_le i) h0 (bounds_getElem? h1)
    have g2 := pairwise_le ho (Nat.succ_le_of_lt hi) h2 hl
    exact ⟨_, List.head?_eq_some_head hne, by omega, by omega⟩
  · rintro ⟨first, h1, h2, h3⟩
    obtain ⟨i, x, y, e1, e2, e3, e4⟩ := exists_between _ g first sentinel.toNat h1 (by simp [bounds]) h2 h3
    have hi : i < ranges.length := by
      have := (List.getElem?_eq_some_iff.mp e2).1
      simp only [bounds, List.length_append, List.length_map, List.length_singleton] at this
      omega
    have hb := bounds_getElem? (sentinel := sentinel) (List.getElem?_eq_getElem hi)
    rw [hb] at e1
    injection e1 with e1
    exact ⟨_, i, ranges[i], y, List.getElem?_eq_getElem hi, e2, by omega, e4, rfl⟩

example : (∃ d, Selects (.format3 3 2 [⟨0, 5⟩, ⟨2, 6⟩] 3) 2 d) ∧ ¬ ∃ d, Selects (.format3 3 2 [⟨0, 5⟩, ⟨2, 6⟩] 3) 3 d := by
  refine ⟨(C72_covers (by decide) 2).mpr ⟨0, rfl, by decide, by decide⟩, fun h => ?_⟩
  obtain ⟨_, _, _, h⟩ := (C72_covers (by decide) 3).mp h
  exact absurd h (by decide)

/-- **C72**, for the fonts whose FDSelect is in order and mentions only dictionaries that
exist.  What is missing: the code checks neither. -/
theorem C72_select_partial (cfg : Config) (data : List UInt8) (hdata : data.length < 2 ^ 61) (base q : Nat) (fs : FontSet)
    (h : FontSet.read (tape cfg data) base = (.ok fs, q)) (k : Nat) (cs : Index) (r : CIDRecord)
    (hcs : fs.characterStrings[k]? = some cs) (hr : fs.records[k]? = some (.characterIDKeyed r))
    (ho : Orderly cs.data.length r.encoding) :
    (∀ g < cs.data.length, ∃ d, Selects r.encoding g d ∧ ∀ d', Selects r.encoding g d' → d' = d) ∧
    (∀ g d, Selects r.encoding g d → g < cs.data.length) ∧
    ((∀ d ∈ mentioned r.encoding, d < r.records.length) →
      ∀ g < cs.data.length, ∃ d, Selects r.encoding g d ∧ d < r.records.length ∧ ∀ d', Selects r.encoding g d' → d' = d) := by
  obtain ⟨top, -, -, ⟨_, _, -, -, hf, -⟩, -⟩ := cid_record hdata h hcs hr
  have key : (∀ g < cs.data.length, ∃ d, Selects r.encoding g d ∧ ∀ d', Selects r.encoding g d' → d' = d) ∧
      ∀ g d, Selects r.encoding g d → g < cs.data.length := by
    cases he : r.encoding with
    | format0 f ids =>
      rw [he] at hf
      obtain ⟨-, hl⟩ := hf
      refine ⟨fun g hg => ?_, ?_⟩
      · have hi : ids[g]? = some ids[g] := List.getElem?_eq_getElem (hl ▸ hg)
        refine ⟨_, ⟨_, hi, rfl⟩, ?_⟩
        rintro d' ⟨id, h1, rfl⟩
        rw [hi] at h1
        injection h1 with h1
        rw [h1]
      · rintro g d ⟨id, h1, -⟩
        rw [← hl]
        exact (List.getElem?_eq_some_iff.mp h1).1
    | format3 f n ranges sentinel =>
      rw [he] at ho
      obtain ⟨h1, h2, h3⟩ := ho
      refine ⟨fun g hg => ?_, fun g d hd => ?_⟩
      · obtain ⟨d, hd⟩ := (C72_covers (f := f) (n := n) h2 g).mpr ⟨0, h1, Nat.zero_le _, h3 ▸ hg⟩
        exact ⟨d, hd, fun d' hd' => C72_unique h2 hd' hd⟩
      · obtain ⟨_, -, -, hg⟩ := (C72_covers (f := f) (n := n) h2 g).mp ⟨d, hd⟩
        omega
  refine ⟨key.1, key.2, fun hm g hg => ?_⟩
  obtain ⟨d, hd, hu⟩ := key.1 g hg
  exact ⟨d, hd, hm d (selects_mentioned hd), hu⟩

/-- **C72** Each dictionary of a font has its private record: the numbers that exist are
those below the number of dictionaries. -/
theorem C72_records (cfg : Config) (data : List UInt8) (hdata : data.length < 2 ^ 61) (base q : Nat) (fs : FontSet)
    (h : FontSet.read (tape cfg data) base = (.ok fs, q)) (r : CIDRecord) (hr : Record.characterIDKeyed r ∈ fs.records) :
    r.records.length = r.operations.length := by
  obtain ⟨k, hk⟩ := List.getElem?_of_mem hr
  obtain ⟨-, -, h1, -, -, h2, h3⟩ := (C32_layout_iff cfg data hdata base fs).mp ⟨q, h⟩
  have hlt := (List.getElem?_eq_some_iff.mp hk).1
  rw [h2, ← h1] at hlt
  obtain ⟨_, -, -, -, -, hf⟩ := cid_record hdata h (List.getElem?_eq_getElem hlt) hk
  exact hf.length_eq.symm

/-! ## Fonts that can be written with any FDSelect -/

/-- A font with two glyphs, one dictionary and any FDSelect. -/
def selectDef (e : DictEncoding) : FontSetDef where
  names := [[65]]
  strings := []
  globals := []
  fonts := [
    { entries := ⟨[], []⟩
      codes := [[14], [14]]
      set := .isoAdobe
      encoding := .standard
      keying := .identifiers 1 2 (.integer 0, [139]) e [⟨⟨[], []⟩, ⟨⟨[], []⟩, []⟩⟩] }]

theorem selectDef_valid {e : DictEncoding} (he : SelectFits 2 e) (hs : (selectDef e).write.length < 2 ^ 31) :
    (selectDef e).Valid := by
  have fits : ∀ {items : List (List UInt8)}, items.length ≤ 65535 → 1 + items.flatten.length < 2 ^ 32 → IndexFits 4 items :=
    fun h1 h2 => ⟨h1, by omega, by omega, h2⟩
  refine ⟨fits (by simp [selectDef]) (by simp [selectDef]), fits (by simp [selectDef]) (by simp [selectDef]),
    fits (by simp [selectDef]) (by simp [selectDef]), by simp [selectDef], ?_, hs⟩
  intro f hf
  simp only [selectDef, List.mem_cons, List.not_mem_nil, or_false] at hf
  subst hf
  refine ⟨⟨.nil, by simp⟩, fits (by simp) (by simp), .inl (.inl rfl), .inl (.inl rfl),
    by decide, by decide, DictInt.short (.oneByte 139 (by decide) (by decide)), he, by decide, ?_⟩
  intro d hd
  simp only [List.mem_cons, List.not_mem_nil, or_false] at hd
  subst hd
  exact ⟨⟨.nil, by decide⟩, ⟨.nil, by decide⟩, fits (by decide) (by decide)⟩

/-- The font is read, with its FDSelect. -/
theorem selectDef_read {e : DictEncoding} (he : SelectFits 2 e) (hs : (selectDef e).write.length < 2 ^ 31) :
    ∃ fs q cs r, FontSet.read (tape checkedBuild (selectDef e).write) 0 = (.ok fs, q) ∧ fs.characterStrings[0]? = some cs ∧
      fs.records[0]? = some (.characterIDKeyed r) ∧ cs.data.length = 2 ∧ r.encoding = e ∧ r.records.length = 1 := by
  obtain ⟨fs, q, h, hin⟩ := C60_round_trip (selectDef_valid he hs) checkedBuild [] [] (by simp; omega) (by decide)
  rw [List.nil_append, List.append_nil] at h
  obtain ⟨-, -, -, -, h5, -, -, h8⟩ := hin
  obtain ⟨cs, h1, h2⟩ := forall₂_getElem? h5 (k := 0) rfl
  obtain ⟨r, h3, h4⟩ := forall₂_getElem? h8 (k := 0) rfl
  cases r with
  | characterNameKeyed => exact h4.elim
  | characterIDKeyed r =>
    obtain ⟨-, -, -, h4, -, h6⟩ := h4
    exact ⟨fs, q, cs, r, h, h1, h3, by rw [h2]; rfl, h4, h6.length_eq.symm⟩

/-- **C72** is false: a number of a dictionary that does not exist is accepted. -/
theorem C72_false : ¬ C72Statement := by
  intro h
  obtain ⟨fs, q, cs, r, h1, h2, h3, h4, h5, h6⟩ := selectDef_read (e := .format0 0 [0, 1]) ⟨rfl, rfl⟩ (by decide +kernel)
  obtain ⟨d, ⟨id, hd, rfl⟩, hlt, -⟩ := h5 ▸ h checkedBuild _ 0 q fs 0 cs r (by decide +kernel) h1 h2 h3 1 (by omega)
  rw [h6] at hlt
  injection hd with hd
  subst hd
  simp at hlt

/-- **C72** is false in another way: ranges that leave glyphs out are accepted. -/
theorem C72_false_gap : ¬ ∀ (cfg : Config) (data : List UInt8) (base q : Nat) (fs : FontSet) (k : Nat) (cs : Index)
    (r : CIDRecord), data.length < 2 ^ 61 → FontSet.read (tape cfg data) base = (.ok fs, q) →
    fs.characterStrings[k]? = some cs → fs.records[k]? = some (.characterIDKeyed r) →
    ∀ g < cs.data.length, ∃ d, Selects r.encoding g d := by
  intro h
  obtain ⟨fs, q, cs, r, h1, h2, h3, h4, h5, h6⟩ := selectDef_read (e := .format3 3 1 [⟨0, 0⟩] 1) ⟨rfl, rfl⟩ (by decide +kernel)
  obtain ⟨d, hd⟩ := h checkedBuild _ 0 q fs 0 cs r (by decide +kernel) h1 h2 h3 1 (by omega)
  rw [h5] at hd
  obtain ⟨_, -, -, h⟩ := (C72_covers (by decide) 1).mp ⟨d, hd⟩
  simp at h

/-- **C72** is false in yet another way: ranges out of order, which give a glyph two
dictionaries, are accepted. -/
theorem C72_false_overlap : ¬ ∀ (cfg : Config) (data : List UInt8) (base q : Nat) (fs : FontSet) (k : Nat) (cs : Index)
    (r : CIDRecord), data.length < 2 ^ 61 → FontSet.read (tape cfg data) base = (.ok fs, q) →
    fs.characterStrings[k]? = some cs → fs.records[k]? = some (.characterIDKeyed r) →
    ∀ g < cs.data.length, ∀ d d', Selects r.encoding g d → Selects r.encoding g d' → d = d' := by
  intro h
  obtain ⟨fs, q, cs, r, h1, h2, h3, h4, h5, h6⟩ :=
    selectDef_read (e := .format3 3 3 [⟨0, 0⟩, ⟨2, 1⟩, ⟨0, 2⟩] 2) ⟨rfl, rfl⟩ (by decide +kernel)
  have := h checkedBuild _ 0 q fs 0 cs r (by decide +kernel) h1 h2 h3 0 (by omega) 0 2
    (by rw [h5]; exact ⟨0, ⟨0, 0⟩, 2, rfl, rfl, by decide, by decide, rfl⟩)
    (by rw [h5]; exact ⟨2, ⟨0, 2⟩, 2, rfl, rfl, by decide, by decide, rfl⟩)
  simp at this

/-- Two glyphs in two ranges, both of the only dictionary. -/
example : ∃ fs q cs r, FontSet.read (tape checkedBuild (selectDef (.format3 3 2 [⟨0, 0⟩, ⟨1, 0⟩] 2)).write) 0 = (.ok fs, q) ∧
    fs.characterStrings[0]? = some cs ∧ fs.records[0]? = some (.characterIDKeyed r) ∧ Orderly cs.data.length r.encoding ∧
    cs.data.length = 2 ∧ ∀ d ∈ mentioned r.encoding, d < r.records.length := by
  obtain ⟨fs, q, cs, r, h1, h2, h3, h4, h5, h6⟩ :=
    selectDef_read (e := .format3 3 2 [⟨0, 0⟩, ⟨1, 0⟩] 2) ⟨rfl, rfl⟩ (by decide +kernel)
  refine ⟨fs, q, cs, r, h1, h2, h3, ?_, h4, ?_⟩
  · rw [h4, h5]; exact ⟨rfl, by decide, rfl⟩
  · rw [h5, h6]; decide

end PS
