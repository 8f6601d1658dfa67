import Verif.Lemmas.Subset
import Verif.Props.Codes
import Verif.Props.Edit
/-!
# Property C83: keeping some glyphs of a font
-/
namespace PS
open Spec

/-- **C83.**  A font can be subset: for every font of a font set that was read from any
file, in any layout, and every choice of its glyphs that has `.notdef`, there is a file of
which reading gives the same font set, but with only the chosen glyphs in this font.  They
have the same character strings, string identifiers, character codes and private
dictionaries.  (Identifiers and codes of more than 16 and 8 bits, which ranges can lead to,
cannot be kept, and FDSelect has to give one dictionary to each glyph.) -/
theorem C83_subset (cfg : Config) (data : List UInt8) (hdata : data.length < 2 ^ 61) (base q : Nat) (fs : FontSet)
    (h : FontSet.read (tape cfg data) base = (.ok fs, q)) (k : Nat) (gs : List Nat)
    (hsize : 100 * (data.length + gs.length + 1) * (1 + fs.operations.length + FontSet.privates fs) < 2 ^ 31)
    (cs : Index) (s : CharacterSet) (e : Encoding) (hcs : fs.characterStrings[k]? = some cs)
    (hs : fs.characterSets[k]? = some s) (he : fs.encodings[k]? = some e)
    (h0 : gs[0]? = some 0) (hp : gs.Pairwise (· < ·)) (hb : ∀ g ∈ gs, g < cs.data.length)
    (hsid : ∀ g ∈ gs, ∃ sid, (sids s)[g]? = some sid ∧ sid < 65536)
    (hcode : (codesOf e).length ≤ 255 ∧ ∀ c ∈ codesOf e, c < 256)
    (hsel : ∀ r, fs.records[k]? = some (.characterIDKeyed r) → Orderly cs.data.length r.encoding) :
    ∃ bytes : List UInt8, bytes.length < 2 ^ 31 ∧
      ∀ (cfg' : Config) (pre post : List UInt8), (pre ++ bytes ++ post).length < 2 ^ 61 →
        pre.length + 2 ^ 31 ≤ cfg'.maxSeek →
        ∃ fs' q', FontSet.read (tape cfg' (pre ++ bytes ++ post)) pre.length = (.ok fs', q') ∧ GlyphsKept k gs fs fs' := by
  have hn : gs.Nodup := hp.imp fun h => Nat.ne_of_lt h
  obtain ⟨d, hin, hv, hw⟩ := def_of ((C32_layout_iff cfg data hdata base fs).mp ⟨q, h⟩)
  have hpos : 0 < gs.length := (List.getElem?_eq_some_iff.mp h0).1
  have hw' : d.write.length + (4 * gs.length + 1) < 2 ^ 31 := by
    generalize hK : 1 + fs.operations.length + FontSet.privates fs = K at *
    have e : 100 * (data.length + gs.length + 1) * K = 100 * (data.length + 1) * K + 100 * (gs.length * K) := by ring
    have : gs.length ≤ gs.length * K := Nat.le_mul_of_pos_right _ (by omega)
    omega
  have hd := hv (by omega)
  obtain ⟨i1, i2, i3, i4, i5, i6, i7, i8⟩ := hin
  -- the font
  obtain ⟨f, hf⟩ : ∃ f, d.fonts[k]? = some f := by
    have : k < d.fonts.length := by
      rw [i5.length_eq]
      exact (List.getElem?_eq_some_iff.mp hcs).1
    exact ⟨_, List.getElem?_eq_getElem this⟩
  have hfm := List.mem_of_getElem? hf
  have ecs : cs.data = f.codes := by
    obtain ⟨cs', h1, h2⟩ := forall₂_getElem? i5 hf
    rw [hcs] at h1
    injection h1 with h1
    rw [h1, h2]
  have es : s = f.set := by
    rw [i6, List.getElem?_map, hf] at hs
    simpa using hs.symm
  have ee : e = f.encoding := by
    rw [i7, List.getElem?_map, hf] at he
    simpa using he.symm
  obtain ⟨r, hr, hrin⟩ := forall₂_getElem? i8 hf
  rw [ecs] at hb
  rw [es] at hsid
  rw [ee] at hcode
  have hd' : (d.keep k gs).Valid := by
    obtain ⟨v1, v2, v3, v4, v5, -⟩ := hd
    refine ⟨v1, v2, v3, ?_, ?_, Nat.lt_of_le_of_lt (keep_write hn k d) hw'⟩
    · rw [show (d.keep k gs).fonts = d.fonts.modify k (FontDef.keep gs) from rfl, List.length_modify]; exact v4
    · intro f' hf'
      obtain ⟨j, hj⟩ := List.mem_iff_getElem?.mp hf'
      rw [show (d.keep k gs).fonts = d.fonts.modify k (FontDef.keep gs) from rfl, List.getElem?_modify] at hj
      obtain ⟨f'', hf'', rfl⟩ := Option.map_eq_some_iff.mp hj
      have hm := List.mem_of_getElem? hf''
      split
      · rename_i hkj
        rw [← hkj, hf] at hf''
        injection hf'' with hf''
        subst hf''
        exact keep_valid (v5 f hfm) h0 hp hb hsid hcode.1
      · exact v5 _ hm
  refine ⟨(d.keep k gs).write, hd'.2.2.2.2.2, fun cfg' pre post h3 h4 => ?_⟩
  obtain ⟨fs', q', h5, h6⟩ := C60_round_trip hd' cfg' pre post h3 h4
  refine ⟨fs', q', h5, ?_⟩
  obtain ⟨g1, g2, g3, g4, g5, g6, g7, g8⟩ := h6
  have ef : (d.keep k gs).fonts = d.fonts.modify k (FontDef.keep gs) := rfl
  have ek : (d.keep k gs).fonts[k]? = some (f.keep gs) := by rw [ef, List.getElem?_modify, hf]; simp
  have eo : ∀ k', k' ≠ k → (d.keep k gs).fonts[k']? = d.fonts[k']? := by
    intro k' hk'
    rw [ef, List.getElem?_modify]
    cases d.fonts[k']? with
    | none => rfl
    | some x => simp [Ne.symm hk']
  refine ⟨g1.trans i1.symm, g2.trans i2.symm, g3.trans i3.symm,
    forall₂_both i4 (forall₂_modify (R := fun f o => f.entries.In FontDef.reserved o) (F := FontDef.keep gs) (fun _ _ h => h) (ef ▸ g4))
      fun _ _ _ h h' => same_dict h h', ?_, ?_, ?_, ?_⟩
  · intro k' hk'
    have e1 := eo k' hk'
    refine ⟨?_, ?_, ?_, ?_⟩
    · have a1 : fs'.characterStrings.map Index.data = (d.keep k gs).fonts.map FontDef.codes := by
        rw [← List.forall₂_eq_eq_eq, List.forall₂_map_left_iff, List.forall₂_map_right_iff]
        exact g5.flip
      have a2 : fs.characterStrings.map Index.data = d.fonts.map FontDef.codes := by
        rw [← List.forall₂_eq_eq_eq, List.forall₂_map_left_iff, List.forall₂_map_right_iff]
        exact i5.flip
      rw [← List.getElem?_map, ← List.getElem?_map, a1, a2, List.getElem?_map, List.getElem?_map, e1]
    · rw [g6, i6, List.getElem?_map, List.getElem?_map, e1]
    · rw [g7, i7, List.getElem?_map, List.getElem?_map, e1]
    · cases hx : d.fonts[k']? with
      | none =>
        have n1 : fs.records[k']? = none := by
          rw [List.getElem?_eq_none_iff] at hx ⊢
          rw [← i8.length_eq]; exact hx
        have n2 : fs'.records[k']? = none := by
          rw [List.getElem?_eq_none_iff] at hx ⊢
          rw [← g8.length_eq, ef, List.length_modify]; exact hx
        rw [n1, n2]
        exact .none
      | some x =>
        obtain ⟨r1, b1, b2⟩ := forall₂_getElem? i8 hx
        obtain ⟨r2, b3, b4⟩ := forall₂_getElem? g8 (e1.trans hx)
        rw [b1, b3]
        exact .some (same_record b2 b4)
  · obtain ⟨cs', c1, c2⟩ := forall₂_getElem? g5 ek
    exact ⟨cs, cs', hcs, c1, by rw [c2, ecs]; rfl⟩
  · have s1 : sids (keepSet gs f.set) = pick gs (sids f.set) := sids_keep h0 hsid
    have hl : ∀ g ∈ gs, g < (sids f.set).length := fun g hg => by
      obtain ⟨sid, h1, -⟩ := hsid g hg
      exact (List.getElem?_eq_some_iff.mp h1).1
    refine ⟨s, keepSet gs f.set, e, keepEncoding gs f.encoding, hs, ?_, he, ?_, by rw [s1, es], fun code j => ?_⟩
    · rw [g6, List.getElem?_map, ek]; rfl
    · rw [g7, List.getElem?_map, ek]; rfl
    · rw [es, ee]
      exact leads_keep h0 hp (fun j => by rw [s1, pick_getElem? hl]) hcode.2 code j
  · obtain ⟨r', c1, c2⟩ := forall₂_getElem? g8 ek
    refine ⟨r, r', hr, c1, ?_⟩
    change (keepKeying gs f.keying).In r' at c2
    cases hq : f.keying with
    | names p =>
      rw [hq] at c2 hrin
      cases r with
      | characterIDKeyed r => exact hrin.elim
      | characterNameKeyed r =>
        cases r' with
        | characterIDKeyed r' => exact c2.elim
        | characterNameKeyed r' => exact same_record (k := .names p) hrin c2
    | identifiers a b c sel ds =>
      rw [hq] at c2 hrin
      cases r with
      | characterNameKeyed r => exact hrin.elim
      | characterIDKeyed r =>
        cases r' with
        | characterNameKeyed r' => exact c2.elim
        | characterIDKeyed r' =>
          have ho := C72_select_partial cfg data hdata base q fs h k cs r hcs hr (hsel r hr)
          obtain ⟨p1, p2, p3, p4, p5, p6⟩ := c2
          obtain ⟨o1, o2, o3, o4, o5, o6⟩ := hrin
          have hrec := same_record (k := .identifiers a b c sel ds) (r := .characterIDKeyed r)
            (r' := .characterIDKeyed { r' with encoding := r.encoding }) ⟨o1, o2, o3, o4, o5, o6⟩ ⟨p1, p2, p3, o4, p5, p6⟩
          refine ⟨hrec.1, hrec.2.1, hrec.2.2.1, fun j x => ?_, hrec.2.2.2.2.1, hrec.2.2.2.2.2⟩
          rw [p4, ← o4]
          exact selects_keep (fun g hg => ho.1 g (by rw [ecs]; exact hb g hg)) j x

/-- **C83.**  A glyph that was kept is the same: running it shows the same, in any build,
it has the same name, and the same codes lead to it. -/
theorem C83_glyphs {k : Nat} {gs : List Nat} {fs fs' : FontSet} (h : GlyphsKept k gs fs fs')
    (hb : ∀ cs, fs.characterStrings[k]? = some cs → ∀ g ∈ gs, g < cs.data.length) {j g : Nat} (hg : gs[j]? = some g) :
    (∀ cfg l out, Shows cfg fs' k j l out ↔ Shows cfg fs k g l out) ∧
    ∀ s s' e e', fs.characterSets[k]? = some s → fs'.characterSets[k]? = some s' → fs.encodings[k]? = some e →
      fs'.encodings[k]? = some e' → (∀ g ∈ gs, g < (sids s).length) →
      (∀ name, (∃ sid, (sids s')[j]? = some sid ∧ StringOf fs'.strings.data sid name) ↔
        ∃ sid, (sids s)[g]? = some sid ∧ StringOf fs.strings.data sid name) ∧
      ∀ code, Leads s' e' code j ↔ Leads s e code g := by
  obtain ⟨-, h2, h3, -, -, ⟨cs, cs', c1, c2, c3⟩, ⟨s, s', e, e', s1, s2, e1, e2, s3, s4⟩, ⟨r, r', r1, r2, r3⟩⟩ := h
  have hcode : cs'.data[j]? = cs.data[g]? := by rw [c3, pick_getElem? (hb cs c1), hg, Option.bind_some]
  have sub : ∀ p p' : PrivateRecord, SamePrivate p p' → p.subroutines.data = p'.subroutines.data := fun _ _ h => h.2
  constructor
  · intro cfg l out
    constructor
    · rintro ⟨x1, x2, code, loc, y1, y2, y3, y4, y5⟩
      rw [c2] at y1
      rw [r2] at y2
      injection y1 with y1
      injection y2 with y2
      subst y1 y2
      cases r with
      | characterNameKeyed r =>
        cases r' with
        | characterIDKeyed r' => exact r3.elim
        | characterNameKeyed r' =>
          refine ⟨cs, _, code, r.subroutines, c1, r1, hcode ▸ y3, rfl, ?_⟩
          rw [← h3, sub _ _ r3, ← show loc = r'.subroutines from y4]
          exact y5
      | characterIDKeyed r =>
        cases r' with
        | characterNameKeyed r' => exact r3.elim
        | characterIDKeyed r' =>
          obtain ⟨x, p, z1, z2, z3⟩ := y4
          obtain ⟨-, -, -, t1, -, t2⟩ := r3
          obtain ⟨g', w1, w2⟩ := (t1 j x).mp z1
          rw [hg] at w1
          injection w1 with w1
          subst w1
          obtain ⟨p', u1, u2⟩ := forall₂_getElem? (List.Forall₂.flip t2) z2
          refine ⟨cs, _, code, p'.subroutines, c1, r1, hcode ▸ y3, ⟨x, p', w2, u1, rfl⟩, ?_⟩
          rw [← h3, sub _ _ u2, ← z3]
          exact y5
    · rintro ⟨x1, x2, code, loc, y1, y2, y3, y4, y5⟩
      rw [c1] at y1
      rw [r1] at y2
      injection y1 with y1
      injection y2 with y2
      subst y1 y2
      cases r with
      | characterNameKeyed r =>
        cases r' with
        | characterIDKeyed r' => exact r3.elim
        | characterNameKeyed r' =>
          refine ⟨cs', _, code, r'.subroutines, c2, r2, hcode ▸ y3, rfl, ?_⟩
          rw [h3, ← sub _ _ r3, ← show loc = r.subroutines from y4]
          exact y5
      | characterIDKeyed r =>
        cases r' with
        | characterNameKeyed r' => exact r3.elim
        | characterIDKeyed r' =>
          obtain ⟨x, p, z1, z2, z3⟩ := y4
          obtain ⟨-, -, -, t1, -, t2⟩ := r3
          obtain ⟨p', u1, u2⟩ := forall₂_getElem? t2 z2
          refine ⟨cs', _, code, p'.subroutines, c2, r2, hcode ▸ y3, ⟨x, p', (t1 j x).mpr ⟨g, hg, z1⟩, u1, rfl⟩, ?_⟩
          rw [h3, ← sub _ _ u2, ← z3]
          exact y5
  · intro t t' f f' k1 k2 k3 k4 hl
    rw [s1] at k1
    rw [s2] at k2
    rw [e1] at k3
    rw [e2] at k4
    injection k1 with k1
    injection k2 with k2
    injection k3 with k3
    injection k4 with k4
    subst k1 k2 k3 k4
    refine ⟨fun name => ?_, fun code => ?_⟩
    · rw [s3, pick_getElem? hl, hg, Option.bind_some, h2]
    · rw [s4, hg]
      simp

/-! ## Fonts with four glyphs -/

/-- A font keyed by names, with ranges of names and codes, and one keyed by identifiers,
with ranges of dictionaries. -/
def rangesDef : FontSetDef where
  names := [[65], [66]]
  strings := [[72, 105], [72, 111]]
  globals := [[11]]
  fonts := [
    { entries := ⟨[], []⟩
      codes := [[14], [139, 22, 14], [140, 22, 14], [141, 22, 14]]
      set := .format1 1 [⟨34, 0⟩, ⟨391, 1⟩]
      encoding := .format1 1 1 [⟨65, 1⟩]
      keying := .names ⟨⟨[], []⟩, [[11]]⟩ },
    { entries := ⟨[], []⟩
      codes := [[14], [139, 22, 14], [140, 22, 14], [141, 22, 14]]
      set := .format2 2 [⟨5, 2⟩]
      encoding := .standard
      keying := .identifiers 391 392 (.integer 0, [139]) (.format3 3 2 [⟨0, 1⟩, ⟨2, 0⟩] 4)
        [⟨⟨[], []⟩, ⟨⟨[], []⟩, []⟩⟩, ⟨⟨[], []⟩, ⟨⟨[], []⟩, [[11], [14]]⟩⟩] }]

theorem rangesDef_valid : rangesDef.Valid := by
  have fits : ∀ {items : List (List UInt8)}, items.length ≤ 65535 → 1 + items.flatten.length < 2 ^ 32 → IndexFits 4 items :=
    fun h1 h2 => ⟨h1, by omega, by omega, h2⟩
  refine ⟨fits (by decide) (by decide), fits (by decide) (by decide), fits (by decide) (by decide), by decide, ?_, by decide +kernel⟩
  intro f hf
  simp only [rangesDef, List.mem_cons, List.not_mem_nil, or_false] at hf
  rcases hf with rfl | rfl
  · exact ⟨⟨.nil, by decide⟩, fits (by decide) (by decide), .inr ⟨rfl, rfl⟩, .inr ⟨rfl, rfl⟩,
      ⟨.nil, by decide⟩, fits (by decide) (by decide)⟩
  · refine ⟨⟨.nil, by decide⟩, fits (by decide) (by decide), .inr ⟨rfl, rfl⟩, .inl (.inl rfl),
      by decide, by decide, DictInt.short (.oneByte 139 (by decide) (by decide)), ⟨rfl, rfl⟩, by decide, ?_⟩
    intro d hd
    simp only [List.mem_cons, List.not_mem_nil, or_false] at hd
    rcases hd with rfl | rfl
    · exact ⟨⟨.nil, by decide⟩, ⟨.nil, by decide⟩, fits (by decide) (by decide)⟩
    · exact ⟨⟨.nil, by decide⟩, ⟨.nil, by decide⟩, fits (by decide) (by decide)⟩

theorem rangesDef_size {fs : FontSet} (hin : rangesDef.In fs) (n : Nat) (hn : n ≤ 1000) :
    100 * (rangesDef.write.length + n + 1) * (1 + fs.operations.length + FontSet.privates fs) < 2 ^ 31 := by
  have h1 : fs.operations.length = 2 := hin.2.2.2.1.length_eq.symm
  have h3 : FontSet.privates fs = 3 := by
    have := hin.2.2.2.2.2.2.2
    rw [FontSet.privates]
    generalize fs.records = rs at this
    simp only [rangesDef] at this
    cases this with
    | @cons _ r1 _ rs a1 b1 =>
      cases b1 with
      | @cons _ r2 _ rs a2 b2 =>
        cases b2
        cases r1 with
        | characterIDKeyed r1 => exact a1.elim
        | characterNameKeyed r1 =>
          cases r2 with
          | characterNameKeyed r2 => exact a2.elim
          | characterIDKeyed r2 =>
            have : r2.records.length = 2 := a2.2.2.2.2.2.length_eq.symm
            simp [privates, this]
  have h4 : rangesDef.write.length ≤ 1000 := by decide +kernel
  rw [h1, h3]
  omega

/-- In the first font, the first, third and fourth glyph can be kept: one has a code and the
other has none. -/
example : ∃ fs q cs, FontSet.read (tape checkedBuild rangesDef.write) 0 = (.ok fs, q) ∧
    100 * (rangesDef.write.length + [0, 2, 3].length + 1) * (1 + fs.operations.length + FontSet.privates fs) < 2 ^ 31 ∧
    fs.characterStrings[0]? = some cs ∧ fs.characterSets[0]? = some (.format1 1 [⟨34, 0⟩, ⟨391, 1⟩]) ∧
    fs.encodings[0]? = some (.format1 1 1 [⟨65, 1⟩]) ∧ [0, 2, 3].Pairwise (· < ·) ∧ (∀ g ∈ [0, 2, 3], g < cs.data.length) ∧
    (∀ g ∈ [0, 2, 3], ∃ sid, (sids (.format1 1 [⟨34, 0⟩, ⟨391, 1⟩]))[g]? = some sid ∧ sid < 65536) ∧
    (codesOf (.format1 1 1 [⟨65, 1⟩])).length ≤ 255 ∧ (∀ c ∈ codesOf (.format1 1 1 [⟨65, 1⟩]), c < 256) ∧
    (∀ r, fs.records[0]? = some (.characterIDKeyed r) → Orderly cs.data.length r.encoding) ∧
    Leads (.format1 1 [⟨34, 0⟩, ⟨391, 1⟩]) (.format1 1 1 [⟨65, 1⟩]) 66 2 ∧
    ∀ code, ¬ Leads (.format1 1 [⟨34, 0⟩, ⟨391, 1⟩]) (.format1 1 1 [⟨65, 1⟩]) code 3 := by
  obtain ⟨fs, q, h, hin⟩ := C60_round_trip rangesDef_valid checkedBuild [] [] (by decide +kernel) (by decide)
  rw [List.nil_append, List.append_nil] at h
  obtain ⟨cs, h1, h2⟩ := forall₂_getElem? hin.2.2.2.2.1 (k := 0) rfl
  obtain ⟨r, h3, h4⟩ := forall₂_getElem? hin.2.2.2.2.2.2.2 (k := 0) rfl
  refine ⟨fs, q, cs, h, rangesDef_size hin _ (by decide), h1, by rw [hin.2.2.2.2.2.1]; rfl, by rw [hin.2.2.2.2.2.2.1]; rfl,
    by decide, by rw [h2]; decide, ?_, by decide, by decide, ?_, ⟨by decide, by decide, by decide⟩, ?_⟩
  · simp [sids]
  · intro r' hr'
    rw [h3] at hr'
    injection hr' with hr'
    subst hr'
    exact h4.elim
  · simp [Leads, codesOf]

/-- In the second font, the first, second and fourth glyph can be kept, with two
dictionaries. -/
example : ∃ fs q cs, FontSet.read (tape checkedBuild rangesDef.write) 0 = (.ok fs, q) ∧
    100 * (rangesDef.write.length + [0, 1, 3].length + 1) * (1 + fs.operations.length + FontSet.privates fs) < 2 ^ 31 ∧
    fs.characterStrings[1]? = some cs ∧ fs.characterSets[1]? = some (.format2 2 [⟨5, 2⟩]) ∧
    fs.encodings[1]? = some .standard ∧ [0, 1, 3].Pairwise (· < ·) ∧ (∀ g ∈ [0, 1, 3], g < cs.data.length) ∧
    (∀ g ∈ [0, 1, 3], ∃ sid, (sids (.format2 2 [⟨5, 2⟩]))[g]? = some sid ∧ sid < 65536) ∧
    (∀ r, fs.records[1]? = some (.characterIDKeyed r) → Orderly cs.data.length r.encoding) ∧
    ∃ r, fs.records[1]? = some (.characterIDKeyed r) ∧ Selects r.encoding 1 1 ∧ Selects r.encoding 3 0 := by
  obtain ⟨fs, q, h, hin⟩ := C60_round_trip rangesDef_valid checkedBuild [] [] (by decide +kernel) (by decide)
  rw [List.nil_append, List.append_nil] at h
  obtain ⟨cs, h1, h2⟩ := forall₂_getElem? hin.2.2.2.2.1 (k := 1) rfl
  obtain ⟨r, h3, h4⟩ := forall₂_getElem? hin.2.2.2.2.2.2.2 (k := 1) rfl
  cases r with
  | characterNameKeyed r => exact h4.elim
  | characterIDKeyed r =>
    refine ⟨fs, q, cs, h, rangesDef_size hin _ (by decide), h1, by rw [hin.2.2.2.2.2.1]; rfl, by rw [hin.2.2.2.2.2.2.1]; rfl,
      by decide, by rw [h2]; decide, ?_, ?_, r, h3, ?_⟩
    · simp [sids, List.range']
    · intro r' hr'
      rw [h3] at hr'
      injection hr' with hr'
      injection hr' with hr'
      subst hr'
      rw [h4.2.2.2.1, h2]
      exact ⟨rfl, by decide, rfl⟩
    · rw [h4.2.2.2.1]
      exact ⟨⟨0, ⟨0, 1⟩, 2, rfl, rfl, by decide, by decide, rfl⟩, ⟨1, ⟨2, 0⟩, 4, rfl, rfl, by decide, by decide, rfl⟩⟩

end PS
