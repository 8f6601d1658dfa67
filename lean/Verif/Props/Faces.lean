import Verif.Spec.Faces
import Verif.Spec.Codes
import Verif.Props.Drawings
import Verif.Props.GlyphName
import Verif.Lemmas.Edit
import Verif.Lemmas.Texts
/-!
# Property C103: fonts made from scratch
-/
namespace PS
open PS.Spec

namespace Faces

/-- A font, if the code of drawings is `F` and its strings are numbered from `n` on. -/
def font (F : Drawing → List UInt8) (n : Nat) (f : Face) : FontDef where
  entries := Texts.add f.top (n + f.glyphs.length) f.texts
  codes := f.drawings.map F
  set := .format0 0 ((List.range' n f.glyphs.length).map UInt16.ofNat)
  encoding := f.encoding
  keying := .names ⟨f.priv, []⟩

/-- The fonts, one after another. -/
def fonts (F : Drawing → List UInt8) : Nat → List Face → List FontDef
  | _, [] => []
  | n, f :: faces => font F n f :: fonts F (n + f.labels.length) faces

/-- The font set. -/
def fontSet (F : Drawing → List UInt8) (faces : List Face) : FontSetDef where
  names := faces.map Face.name
  strings := faces.flatMap Face.labels
  globals := []
  fonts := fonts F 391 faces

theorem fonts_length (F : Drawing → List UInt8) (n : Nat) (faces : List Face) : (fonts F n faces).length = faces.length := by
  induction faces generalizing n with
  | nil => rfl
  | cons f faces ih => simp [fonts, ih]

theorem fonts_get (F : Drawing → List UInt8) {faces : List Face} {n k : Nat} {f : Face} (h : faces[k]? = some f) :
    (fonts F n faces)[k]? = some (font F (n + ((faces.take k).map fun f => f.labels.length).sum) f) := by
  induction faces generalizing n k with
  | nil => simp at h
  | cons g faces ih =>
    cases k with
    | zero =>
      simp only [List.getElem?_cons_zero, Option.some.injEq] at h
      subst h
      simp [fonts]
    | succ k =>
      simp only [List.getElem?_cons_succ] at h
      simp only [fonts, List.getElem?_cons_succ, ih h, List.take_succ_cons, List.map_cons, List.sum_cons]
      rw [Nat.add_assoc]

theorem fonts_mem (F : Drawing → List UInt8) {faces : List Face} {n : Nat} {g : FontDef} (h : g ∈ fonts F n faces) :
    ∃ f ∈ faces, ∃ m, m + f.labels.length ≤ n + (faces.map fun f => f.labels.length).sum ∧ g = font F m f := by
  induction faces generalizing n with
  | nil => simp [fonts] at h
  | cons f faces ih =>
    simp only [fonts, List.mem_cons] at h
    rcases h with rfl | h
    · exact ⟨f, by simp, n, by simp, rfl⟩
    · obtain ⟨f', h1, m, h2, h3⟩ := ih h
      exact ⟨f', by simp [h1], m, by simp only [List.map_cons, List.sum_cons]; omega, h3⟩

theorem strings_get {faces : List Face} {k i : Nat} {f : Face} {t : List UInt8} (h : faces[k]? = some f)
    (hi : f.labels[i]? = some t) :
    (faces.flatMap Face.labels)[((faces.take k).map fun f => f.labels.length).sum + i]? = some t := by
  induction faces generalizing k with
  | nil => simp at h
  | cons f' faces ih =>
    cases k with
    | zero =>
      simp only [List.getElem?_cons_zero, Option.some.injEq] at h
      subst h
      have hl := (List.getElem?_eq_some_iff.mp hi).1
      simp only [List.take_zero, List.map_nil, List.sum_nil, Nat.zero_add, List.flatMap_cons]
      rw [List.getElem?_append_left hl, hi]
    | succ k =>
      simp only [List.getElem?_cons_succ] at h
      simp only [List.take_succ_cons, List.map_cons, List.sum_cons, List.flatMap_cons]
      rw [List.getElem?_append_right (by omega), Nat.add_assoc, Nat.add_sub_cancel_left]
      exact ih h

theorem range_before {faces : List Face} {k : Nat} {f : Face} (h : faces[k]? = some f) :
    ((faces.take k).map fun f => f.labels.length).sum + f.labels.length ≤ (faces.map fun f => f.labels.length).sum := by
  induction faces generalizing k with
  | nil => simp at h
  | cons f' faces ih =>
    cases k with
    | zero =>
      simp only [List.getElem?_cons_zero, Option.some.injEq] at h
      subst h
      simp
    | succ k =>
      simp only [List.getElem?_cons_succ] at h
      have := ih h
      simp only [List.take_succ_cons, List.map_cons, List.sum_cons]
      omega

theorem codes_length {F : Drawing → List UInt8} {ds : List Drawing} (hF : ∀ d ∈ ds, (F d).length ≤ d.bulk) :
    (ds.map F).flatten.length + 4 * (ds.map F).length ≤ (ds.map fun d => d.bulk + 4).sum := by
  induction ds with
  | nil => simp
  | cons d ds ih =>
    have h1 := hF d (by simp)
    have h2 := ih fun d hd => hF d (by simp [hd])
    simp only [List.map_cons, List.flatten_cons, List.length_append, List.length_cons, List.sum_cons]
    omega

theorem set_length (n m : Nat) : (encodeCharacterSet (.format0 0 ((List.range' n m).map UInt16.ofNat))).length = 1 + 2 * m := by
  simp only [encodeCharacterSet, List.length_cons, List.flatMap_map]
  rw [List.length_flatMap]
  simp
  omega

theorem font_size {F : Drawing → List UInt8} {f : Face} (hF : ∀ d ∈ f.drawings, (F d).length ≤ d.bulk) (n : Nat) :
    ((font F n f).dict 0).length ≤ f.top.bytes.length + 7 * f.texts.length + 40 ∧
    ((font F n f).blob 0).length ≤ f.priv.bytes.length + (f.drawings.map fun d => d.bulk + 4).sum + 2 * f.glyphs.length +
      (encodeEncoding f.encoding).length + 40 := by
  constructor
  · have := Texts.size f.top (n + f.glyphs.length) f.texts
    have e : (encodeOps ((font F n f).ops 0)).length ≤ 40 := by
      simp only [FontDef.ops, font, Keying.ops, encodeOps]
      simp [long, opCode, beSigned_length]
    simp only [FontDef.dict, List.length_append]
    simp only [font] at e ⊢
    omega
  · have h1 := Recoding.index_bulk (f.drawings.map F)
    have h2 := codes_length hF
    have h3 : (encodeIndex 4 ([] : List (List UInt8))).length = 2 := rfl
    have h5 : ∀ i : Int, (encodeOps [(Operator.opSubrs, [long i])]).length = 6 := by
      intro i
      simp [encodeOps, long, opCode, beSigned_length]
    unfold indexBulk at h1
    simp only [FontDef.blob, List.length_append, font, Keying.blob, PrivateDef.blob, PrivateDef.dict, set_length, h3, h5]
    omega

theorem texts_size (ts : List (Operator × List UInt8)) :
    (ts.map fun x => x.2.length + 11).sum = (ts.map Prod.snd).flatten.length + 11 * ts.length := by
  rw [List.length_flatten, List.map_map]
  induction ts with
  | nil => rfl
  | cons g l ih =>
    simp only [List.map_cons, List.sum_cons, ih, List.length_cons, Function.comp]
    omega

theorem item_size {F : Drawing → List UInt8} {f : Face} (hF : ∀ d ∈ f.drawings, (F d).length ≤ d.bulk) (n : Nat) :
    f.name.length + 8 + ((font F n f).dict 0).length + f.labels.flatten.length + 4 * f.labels.length + ((font F n f).blob 0).length ≤
      f.bulk := by
  obtain ⟨h1, h2⟩ := font_size hF n
  have h5 := texts_size f.texts
  have h4 : (f.glyphs.map fun g => g.1.length + 6).sum = (f.glyphs.map Prod.fst).flatten.length + 6 * f.glyphs.length := by
    rw [List.length_flatten, List.map_map]
    generalize f.glyphs = l
    induction l with
    | nil => rfl
    | cons g l ih =>
      simp only [List.map_cons, List.sum_cons, ih, List.length_cons, Function.comp]
      omega
  have h6 : f.labels.length = f.glyphs.length + f.texts.length := by simp [Face.labels]
  have h7 : f.labels.flatten.length = (f.glyphs.map Prod.fst).flatten.length + (f.texts.map Prod.snd).flatten.length := by
    simp only [Face.labels, List.flatten_append, List.length_append]
  unfold Face.bulk
  omega

theorem size_fonts {F : Drawing → List UInt8} {faces : List Face} (hF : ∀ f ∈ faces, ∀ d ∈ f.drawings, (F d).length ≤ d.bulk) (n : Nat) :
    (faces.map Face.name).flatten.length + 4 * faces.length +
    (4 * faces.length + ((fonts F n faces).map fun f => (f.dict 0).length).sum) +
    ((faces.flatMap Face.labels).flatten.length + 4 * (faces.map fun f => f.labels.length).sum) +
    ((fonts F n faces).map fun f => (f.blob 0).length).sum ≤ (faces.map Face.bulk).sum := by
  induction faces generalizing n with
  | nil => simp [fonts]
  | cons f faces ih =>
    have h1 := item_size (hF f (by simp)) n
    have h3 := ih (fun f hf => hF f (by simp [hf])) (n + f.labels.length)
    simp only [fonts, List.map_cons, List.flatten_cons, List.length_append, List.length_cons, List.sum_cons, List.flatMap_cons,
      List.flatten_append]
    omega

theorem strings_length (faces : List Face) :
    (faces.flatMap Face.labels).length = (faces.map fun f => f.labels.length).sum := by
  rw [List.length_flatMap]

theorem font_valid {F : Drawing → List UInt8} {f : Face} (hF : ∀ d ∈ f.drawings, (F d).length ≤ d.bulk) (hv : f.Valid)
    (hb : f.bulk < 2 ^ 31) {m : Nat} (hm : m + f.labels.length ≤ 65536) : (font F m f).Valid := by
  obtain ⟨v1, v2, v3, ve, v4, vt, -⟩ := hv
  have hc := codes_length hF
  have hb' : f.bulk = f.name.length + f.top.bytes.length + f.priv.bytes.length + (f.drawings.map fun d => d.bulk + 4).sum +
    (f.glyphs.map fun g => g.1.length + 6).sum + (encodeEncoding f.encoding).length +
      (f.texts.map fun x => x.2.length + 11).sum + 100 := rfl
  have hl : f.labels.length = f.glyphs.length + f.texts.length := by simp [Face.labels]
  refine ⟨Texts.valid v1 vt (by omega),
    Recoding.fits (by simpa [font] using v4) ?_, .inr ⟨rfl, ?_⟩, ve, v2, by simp, by omega, by omega, by simp⟩
  · simp only [indexBulk, font]
    omega
  · simp [font, covered, Face.drawings]
    omega

theorem fontSet_valid {F : Drawing → List UInt8} {faces : List Face} (hF : ∀ f ∈ faces, ∀ d ∈ f.drawings, (F d).length ≤ d.bulk)
    (h : FacesFit faces) : (fontSet F faces).Valid := by
  obtain ⟨h1, h2, h3, h4⟩ := h
  have hs := size_fonts hF 391
  have hw : (fontSet F faces).write.length < 2 ^ 31 := by
    have i1 := Recoding.index_bulk (faces.map Face.name)
    have i2 := Recoding.index_bulk (faces.flatMap Face.labels)
    have i3 : (encodeIndex 4 ([] : List (List UInt8))).length = 2 := rfl
    unfold indexBulk at i1 i2
    rw [strings_length] at i2
    rw [List.length_map] at i1
    rw [write_length]
    simp only [fontSet, fonts_length, i3]
    split <;> omega
  refine ⟨?_, ?_, ?_, ?_, ?_, hw⟩
  · refine Recoding.fits (by simpa [fontSet] using h1) ?_
    simp only [indexBulk, fontSet, List.length_map]
    omega
  · refine Recoding.fits ?_ ?_
    · simp only [fontSet, strings_length]
      omega
    · simp only [indexBulk, fontSet, strings_length]
      omega
  · exact ⟨by simp [fontSet], by omega, by omega, by simp [fontSet]⟩
  · simpa [fontSet, fonts_length] using h1
  · intro g hg
    obtain ⟨f, hf, m, hm, rfl⟩ := fonts_mem F hg
    have hb : f.bulk ≤ (faces.map Face.bulk).sum := List.single_le_sum (by simp) _ (List.mem_map_of_mem hf)
    exact font_valid (hF f hf) (h2 f hf) (by omega) (by omega)

/-- Code for all the drawings. -/
theorem codes {ds : Drawing → Prop} (h : ∀ d, ds d → Drawable d.shows d.ends ∧ d.bulk < 2 ^ 31) :
    ∃ F : Drawing → List UInt8, ∀ d, ds d → (F d).length ≤ d.bulk ∧
      ∀ cfg, Type2.Spec.Run cfg (Type2.Program.new (F d) [] []) d.shows d.ends := by
  have : ∀ d : Drawing, ∃ bs : List UInt8, ds d → bs.length ≤ d.bulk ∧
      ∀ cfg, Type2.Spec.Run cfg (Type2.Program.new bs [] []) d.shows d.ends := by
    intro d
    by_cases hd : ds d
    · obtain ⟨⟨w, d1, d2, d3⟩, d4⟩ := h d hd
      unfold Drawing.bulk at d4
      obtain ⟨bs, b1, b2⟩ := Type2.C101_can d2 d3 (by omega) d1
      exact ⟨bs, fun _ => ⟨b1, fun cfg => b2 cfg [] [] (by simp) (by simp)⟩⟩
    · exact ⟨[], fun h => absurd h hd⟩
  choose F hF using this
  exact ⟨F, hF⟩

/-- A font is as wanted, in any font set that has the strings for it. -/
theorem face_in_set {F : Drawing → List UInt8} {D : FontSetDef} {fs : FontSet} (h : D.In fs) (hD : D.globals = []) {f : Face}
    (hv : f.Valid) {k m : Nat} (hname : D.names[k]? = some f.name) (hg : D.fonts[k]? = some (font F (391 + m) f))
    (hstrings : ∀ i t, f.labels[i]? = some t → D.strings[m + i]? = some t) (hm : m + f.labels.length ≤ 65145)
    (hF : ∀ d ∈ f.drawings, ∀ cfg, Type2.Spec.Run cfg (Type2.Program.new (F d) [] []) d.shows d.ends) : FaceIn f k fs := by
  obtain ⟨h1, h2, h3, h4, h5, h6, h7, h8⟩ := h
  obtain ⟨top, a1, a2⟩ := forall₂_getElem? h4 hg
  obtain ⟨cs, b1, b2⟩ := forall₂_getElem? h5 hg
  obtain ⟨r, c1, c2⟩ := forall₂_getElem? h8 hg
  cases r with
  | characterIDKeyed => exact c2.elim
  | characterNameKeyed r =>
  obtain ⟨c3, c4⟩ := c2
  obtain ⟨-, -, -, -, -, vt, vn⟩ := hv
  rw [hD] at h3
  have hlabels : f.labels.length = f.glyphs.length + f.texts.length := by simp [Face.labels]
  have hnamed : ∀ {i : Nat} {name : List UInt8}, f.labels[i]? = some name →
      (UInt16.ofNat (391 + m + i)).toNat = 391 + m + i ∧ NamedBy fs (UInt16.ofNat (391 + m + i)) name := by
    intro i name hi
    have hl := (List.getElem?_eq_some_iff.mp hi).1
    have hid : (UInt16.ofNat (391 + m + i)).toNat = 391 + m + i := UInt16.toNat_ofNat_of_lt' (by
      show 391 + m + i < 65536
      omega)
    refine ⟨hid, fun text => ?_⟩
    rw [C73_lookup, StringOf, hid, List.getElem?_eq_none (by rw [standardStringList_length]; omega)]
    have hs := hstrings i _ hi
    have hs' : fs.strings.data[391 + m + i - 391]? = some name := by
      rw [h2, show 391 + m + i - 391 = m + i by omega]
      exact hs
    rw [hs']
    simp
    omega
  refine ⟨by rw [h1]; exact hname, ⟨top, a1, Texts.rest a2, ?_⟩, ⟨r, c1, c3⟩, ⟨cs, b1, by rw [b2]; simp [font]⟩, ?_, ?_⟩
  · rintro ⟨op, t⟩ hx
    obtain ⟨j, hj⟩ := List.mem_iff_getElem?.mp hx
    have hlt := (List.getElem?_eq_some_iff.mp hj).1
    obtain ⟨e1, e2⟩ := hnamed (i := f.glyphs.length + j) (name := t) (by
      rw [Face.labels, List.getElem?_append_right (by simp), List.length_map, Nat.add_sub_cancel_left, List.getElem?_map, hj]
      rfl)
    refine ⟨_, ?_, e2⟩
    rw [e1, Texts.found a2 vt vn hj, Nat.add_assoc]
  · intro cfg i d hd l out
    have hrun := hF d (List.mem_of_getElem? hd) cfg
    have hcode : cs.data[i]? = some (F d) := by
      rw [b2]
      simp [font, hd]
    constructor
    · rintro ⟨cs', r', code, loc, e1, e2, e3, e4, e5⟩
      rw [b1] at e1
      injection e1 with e1
      subst e1
      rw [c1] at e2
      injection e2 with e2
      subst e2
      rw [hcode] at e3
      injection e3 with e3
      subst e3
      rw [show loc = r.subroutines from e4, c4, h3] at e5
      exact Type2.run_unique e5 hrun
    · rintro ⟨rfl, rfl⟩
      refine ⟨cs, _, F d, r.subroutines, b1, c1, hcode, rfl, ?_⟩
      rw [c4, h3]
      exact hrun
  · refine ⟨by rw [h7, List.getElem?_map, hg]; rfl, _, by rw [h6, List.getElem?_map, hg]; rfl, rfl, ?_⟩
    intro i name d hi
    have hl := (List.getElem?_eq_some_iff.mp hi).1
    obtain ⟨e1, e2⟩ := hnamed (i := i) (name := name) (by
      rw [Face.labels, List.getElem?_append_left (by simpa using hl), List.getElem?_map, hi]
      rfl)
    refine ⟨_, ?_, e2⟩
    simp only [font, sids, List.getElem?_cons_succ, List.getElem?_map, List.map_map]
    rw [List.getElem?_range' hl]
    simp

theorem face_in {F : Drawing → List UInt8} {faces : List Face} {fs : FontSet} (h : (fontSet F faces).In fs) (hfit : FacesFit faces)
    (hF : ∀ f ∈ faces, ∀ d ∈ f.drawings, ∀ cfg, Type2.Spec.Run cfg (Type2.Program.new (F d) [] []) d.shows d.ends)
    {k : Nat} {f : Face} (hk : faces[k]? = some f) : FaceIn f k fs := by
  have hmem := List.mem_of_getElem? hk
  have hr := range_before hk
  have hfit3 := hfit.2.2.1
  exact face_in_set h rfl (hfit.2.1 f hmem) (by simp [fontSet, hk]) (fonts_get F hk) (fun i t => strings_get hk) (by omega) (hF f hmem)

end Faces

/-- **C103.**  Fonts can be made from scratch: for any names, any dictionaries and texts in them, any glyphs with any names, and
any drawings that are in order, there is a file of which reading gives fonts with just these names,
dictionaries, encodings and glyphs, and in which the glyphs have just these names and show just these drawings, in any build. -/
theorem C103_make {faces : List Face} (h : FacesFit faces) :
    ∃ bytes : List UInt8, bytes.length < 2 ^ 31 ∧
      ∀ (cfg : Config) (pre post : List UInt8), (pre ++ bytes ++ post).length < 2 ^ 61 → pre.length + 2 ^ 31 ≤ cfg.maxSeek →
        ∃ fs q, FontSet.read (tape cfg (pre ++ bytes ++ post)) pre.length = (.ok fs, q) ∧
          fs.records.length = faces.length ∧ ∀ (k : Nat) f, faces[k]? = some f → FaceIn f k fs := by
  obtain ⟨F, hF⟩ := Faces.codes (ds := fun d => ∃ f ∈ faces, d ∈ f.drawings) (by
    rintro d ⟨f, hf, hd⟩
    refine ⟨(h.2.1 f hf).2.2.1 d hd, ?_⟩
    have h1 : f.bulk ≤ (faces.map Face.bulk).sum := List.single_le_sum (by simp) _ (List.mem_map_of_mem hf)
    have h2 : d.bulk + 4 ≤ (f.drawings.map fun d => d.bulk + 4).sum :=
      List.single_le_sum (by simp) _ (List.mem_map_of_mem (f := fun d : Drawing => d.bulk + 4) hd)
    have h3 := h.2.2.2
    have h4 : f.bulk = f.name.length + f.top.bytes.length + f.priv.bytes.length + (f.drawings.map fun d => d.bulk + 4).sum +
      (f.glyphs.map fun g => g.1.length + 6).sum + (encodeEncoding f.encoding).length +
        (f.texts.map fun x => x.2.length + 11).sum + 100 := rfl
    omega)
  have hv := Faces.fontSet_valid (F := F) (fun f hf d hd => (hF d ⟨f, hf, hd⟩).1) h
  refine ⟨(Faces.fontSet F faces).write, hv.2.2.2.2.2, fun cfg pre post h1 h2 => ?_⟩
  obtain ⟨fs, q, h3, h4⟩ := C60_round_trip hv cfg pre post h1 h2
  refine ⟨fs, q, h3, ?_, fun k f hk => Faces.face_in h4 h (fun f hf d hd => (hF d ⟨f, hf, hd⟩).2) hk⟩
  rw [← h4.2.2.2.2.2.2.2.length_eq]
  exact Faces.fonts_length _ _ _

/-- **C103.**  The glyphs have the codes that are wanted: a code leads to the glyphs for which it is in the list, and to no
others, and these show just their drawings and have just their names. -/
theorem C103_codes {f : Face} {k : Nat} {fs : FontSet} (h : FaceIn f k fs) {n : UInt8} {codes : List UInt8}
    (he : f.encoding = .format0 0 n codes) (hcodes : codes.length ≤ f.glyphs.length) :
    ∃ s e, fs.characterSets[k]? = some s ∧ fs.encodings[k]? = some e ∧
      ∀ code g, Leads s e code g ↔ ∃ i name d, g = i + 1 ∧ f.glyphs[i]? = some (name, d) ∧ codes[i]? = some (UInt8.ofNat code) ∧
        code < 256 ∧ (∀ cfg, Comes cfg fs k g d.shows d.ends) ∧ ∃ id : UInt16, (sids s)[g]? = some id.toNat ∧ NamedBy fs id name := by
  obtain ⟨-, -, -, -, h5, h6, s, h7, -, h8⟩ := h
  rw [he] at h6
  refine ⟨s, _, h7, h6, fun code g => ?_⟩
  show (code < 256 ∧ 1 ≤ g ∧ (codes.map UInt8.toNat)[g - 1]? = some code) ↔ _
  constructor
  · rintro ⟨a, b, c⟩
    obtain ⟨i, rfl⟩ : ∃ i, g = i + 1 := ⟨g - 1, by omega⟩
    rw [Nat.add_sub_cancel, List.getElem?_map, Option.map_eq_some_iff] at c
    obtain ⟨x, c1, rfl⟩ := c
    have hi : i < f.glyphs.length := Nat.lt_of_lt_of_le (List.getElem?_eq_some_iff.mp c1).1 hcodes
    have hg := List.getElem?_eq_getElem hi
    refine ⟨i, f.glyphs[i].1, f.glyphs[i].2, rfl, hg, by rw [c1]; simp, a, fun cfg => h5 cfg (i + 1) _ ?_, h8 i _ _ hg⟩
    simp [Face.drawings, hg]
  · rintro ⟨i, _, _, rfl, -, c, a, -⟩
    refine ⟨a, by omega, ?_⟩
    rw [Nat.add_sub_cancel, List.getElem?_map, c, Option.map_some, UInt8.toNat_ofNat_of_lt' a]

theorem Faces.decodes_iff (t text : String) : Decodes (encodeText t) text.toList ↔ text = t := by
  obtain ⟨h1, h2⟩ := C19_utf8_lossy (encodeText t)
  rw [(C19_utf8_exact t).1] at h1 h2
  constructor
  · intro h
    rw [← String.ofList_toList (s := text), h2 _ h, String.ofList_toList]
  · rintro rfl
    exact h1

/-- **C103.**  And every font keyed by names that was read is one that can be made: one that has a name, at least one
glyph, a name for each glyph, and glyphs of which each comes to its end or to an error, showing the same in any build. -/
theorem C103_made (cfg : Config) (data : List UInt8) (hdata : data.length < 2 ^ 61) (base q : Nat) (fs : FontSet)
    (h : FontSet.read (tape cfg data) base = (.ok fs, q)) (k : Nat) {name : List UInt8} {cs : Index} {s : CharacterSet}
    {r : PrivateRecord} (hname : fs.names.data[k]? = some name) (hcs : fs.characterStrings[k]? = some cs)
    (hs : fs.characterSets[k]? = some s) (hr : fs.records[k]? = some (.characterNameKeyed r)) (hne : cs.data ≠ [])
    (hnames : ∀ g < cs.data.length, ∃ (id : UInt16) (text : String), (sids s)[g]? = some id.toNat ∧ fs.strings.getString id = some text)
    (hrun : ∀ g < cs.data.length, ∃ l out, ∀ cfg', Comes cfg' fs k g l out) :
    ∃ f : Face, f.Valid ∧ FaceIn f k fs := by
  obtain ⟨-, ⟨_, _, _, _, _, ix, -, -, ⟨_, b2, s2, -⟩, -, -, hd⟩, l1, l2, l3, l4, hf⟩ := (C32_layout_iff cfg data hdata base fs).mp ⟨q, h⟩
  have i2 := index_small ⟨_, b2, s2⟩
  have hk : k < fs.operations.length := by rw [← l1]; exact (List.getElem?_eq_some_iff.mp hcs).1
  have htop := List.getElem?_eq_getElem hk
  obtain ⟨c, hc, hd'⟩ := forall₂_right_mem hd (List.mem_of_getElem? htop)
  obtain ⟨cs', s', e, r', g1, g2, g3, g4, hfont⟩ := hf k _ htop
  rw [hcs] at g1
  rw [hs] at g2
  rw [hr] at g4
  cases g1
  cases g2
  cases g4
  obtain ⟨fd, w1, w2, w3, w4, w5, w6, -, -⟩ := font_of hd' (i2.2 c hc) hfont
  obtain ⟨v1, v2, v3, ve, v5⟩ := w1
  cases hkey : fd.keying with
  | identifiers => rw [hkey] at w6; exact w6.elim
  | names p =>
  rw [hkey] at w6 v5
  -- the drawings and the names
  have hD : ∀ g, ∃ d : Drawing, g < cs.data.length → ∀ cfg', Comes cfg' fs k g d.shows d.ends := by
    intro g
    by_cases hg : g < cs.data.length
    · obtain ⟨l, out, hl⟩ := hrun g hg
      exact ⟨⟨l, out⟩, fun _ => hl⟩
    · exact ⟨⟨[], .failed⟩, fun h => absurd h hg⟩
  have hN : ∀ g, ∃ t : String, g < cs.data.length → ∃ id : UInt16, (sids s)[g]? = some id.toNat ∧ fs.strings.getString id = some t := by
    intro g
    by_cases hg : g < cs.data.length
    · obtain ⟨id, t, hl⟩ := hnames g hg
      exact ⟨t, fun _ => ⟨id, hl⟩⟩
    · exact ⟨"", fun h => absurd h hg⟩
  choose D hD using hD
  choose N hN using hN
  obtain ⟨m, hm⟩ : ∃ m, cs.data.length = m + 1 := ⟨cs.data.length - 1, by have := List.length_pos_iff.mpr hne; omega⟩
  set f : Face := ⟨name, fd.entries, p.entries, D 0, (List.range m).map fun i => (encodeText (N (i + 1)), D (i + 1)), fd.encoding, []⟩ with hfdef
  have hget : ∀ i d, f.drawings[i]? = some d → i < cs.data.length ∧ d = D i := by
    intro i d hi
    cases i with
    | zero =>
      simp only [hfdef, Face.drawings, List.getElem?_cons_zero, Option.some.injEq] at hi
      exact ⟨by omega, hi.symm⟩
    | succ i =>
      simp only [hfdef, Face.drawings, List.getElem?_cons_succ, List.map_map, List.getElem?_map] at hi
      by_cases hlt : i < m
      · rw [List.getElem?_range hlt] at hi
        simp only [Option.map_some, Function.comp, Option.some.injEq] at hi
        exact ⟨by omega, hi.symm⟩
      · rw [List.getElem?_eq_none (by simpa using hlt)] at hi
        simp at hi
  have hlen : f.drawings.length = cs.data.length := by simp [hfdef, Face.drawings, hm]
  refine ⟨f, ⟨v1, v5.1, ?_, ve, ?_, by simp [hfdef], by simp [hfdef]⟩, hname, ⟨_, htop, by rw [hfdef, List.map_nil, List.append_nil]; exact w2, by simp [hfdef]⟩, ⟨r, hr, w6.1⟩, ⟨cs, hcs, hlen.symm⟩, ?_,
    by rw [g3]; exact congrArg some w5.symm, s, hs, ?_, ?_⟩
  · intro d hd
    obtain ⟨i, hi⟩ := List.mem_iff_getElem?.mp hd
    obtain ⟨h1, rfl⟩ := hget i d hi
    exact (C102_drawn cfg data hdata base q fs h cfg k i _ _ ((hD i h1 cfg _ _).mpr ⟨rfl, rfl⟩)).2
  · rw [hlen, w3]
    exact v2.1
  · intro cfg' i d hi
    obtain ⟨h1, rfl⟩ := hget i d hi
    exact hD i h1 cfg'
  · rw [w4] at v3
    rcases v3 with (rfl | rfl | rfl) | ⟨hc, -⟩
    · rfl
    · rfl
    · rfl
    · cases s <;> first | exact hc.elim | rfl
  · intro i nm d hi
    have hlt : i < m := by
      have := (List.getElem?_eq_some_iff.mp hi).1
      simpa [hfdef] using this
    simp only [hfdef, List.getElem?_map, List.getElem?_range hlt, Option.map_some, Option.some.injEq, Prod.mk.injEq] at hi
    obtain ⟨rfl, -⟩ := hi
    obtain ⟨id, e1, e2⟩ := hN (i + 1) (by omega)
    refine ⟨id, e1, fun text => ?_⟩
    rw [e2, Faces.decodes_iff]
    constructor
    · intro h; injection h with h; exact h.symm
    · rintro rfl; rfl

/-- Two fonts, of which the second has oddities and an error behind them for glyphs. -/
def sampleFaces : List Face :=
  [⟨[65], ⟨[(.opFullName, [.integer 1])], [140, 2]⟩, ⟨[], []⟩, ⟨[], .ended none⟩, [], .standard, []⟩,
   ⟨[66, 67], ⟨[], []⟩, ⟨[(.opDefaultWidthX, [.integer 2])], [141, 20]⟩, ⟨[], .ended (some (F32.ofInt 10))⟩,
     [([104, 105], ⟨Type2.oddities, .ended (some .nan)⟩), ([255], ⟨Type2.oddities, .failed⟩)], .format0 0 2 [65, 66],
     [(.opNotice, [65]), (.opFamilyName, [66, 67])]⟩]

/-- The hypotheses of `C103_make` are met. -/
theorem sampleFaces_fit : FacesFit sampleFaces := by
  have one : ∀ {op : Operator} {i : Int} {b : UInt8}, 32 ≤ b.toNat → b.toNat ≤ 246 → (b.toNat : Int) - 139 = i →
      Dict [(op, [.integer i])] (b :: opCode op) := by
    intro op i b h1 h2 h3
    have h : Seq Operation [(op, [Number.integer i])] ((b :: opCode op) ++ []) :=
      .cons ⟨[b], .cons (b := [b]) (bs := []) (show DictInt i [b] from .short (h3 ▸ .oneByte b h1 h2)) .nil, rfl⟩ .nil
    rwa [List.append_nil] at h
  have odd : ∀ out, out = .ended (some .nan) ∨ out = .failed → Drawable Type2.oddities out :=
    fun out ho => ⟨_, ho, Type2.oddities_showable.1, Type2.oddities_showable.2.1⟩
  have empty : ∀ w, (∀ x, w = some x → x.WF) → Drawable [] (.ended w) := by
    refine fun w hw => ⟨w, .inl rfl, .nil (by simp [Type2.Spec.Keeps]), ?_⟩
    intro x hx
    simp only [Type2.Spec.Shown, List.not_mem_nil, false_and, exists_false, false_or] at hx
    exact hw x hx
  refine ⟨by decide, ?_, by decide, by decide +kernel⟩
  intro f hf
  simp only [sampleFaces, List.mem_cons, List.not_mem_nil, or_false] at hf
  rcases hf with rfl | rfl
  · refine ⟨⟨one (by decide) (by decide) (by decide), by decide⟩, ⟨.nil, by simp⟩, ?_, .inl (.inl rfl), by decide, by decide, by decide⟩
    intro d hd
    simp only [Face.drawings, List.map_nil, List.mem_cons, List.not_mem_nil, or_false] at hd
    subst hd
    exact empty _ (by simp)
  · refine ⟨⟨.nil, by simp⟩, ⟨one (by decide) (by decide) (by decide), by decide⟩, ?_, .inr ⟨rfl, rfl⟩, by decide, by decide, by decide⟩
    intro d hd
    simp only [Face.drawings, List.map_cons, List.map_nil, List.mem_cons, List.not_mem_nil, or_false] at hd
    rcases hd with rfl | rfl | rfl
    · exact empty _ (by rintro x ⟨⟩; decide +kernel)
    · exact odd _ (.inl rfl)
    · exact odd _ (.inr rfl)

/-- The second one of `sampleFaces` meets the hypotheses of `C103_codes`: 66 leads to the second glyph. -/
example : ∃ fs s e, FaceIn sampleFaces[1] 1 fs ∧ fs.characterSets[1]? = some s ∧ fs.encodings[1]? = some e ∧ Leads s e 66 2 ∧
    ¬ Leads s e 67 2 := by
  obtain ⟨bytes, h1, h2⟩ := C103_make sampleFaces_fit
  obtain ⟨fs, q, -, -, h4⟩ := h2 checkedBuild [] [] (by simp; omega) (by decide)
  have hf := h4 1 sampleFaces[1] rfl
  obtain ⟨-, -, -, -, -, h6, s, h7, -, -⟩ := hf
  exact ⟨fs, s, _, h4 1 _ rfl, h7, h6, ⟨by decide, by decide, rfl⟩, fun h => by
    have : (66 : Nat) = 67 := Option.some.inj h.2.2
    omega⟩

/-- The font set of `sampleFaces` meets the hypotheses of `C103_made`. -/
example : ∃ (bytes : List UInt8) (fs : FontSet) (q : Nat) (cs : Index) (s : CharacterSet) (r : PrivateRecord), bytes.length < 2 ^ 61 ∧
    FontSet.read (tape checkedBuild bytes) 0 = (.ok fs, q) ∧ fs.names.data[1]? = some [66, 67] ∧
    fs.characterStrings[1]? = some cs ∧ fs.characterSets[1]? = some s ∧ fs.records[1]? = some (.characterNameKeyed r) ∧
    cs.data.length = 3 ∧
    (∀ g < cs.data.length, ∃ (id : UInt16) (text : String), (sids s)[g]? = some id.toNat ∧ fs.strings.getString id = some text) ∧
    ∀ g < cs.data.length, ∃ l out, ∀ cfg', Comes cfg' fs 1 g l out := by
  obtain ⟨bytes, h1, h2⟩ := C103_make sampleFaces_fit
  obtain ⟨fs, q, h3, -, h4⟩ := h2 checkedBuild [] [] (by simp; omega) (by decide)
  rw [List.nil_append, List.append_nil] at h3
  obtain ⟨a1, -, ⟨r, a3, -⟩, ⟨cs, a4, a5⟩, a6, -, s, a7, a8, a9⟩ := h4 1 _ rfl
  refine ⟨bytes, fs, q, cs, s, r, by omega, h3, a1, a4, a7, a3, a5, ?_, ?_⟩
  · intro g hg
    rw [a5] at hg
    match g, hg with
    | 0, _ => exact ⟨0, ".notdef", a8, (C73_lookup _ _ _).mpr (.inl rfl)⟩
    | 1, _ =>
      obtain ⟨id, e1, e2⟩ := a9 0 _ _ rfl
      exact ⟨id, _, e1, (e2 (Utf8.lossy [104, 105])).mpr (C19_utf8_lossy _).1⟩
    | 2, _ =>
      obtain ⟨id, e1, e2⟩ := a9 1 _ _ rfl
      exact ⟨id, _, e1, (e2 (Utf8.lossy [255])).mpr (C19_utf8_lossy _).1⟩
  · intro g hg
    have := List.getElem?_eq_getElem (a5 ▸ hg)
    exact ⟨_, _, fun cfg' => a6 cfg' g _ this⟩

end PS
