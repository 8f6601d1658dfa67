import Verif.Spec.Collections
import Verif.Props.Faces
/-!
# Property C104: fonts keyed by character identifiers, made from scratch
-/
namespace PS
open PS.Spec

namespace Collections

/-- A font, if the code of drawings is `F` and its strings are numbered from `n` on. -/
def font (F : Drawing → List UInt8) (n : Nat) (f : CidFace) : FontDef where
  entries := Texts.add f.top (n + 2) f.texts
  codes := f.slots.map fun x => F x.2
  set := .format0 0 (f.glyphs.map fun g => UInt16.ofNat g.1)
  encoding := f.encoding
  keying := .identifiers n (n + 1) f.supplement (.format0 0 (f.slots.map fun x => UInt8.ofNat x.1))
    (f.dicts.map fun d => ⟨d.1, ⟨d.2, []⟩⟩)

/-- The fonts, one after another. -/
def fonts (F : Drawing → List UInt8) : Nat → List CidFace → List FontDef
  | _, [] => []
  | n, f :: fs => font F n f :: fonts F (n + f.labels.length) fs

/-- The font set. -/
def fontSet (F : Drawing → List UInt8) (fs : List CidFace) : FontSetDef where
  names := fs.map CidFace.name
  strings := fs.flatMap CidFace.labels
  globals := []
  fonts := fonts F 391 fs

theorem fonts_length (F : Drawing → List UInt8) (n : Nat) (fs : List CidFace) : (fonts F n fs).length = fs.length := by
  induction fs generalizing n with
  | nil => rfl
  | cons f fs ih => simp [fonts, ih]

theorem fonts_get (F : Drawing → List UInt8) {fs : List CidFace} {n k : Nat} {f : CidFace} (h : fs[k]? = some f) :
    (fonts F n fs)[k]? = some (font F (n + ((fs.take k).map fun f => f.labels.length).sum) f) := by
  induction fs generalizing n k with
  | nil => simp at h
  | cons g fs ih =>
    cases k with
    | zero =>
      simp only [List.getElem?_cons_zero, Option.some.injEq] at h
      subst h
      simp [fonts]
    | succ k =>
      simp only [List.getElem?_cons_succ] at h
      simp only [fonts, List.getElem?_cons_succ, ih h, List.take_succ_cons, List.map_cons, List.sum_cons, Nat.add_assoc]

theorem strings_get {fs : List CidFace} {k i : Nat} {f : CidFace} {t : List UInt8} (h : fs[k]? = some f)
    (hi : f.labels[i]? = some t) :
    (fs.flatMap CidFace.labels)[((fs.take k).map fun f => f.labels.length).sum + i]? = some t := by
  induction fs generalizing k with
  | nil => simp at h
  | cons g fs ih =>
    rw [List.flatMap_cons]
    cases k with
    | zero =>
      simp only [List.getElem?_cons_zero, Option.some.injEq] at h
      subst h
      simp only [List.take_zero, List.map_nil, List.sum_nil, Nat.zero_add]
      rw [List.getElem?_append_left (List.getElem?_eq_some_iff.mp hi).1, hi]
    | succ k =>
      simp only [List.getElem?_cons_succ] at h
      simp only [List.take_succ_cons, List.map_cons, List.sum_cons]
      rw [List.getElem?_append_right (by omega), Nat.add_assoc, Nat.add_sub_cancel_left]
      exact ih h

theorem range_before {fs : List CidFace} {k : Nat} {f : CidFace} (h : fs[k]? = some f) :
    ((fs.take k).map fun f => f.labels.length).sum + f.labels.length ≤ (fs.map fun f => f.labels.length).sum := by
  induction fs generalizing k with
  | nil => simp at h
  | cons g fs ih =>
    cases k with
    | zero =>
      simp only [List.getElem?_cons_zero, Option.some.injEq] at h
      subst h
      simp
    | succ k =>
      simp only [List.getElem?_cons_succ] at h
      have := ih h
      simp only [List.take_succ_cons, List.map_cons, List.sum_cons]
      omega

theorem strings_length (fs : List CidFace) : (fs.flatMap CidFace.labels).length = (fs.map fun f => f.labels.length).sum := by
  rw [List.length_flatMap]

theorem labels_length (f : CidFace) : f.labels.length = f.texts.length + 2 := by simp [CidFace.labels]

theorem few {fs : List CidFace} : 2 * fs.length ≤ (fs.map fun f => f.labels.length).sum := by
  induction fs with
  | nil => simp
  | cons f fs ih =>
    have := labels_length f
    simp only [List.length_cons, List.map_cons, List.sum_cons]
    omega

theorem set_length (ids : List UInt16) : (encodeCharacterSet (.format0 0 ids)).length = 1 + 2 * ids.length := by
  simp only [encodeCharacterSet, List.length_cons]
  rw [List.length_flatMap]
  simp
  omega

theorem slots_codes {F : Drawing → List UInt8} {xs : List (Nat × Drawing)} (hF : ∀ x ∈ xs, (F x.2).length ≤ x.2.bulk) :
    (xs.map fun x => F x.2).flatten.length + 7 * xs.length ≤ (xs.map fun x => x.2.bulk + 7).sum := by
  induction xs with
  | nil => simp
  | cons d ds ih =>
    have h1 := hF d (by simp)
    have h2 := ih fun d hd => hF d (by simp [hd])
    simp only [List.map_cons, List.flatten_cons, List.length_append, List.length_cons, List.sum_cons]
    omega

theorem ops_size (i : Int) : (encodeOps [(Operator.opSubrs, [long i])]).length = 6 := by
  simp [encodeOps, long, opCode, beSigned_length]

theorem array_size (dicts : List (Entries × Entries)) (o : Nat) :
    (Keying.array (dicts.map fun d => (⟨d.1, ⟨d.2, []⟩⟩ : FontDictDef)) o).length +
      (((dicts.map fun d => (⟨d.1, ⟨d.2, []⟩⟩ : FontDictDef)).map fun d => d.priv.blob).flatten).length ≤
      7 + (dicts.map fun d => d.1.bytes.length + d.2.bytes.length + 30).sum := by
  have h1 : ∀ (x : FontDictDef) (o : Nat), (x.dict o).length = x.entries.bytes.length + 11 := by
    intro x o
    simp [FontDictDef.dict, encodeOps, long, opCode, beSigned_length]
  have h3 : (encodeIndex 4 ([] : List (List UInt8))).length = 2 := rfl
  have h2 : ((dicts.map fun d => (⟨d.1, ⟨d.2, []⟩⟩ : FontDictDef)).map fun x => x.entries.bytes.length + 11).sum + 4 * dicts.length +
      (((dicts.map fun d => (⟨d.1, ⟨d.2, []⟩⟩ : FontDictDef)).map fun d => d.priv.blob).flatten).length ≤
      (dicts.map fun d => d.1.bytes.length + d.2.bytes.length + 30).sum := by
    induction dicts with
    | nil => simp
    | cons d ds ih =>
      simp only [List.map_cons, List.sum_cons, List.flatten_cons, List.length_append, List.length_cons, PrivateDef.blob,
        PrivateDef.dict, h3, ops_size] at ih ⊢
      omega
  unfold Keying.array
  rw [encodeIndex_length, place_sizes (g := fun x : FontDictDef => x.entries.bytes.length + 11) _ h1, List.length_map, place_length,
    List.length_map]
  split <;> omega

theorem font_size {F : Drawing → List UInt8} {f : CidFace} (hF : ∀ x ∈ f.slots, (F x.2).length ≤ x.2.bulk) (n : Nat) :
    ((font F n f).dict 0).length ≤ f.top.bytes.length + f.supplement.2.length + 7 * f.texts.length + 50 ∧
    ((font F n f).blob 0).length ≤ (f.dicts.map fun d => d.1.bytes.length + d.2.bytes.length + 30).sum +
      (f.slots.map fun x => x.2.bulk + 7).sum + (encodeEncoding f.encoding).length + 40 := by
  constructor
  · have := Texts.size f.top (n + 2) f.texts
    have e : (encodeOps ((font F n f).ops 0)).length ≤ f.supplement.2.length + 50 := by
      simp only [FontDef.ops, font, Keying.ops, encodeOps]
      simp [long, opCode, beSigned_length]
      omega
    simp only [FontDef.dict, List.length_append]
    simp only [font] at e ⊢
    omega
  · have h1 := Recoding.index_bulk (f.slots.map fun x => F x.2)
    have h2 := slots_codes hF
    have h5 : f.slots.length = f.glyphs.length + 1 := by simp [CidFace.slots]
    unfold indexBulk at h1
    rw [List.length_map] at h1
    have h6 := array_size f.dicts ((font F n f).recordAt 0 + (encodeSelect (.format0 0 (f.slots.map fun x => UInt8.ofNat x.1))).length +
      (Keying.array (f.dicts.map fun d => (⟨d.1, ⟨d.2, []⟩⟩ : FontDictDef)) 0).length)
    have h7 : (encodeSelect (.format0 0 (f.slots.map fun x => UInt8.ofNat x.1))).length = f.slots.length + 1 := by
      simp [encodeSelect]
    have h8 : ((font F n f).blob 0).length = 1 + 2 * f.glyphs.length + (encodeEncoding f.encoding).length + (encodeIndex 4 (f.slots.map fun x => F x.2)).length +
      ((encodeSelect (.format0 0 (f.slots.map fun x => UInt8.ofNat x.1))).length +
        (Keying.array (f.dicts.map fun d => (⟨d.1, ⟨d.2, []⟩⟩ : FontDictDef)) ((font F n f).recordAt 0 +
          (encodeSelect (.format0 0 (f.slots.map fun x => UInt8.ofNat x.1))).length +
          (Keying.array (f.dicts.map fun d => (⟨d.1, ⟨d.2, []⟩⟩ : FontDictDef)) 0).length)).length +
        (((f.dicts.map fun d => (⟨d.1, ⟨d.2, []⟩⟩ : FontDictDef)).map fun d => d.priv.blob).flatten).length) := by
      simp only [FontDef.blob, List.length_append, Keying.blob, font, set_length, List.length_map]
    omega

theorem item_size {F : Drawing → List UInt8} {f : CidFace} (hF : ∀ x ∈ f.slots, (F x.2).length ≤ x.2.bulk) (n : Nat) :
    f.name.length + 8 + ((font F n f).dict 0).length + f.labels.flatten.length + 4 * f.labels.length + ((font F n f).blob 0).length ≤
      f.bulk := by
  obtain ⟨h1, h2⟩ := font_size hF n
  have h5 := Faces.texts_size f.texts
  have h6 := labels_length f
  have h7 : f.labels.flatten.length = f.registry.length + f.ordering.length + (f.texts.map Prod.snd).flatten.length := by
    simp only [CidFace.labels, List.flatten_cons, List.length_append, Nat.add_assoc]
  unfold CidFace.bulk
  omega

theorem size_fonts {F : Drawing → List UInt8} {fs : List CidFace} (hF : ∀ f ∈ fs, ∀ x ∈ f.slots, (F x.2).length ≤ x.2.bulk) (n : Nat) :
    (fs.map CidFace.name).flatten.length + 4 * fs.length +
    (4 * fs.length + ((fonts F n fs).map fun f => (f.dict 0).length).sum) +
    ((fs.flatMap CidFace.labels).flatten.length + 4 * (fs.map fun f => f.labels.length).sum) +
    ((fonts F n fs).map fun f => (f.blob 0).length).sum ≤ (fs.map CidFace.bulk).sum := by
  induction fs generalizing n with
  | nil => simp [fonts]
  | cons f fs ih =>
    have h1 := item_size (hF f (by simp)) n
    have h3 := ih (fun f hf => hF f (by simp [hf])) (n + f.labels.length)
    simp only [fonts, List.map_cons, List.flatten_cons, List.length_append, List.length_cons, List.sum_cons, List.flatMap_cons,
      List.flatten_append]
    omega

theorem fonts_mem (F : Drawing → List UInt8) {fs : List CidFace} {n : Nat} {g : FontDef} (h : g ∈ fonts F n fs) :
    ∃ f ∈ fs, ∃ m, m + f.labels.length ≤ n + (fs.map fun f => f.labels.length).sum ∧ g = font F m f := by
  induction fs generalizing n with
  | nil => simp [fonts] at h
  | cons f fs ih =>
    simp only [fonts, List.mem_cons] at h
    rcases h with rfl | h
    · exact ⟨f, by simp, n, by simp, rfl⟩
    · obtain ⟨f', h1, m, h2, h3⟩ := ih h
      exact ⟨f', by simp [h1], m, by simp only [List.map_cons, List.sum_cons]; omega, h3⟩

theorem font_valid {F : Drawing → List UInt8} {f : CidFace} (hF : ∀ x ∈ f.slots, (F x.2).length ≤ x.2.bulk) (hv : f.Valid)
    (hb : f.bulk < 2 ^ 31) {m : Nat} (hm : m + f.labels.length ≤ 65536) : (font F m f).Valid := by
  have none : IndexFits 4 ([] : List (List UInt8)) := ⟨by simp, by omega, by omega, by simp⟩
  obtain ⟨v1, v2, v3, v4, v5, v6, ve, v7, vt, -⟩ := hv
  have hl := labels_length f
  have hc := slots_codes hF
  have hb' : f.bulk = f.name.length + f.top.bytes.length + f.registry.length + f.ordering.length + f.supplement.2.length +
    (f.dicts.map fun d => d.1.bytes.length + d.2.bytes.length + 30).sum + (f.slots.map fun x => x.2.bulk + 7).sum +
      (encodeEncoding f.encoding).length + (f.texts.map fun x => x.2.length + 11).sum + 200 := rfl
  refine ⟨Texts.valid v1 vt (by omega), Recoding.fits (by simpa [font] using v7) ?_, .inr ⟨rfl, ?_⟩, ve, by omega, by omega, v2, ⟨rfl, ?_⟩,
    by simpa using v3, ?_⟩
  · simp only [indexBulk, font, List.length_map]
    omega
  · simp [font, covered, CidFace.slots]
    omega
  · simp [font]
  · intro d hd
    obtain ⟨x, hx, rfl⟩ := List.mem_map.mp hd
    exact ⟨(v4 x hx).1, (v4 x hx).2, none⟩

theorem fontSet_valid {F : Drawing → List UInt8} {fs : List CidFace} (hF : ∀ f ∈ fs, ∀ x ∈ f.slots, (F x.2).length ≤ x.2.bulk)
    (h : CollectionsFit fs) : (fontSet F fs).Valid := by
  obtain ⟨h2, h1, h4⟩ := h
  have hfew := few (fs := fs)
  have hs := size_fonts hF 391
  have hw : (fontSet F fs).write.length < 2 ^ 31 := by
    have i1 := Recoding.index_bulk (fs.map CidFace.name)
    have i2 := Recoding.index_bulk (fs.flatMap CidFace.labels)
    have i3 : (encodeIndex 4 ([] : List (List UInt8))).length = 2 := rfl
    unfold indexBulk at i1 i2
    rw [strings_length] at i2
    rw [List.length_map] at i1
    rw [write_length]
    simp only [fontSet, fonts_length, i3]
    split <;> omega
  have none : IndexFits 4 ([] : List (List UInt8)) := ⟨by simp, by omega, by omega, by simp⟩
  refine ⟨?_, ?_, none, ?_, ?_, hw⟩
  · refine Recoding.fits (by simp only [fontSet, List.length_map]; omega) ?_
    simp only [indexBulk, fontSet, List.length_map]
    omega
  · refine Recoding.fits ?_ ?_
    · simp only [fontSet, strings_length]
      omega
    · simp only [indexBulk, fontSet, strings_length]
      omega
  · simp only [fontSet, fonts_length]
    omega
  · intro g hg
    obtain ⟨f, hf, m, hm, rfl⟩ := fonts_mem F hg
    have hb : f.bulk ≤ (fs.map CidFace.bulk).sum := List.single_le_sum (by simp) _ (List.mem_map_of_mem hf)
    exact font_valid (hF f hf) (h2 f hf) (by omega) (by omega)

theorem named {fs : FontSet} {j : Nat} {name : List UInt8} (h : fs.strings.data[j]? = some name) (hj : 391 + j < 65536) {id : UInt16}
    (hid : id.toNat = 391 + j) : NamedBy fs id name := by
  intro text
  rw [C73_lookup, StringOf, hid, List.getElem?_eq_none (by rw [standardStringList_length]; omega), Nat.add_sub_cancel_left, h]
  simp

/-- A font is as wanted, in any font set that has the strings for it. -/
theorem collection_in_set {F : Drawing → List UInt8} {D : FontSetDef} {fs : FontSet} (h : D.In fs) (hD : D.globals = []) {f : CidFace}
    (hv : f.Valid) {k m : Nat} (hname : D.names[k]? = some f.name) (hg : D.fonts[k]? = some (font F (391 + m) f))
    (hstrings : ∀ i t, f.labels[i]? = some t → D.strings[m + i]? = some t) (hm : m + f.labels.length ≤ 65145)
    (hF : ∀ x ∈ f.slots, ∀ cfg, Type2.Spec.Run cfg (Type2.Program.new (F x.2) [] []) x.2.shows x.2.ends) : CollectionIn f k fs := by
  have hl := labels_length f
  obtain ⟨v1, v2, v3, v4, v5, v6, ve, v7, vt, vn⟩ := hv
  obtain ⟨h1, h2, h3, h4, h5, h6, h7, h8⟩ := h
  rw [hD] at h3
  obtain ⟨top, a1, a2⟩ := forall₂_getElem? h4 hg
  obtain ⟨cs, b1, b2⟩ := forall₂_getElem? h5 hg
  obtain ⟨r, c1, c2⟩ := forall₂_getElem? h8 hg
  cases r with
  | characterNameKeyed => exact c2.elim
  | characterIDKeyed r =>
  obtain ⟨c3, c4, c5, c6, c7, c8⟩ := c2
  have hsel : ∀ i x, f.slots[i]? = some x → ∀ n, Selects r.encoding i n ↔ n = x.1 := by
    intro i x hx n
    have := (v5 x (List.mem_of_getElem? hx)).2.1
    rw [c6]
    simp only [Selects, List.getElem?_map, hx, Option.map_some, Option.some.injEq]
    have e : (UInt8.ofNat x.1).toNat = x.1 := UInt8.toNat_ofNat_of_lt' this
    constructor
    · rintro ⟨_, rfl, rfl⟩
      exact e
    · rintro rfl
      exact ⟨_, rfl, e.symm⟩
  refine ⟨by rw [h1]; exact hname, ⟨top, a1, Texts.rest a2, ?_⟩, ⟨cs, b1, by rw [b2]; simp [font]⟩, ?_, ?_,
    by rw [h7, List.getElem?_map, hg]; rfl, r, c1, ?_, ?_, c5, ?_, ?_, hsel⟩
  · rintro ⟨op, t⟩ hx
    obtain ⟨j, hj⟩ := List.mem_iff_getElem?.mp hx
    have hlt := (List.getElem?_eq_some_iff.mp hj).1
    have e1 : (UInt16.ofNat (391 + m + 2 + j)).toNat = 391 + m + 2 + j := UInt16.toNat_ofNat_of_lt' (by
      show 391 + m + 2 + j < 65536
      omega)
    refine ⟨UInt16.ofNat (391 + m + 2 + j), ?_, named (j := m + (j + 2)) ?_ (by omega) (by omega)⟩
    · rw [e1, Texts.found a2 vt vn hj]
    · rw [h2]
      exact hstrings _ _ (by simp [CidFace.labels, hj])
  · intro cfg i d hd l out
    have hrun := hF d (List.mem_of_getElem? hd) cfg
    have hcode : cs.data[i]? = some (F d.2) := by
      rw [b2]
      simp [font, hd]
    have hloc : ∀ {n : Nat} {p : PrivateRecord}, r.records[n]? = some p → p.subroutines.data = [] := by
      intro n p hp
      obtain ⟨x, hx, -, e⟩ := forall₂_right_mem c8 (List.mem_of_getElem? hp)
      obtain ⟨y, -, rfl⟩ := List.mem_map.mp hx
      exact e
    constructor
    · rintro ⟨cs', r', code, loc, e1, e2, e3, e4, e5⟩
      rw [b1] at e1
      injection e1 with e1
      subst e1
      rw [c1] at e2
      injection e2 with e2
      subst e2
      rw [hcode] at e3
      injection e3 with e3
      subst e3
      obtain ⟨n, p, -, e6, rfl⟩ := e4
      rw [hloc e6, h3] at e5
      exact Type2.run_unique e5 hrun
    · rintro ⟨rfl, rfl⟩
      have hn := (v5 d (List.mem_of_getElem? hd)).1
      obtain ⟨p, e6, -⟩ := forall₂_getElem? c8 (k := d.1) (by rw [List.getElem?_map, List.getElem?_eq_getElem hn]; rfl)
      refine ⟨cs, _, F d.2, p.subroutines, b1, c1, hcode, ⟨d.1, p, (hsel i d hd _).mpr rfl, e6, rfl⟩, ?_⟩
      rw [hloc e6, h3]
      exact hrun
  · refine ⟨_, by rw [h6, List.getElem?_map, hg]; rfl, rfl, ?_⟩
    intro i g hi
    simp only [font, sids, List.getElem?_cons_succ, List.getElem?_map, List.map_map, hi, Option.map_some, Function.comp]
    rw [UInt16.toNat_ofNat_of_lt' (v6 g (List.mem_of_getElem? hi))]
  · refine named (j := m) ?_ (by omega) c3
    rw [h2]
    exact hstrings 0 _ rfl
  · refine named (j := m + 1) ?_ (by omega) (by rw [c4]; omega)
    rw [h2]
    exact hstrings 1 _ rfl
  · rw [List.forall₂_map_left_iff] at c7
    exact c7
  · rw [List.forall₂_map_left_iff] at c8
    exact c8.imp fun _ _ h => h.1

theorem collection_in {F : Drawing → List UInt8} {fonts : List CidFace} {fs : FontSet} (h : (fontSet F fonts).In fs)
    (hfit : CollectionsFit fonts)
    (hF : ∀ f ∈ fonts, ∀ x ∈ f.slots, ∀ cfg, Type2.Spec.Run cfg (Type2.Program.new (F x.2) [] []) x.2.shows x.2.ends)
    {k : Nat} {f : CidFace} (hk : fonts[k]? = some f) : CollectionIn f k fs := by
  have hmem := List.mem_of_getElem? hk
  have hr := range_before hk
  have hfit1 := hfit.2.1
  exact collection_in_set h rfl (hfit.1 f hmem) (by simp [fontSet, hk]) (fonts_get F hk) (fun i t => strings_get hk) (by omega) (hF f hmem)

end Collections

/-- **C104.**  Fonts keyed by character identifiers can be made from scratch as well: for any names, character
collections, dictionaries and texts in them, identifiers, choices of font dictionaries, and drawings that are in order, there is a file of
which reading gives just these, in any build. -/
theorem C104_make {fonts : List CidFace} (h : CollectionsFit fonts) :
    ∃ bytes : List UInt8, bytes.length < 2 ^ 31 ∧
      ∀ (cfg : Config) (pre post : List UInt8), (pre ++ bytes ++ post).length < 2 ^ 61 → pre.length + 2 ^ 31 ≤ cfg.maxSeek →
        ∃ fs q, FontSet.read (tape cfg (pre ++ bytes ++ post)) pre.length = (.ok fs, q) ∧
          fs.records.length = fonts.length ∧ ∀ (k : Nat) f, fonts[k]? = some f → CollectionIn f k fs := by
  obtain ⟨F, hF⟩ := Faces.codes (ds := fun d => ∃ f ∈ fonts, ∃ x ∈ f.slots, d = x.2) (by
    rintro d ⟨f, hf, x, hx, rfl⟩
    refine ⟨((h.1 f hf).2.2.2.2.1 x hx).2.2, ?_⟩
    have h1 : f.bulk ≤ (fonts.map CidFace.bulk).sum := List.single_le_sum (by simp) _ (List.mem_map_of_mem hf)
    have h2 : x.2.bulk + 7 ≤ (f.slots.map fun x => x.2.bulk + 7).sum :=
      List.single_le_sum (by simp) _ (List.mem_map_of_mem (f := fun x : Nat × Drawing => x.2.bulk + 7) hx)
    have h3 := h.2.2
    have h4 : f.bulk = f.name.length + f.top.bytes.length + f.registry.length + f.ordering.length + f.supplement.2.length +
      (f.dicts.map fun d => d.1.bytes.length + d.2.bytes.length + 30).sum + (f.slots.map fun x => x.2.bulk + 7).sum +
        (encodeEncoding f.encoding).length + (f.texts.map fun x => x.2.length + 11).sum + 200 := rfl
    omega)
  have hv := Collections.fontSet_valid (F := F) (fun f hf x hx => (hF x.2 ⟨f, hf, x, hx, rfl⟩).1) h
  refine ⟨(Collections.fontSet F fonts).write, hv.2.2.2.2.2, fun cfg pre post h1 h2 => ?_⟩
  obtain ⟨fs, q, h3, h4⟩ := C60_round_trip hv cfg pre post h1 h2
  refine ⟨fs, q, h3, ?_, fun k f hk => Collections.collection_in h4 h (fun f hf x hx => (hF x.2 ⟨f, hf, x, hx, rfl⟩).2) hk⟩
  rw [← h4.2.2.2.2.2.2.2.length_eq]
  exact Collections.fonts_length _ _ _

/-- **C104.**  And every font keyed by character identifiers that was read is one that can be made: one that has a name, at
least one glyph, a registry and an ordering, for each glyph an identifier and just one font dictionary, and glyphs of
which each comes to its end or to an error, showing the same in any build. -/
theorem C104_made (cfg : Config) (data : List UInt8) (hdata : data.length < 2 ^ 61) (base q : Nat) (fs : FontSet)
    (h : FontSet.read (tape cfg data) base = (.ok fs, q)) (k : Nat) {name : List UInt8} {cs : Index} {s : CharacterSet}
    {r : CIDRecord} {registry ordering : String} (hname : fs.names.data[k]? = some name) (hcs : fs.characterStrings[k]? = some cs)
    (hs : fs.characterSets[k]? = some s) (hr : fs.records[k]? = some (.characterIDKeyed r)) (hne : cs.data ≠ [])
    (hregistry : fs.strings.getString r.registry = some registry) (hordering : fs.strings.getString r.ordering = some ordering)
    (hids : ∀ g < cs.data.length, ∃ id : UInt16, (sids s)[g]? = some id.toNat)
    (hsel : ∀ g < cs.data.length, ∃ d, ∀ n, Selects r.encoding g n ↔ n = d)
    (hrun : ∀ g < cs.data.length, ∃ l out, ∀ cfg', Comes cfg' fs k g l out) :
    ∃ f : CidFace, f.Valid ∧ CollectionIn f k fs := by
  obtain ⟨-, ⟨_, _, _, _, _, ix, -, -, ⟨_, b2, s2, -⟩, -, -, hd⟩, l1, l2, l3, l4, hf⟩ := (C32_layout_iff cfg data hdata base fs).mp ⟨q, h⟩
  have i2 := index_small ⟨_, b2, s2⟩
  have hk : k < fs.operations.length := by rw [← l1]; exact (List.getElem?_eq_some_iff.mp hcs).1
  have htop := List.getElem?_eq_getElem hk
  obtain ⟨c, hc, hd'⟩ := forall₂_right_mem hd (List.mem_of_getElem? htop)
  obtain ⟨cs', s', e, r', g1, g2, g3, g4, hfont⟩ := hf k _ htop
  rw [hcs] at g1
  rw [hs] at g2
  rw [hr] at g4
  cases g1
  cases g2
  cases g4
  obtain ⟨fd, w1, w2, w3, w4, w5, w6, -, -⟩ := font_of hd' (i2.2 c hc) hfont
  obtain ⟨v1, v2, v3, ve, v5⟩ := w1
  cases hkey : fd.keying with
  | names => rw [hkey] at w6; exact w6.elim
  | identifiers reg ord supp select dicts =>
  rw [hkey] at w6 v5
  obtain ⟨-, -, p3, p4, p5, p6⟩ := w6
  obtain ⟨-, -, q3, -, q5, q6⟩ := v5
  -- the drawings, the font dictionaries and the identifiers
  have hD : ∀ g, ∃ d : Drawing, g < cs.data.length → ∀ cfg', Comes cfg' fs k g d.shows d.ends := by
    intro g
    by_cases hg : g < cs.data.length
    · obtain ⟨l, out, hl⟩ := hrun g hg
      exact ⟨⟨l, out⟩, fun _ => hl⟩
    · exact ⟨⟨[], .failed⟩, fun h => absurd h hg⟩
  have hN : ∀ g, ∃ n : Nat, g < cs.data.length → n < 65536 ∧ (sids s)[g]? = some n := by
    intro g
    by_cases hg : g < cs.data.length
    · obtain ⟨id, hl⟩ := hids g hg
      exact ⟨id.toNat, fun _ => ⟨id.toNat_lt, hl⟩⟩
    · exact ⟨0, fun h => absurd h hg⟩
  have hS : ∀ g, ∃ d : Nat, g < cs.data.length → ∀ n, Selects r.encoding g n ↔ n = d := by
    intro g
    by_cases hg : g < cs.data.length
    · obtain ⟨d, hl⟩ := hsel g hg
      exact ⟨d, fun _ => hl⟩
    · exact ⟨0, fun h => absurd h hg⟩
  choose D hD using hD
  choose N hN using hN
  choose S hS using hS
  obtain ⟨m, hm⟩ : ∃ m, cs.data.length = m + 1 := ⟨cs.data.length - 1, by have := List.length_pos_iff.mpr hne; omega⟩
  set f : CidFace := ⟨name, fd.entries, encodeText registry, encodeText ordering, supp,
    dicts.map fun d => (d.entries, d.priv.entries), (S 0, D 0), (List.range m).map fun i => (N (i + 1), S (i + 1), D (i + 1)), fd.encoding, []⟩ with hfdef
  have hget : ∀ i d, f.slots[i]? = some d → i < cs.data.length ∧ d = (S i, D i) := by
    intro i d hi
    cases i with
    | zero =>
      simp only [hfdef, CidFace.slots, List.getElem?_cons_zero, Option.some.injEq] at hi
      exact ⟨by omega, hi.symm⟩
    | succ i =>
      simp only [hfdef, CidFace.slots, List.getElem?_cons_succ, List.map_map, List.getElem?_map] at hi
      by_cases hlt : i < m
      · rw [List.getElem?_range hlt] at hi
        simp only [Option.map_some, Function.comp, Option.some.injEq] at hi
        exact ⟨by omega, hi.symm⟩
      · rw [List.getElem?_eq_none (by simpa using hlt)] at hi
        simp at hi
  have hlen : f.slots.length = cs.data.length := by simp [hfdef, CidFace.slots, hm]
  have hnamed : ∀ {id : UInt16} {t : String}, fs.strings.getString id = some t → NamedBy fs id (encodeText t) := by
    intro id t e text
    rw [e, Faces.decodes_iff]
    constructor
    · intro h; injection h with h; exact h.symm
    · rintro rfl; rfl
  refine ⟨f, ⟨v1, q3, by simpa [hfdef] using q5, ?_, ?_, ?_, ve, ?_, by simp [hfdef], by simp [hfdef]⟩, hname,
    ⟨_, htop, by rw [hfdef, List.map_nil, List.append_nil]; exact w2, by simp [hfdef]⟩, ⟨cs, hcs, hlen.symm⟩, ?_, ⟨s, hs, ?_, ?_⟩,
    by rw [g3]; exact congrArg some w5.symm, r, hr, hnamed hregistry, hnamed hordering, p3, ?_, ?_, ?_⟩
  · intro d hd
    obtain ⟨x, hx, rfl⟩ := List.mem_map.mp hd
    exact ⟨(q6 x hx).1, (q6 x hx).2.1⟩
  · intro x hx
    obtain ⟨i, hi⟩ := List.mem_iff_getElem?.mp hx
    obtain ⟨h1, rfl⟩ := hget i x hi
    have hshow := (hD i h1 cfg _ _).mpr ⟨rfl, rfl⟩
    have hdraw := (C102_drawn cfg data hdata base q fs h cfg k i _ _ hshow).2
    obtain ⟨_, r', _, loc, -, e2, -, e4, -⟩ := hshow
    rw [hr] at e2
    injection e2 with e2
    subst e2
    obtain ⟨n, p, e5, e6, -⟩ := e4
    have hn := (hS i h1 n).mp e5
    subst hn
    refine ⟨?_, ?_, hdraw⟩
    · have := (List.getElem?_eq_some_iff.mp e6).1
      rw [← p6.length_eq] at this
      simpa [hfdef] using this
    · show S i < 256
      unfold Selects at e5
      split at e5
      · obtain ⟨id, -, e7⟩ := e5
        rw [e7]
        exact id.toNat_lt
      · obtain ⟨_, a, _, -, -, -, -, e7⟩ := e5
        rw [e7]
        exact a.dictionaryID.toNat_lt
  · intro g hg
    obtain ⟨i, hi, rfl⟩ := List.mem_map.mp hg
    exact (hN (i + 1) (by have := List.mem_range.mp hi; omega)).1
  · rw [hlen, w3]
    exact v2.1
  · intro cfg' i d hi
    obtain ⟨h1, rfl⟩ := hget i d hi
    exact hD i h1 cfg'
  · rw [w4] at v3
    rcases v3 with (rfl | rfl | rfl) | ⟨hc, -⟩
    · rfl
    · rfl
    · rfl
    · cases s <;> first | exact hc.elim | rfl
  · intro i g hi
    have hlt : i < m := by
      have := (List.getElem?_eq_some_iff.mp hi).1
      simpa [hfdef] using this
    simp only [hfdef, List.getElem?_map, List.getElem?_range hlt, Option.map_some, Option.some.injEq] at hi
    subst hi
    exact (hN (i + 1) (by omega)).2
  · rw [List.forall₂_map_left_iff]
    exact p5
  · rw [List.forall₂_map_left_iff]
    exact p6.imp fun _ _ h => h.1
  · intro i x hi
    obtain ⟨h1, rfl⟩ := hget i x hi
    exact hS i h1

/-- A font with two font dictionaries, of which the second has a width and serves one of the glyphs. -/
def sampleCollection : CidFace :=
  ⟨[67], ⟨[], []⟩, [82], [79], long 6, [(⟨[], []⟩, ⟨[], []⟩), (⟨[], []⟩, ⟨[(.opDefaultWidthX, [.integer 2])], [141, 20]⟩)],
    (0, ⟨[], .ended none⟩), [(7, 1, ⟨Type2.oddities, .ended (some .nan)⟩), (300, 0, ⟨Type2.oddities, .failed⟩)], .standard,
    [(.opFullName, [70, 110]), (.opNotice, [])]⟩

/-- The hypothesis of `C104_make` is met. -/
theorem sampleCollection_fits : CollectionsFit [sampleCollection] := by
  have empty : ∀ l, Entries.Valid ⟨[], []⟩ l := fun l => ⟨.nil, by simp⟩
  have width : Entries.Valid ⟨[(.opDefaultWidthX, [.integer 2])], [141, 20]⟩ [.opSubrs] := by
    have := sampleFaces_fit.2.1 _ (List.mem_cons_of_mem _ List.mem_cons_self)
    exact this.2.1
  have draws := (sampleFaces_fit.2.1 _ (List.mem_cons_of_mem _ List.mem_cons_self)).2.2.1
  have first := (sampleFaces_fit.2.1 _ List.mem_cons_self).2.2.1
  refine ⟨?_, by decide, by decide +kernel⟩
  intro f hf
  simp only [List.mem_cons, List.not_mem_nil, or_false] at hf
  subst hf
  refine ⟨empty _, show DictInt 6 _ from .long 6 (by decide) (by decide), by decide, ?_, ?_, ?_, .inl (.inl rfl), by decide, by decide, by decide⟩
  · intro d hd
    simp only [sampleCollection, List.mem_cons, List.not_mem_nil, or_false] at hd
    rcases hd with rfl | rfl
    · exact ⟨empty _, empty _⟩
    · exact ⟨empty _, width⟩
  · intro x hx
    simp only [sampleCollection, CidFace.slots, List.map_cons, List.map_nil, List.mem_cons, List.not_mem_nil, or_false] at hx
    rcases hx with rfl | rfl | rfl
    · exact ⟨by decide, by decide, first _ (by simp [Face.drawings])⟩
    · exact ⟨by decide, by decide, draws ⟨Type2.oddities, .ended (some .nan)⟩ (by simp [Face.drawings])⟩
    · exact ⟨by decide, by decide, draws ⟨Type2.oddities, .failed⟩ (by simp [Face.drawings])⟩
  · decide

/-- The font set of `sampleCollection` meets the hypotheses of `C104_made`. -/
example : ∃ (bytes : List UInt8) (fs : FontSet) (q : Nat) (cs : Index) (s : CharacterSet) (r : CIDRecord) (registry ordering : String),
    bytes.length < 2 ^ 61 ∧ FontSet.read (tape checkedBuild bytes) 0 = (.ok fs, q) ∧ fs.names.data[0]? = some [67] ∧
    fs.characterStrings[0]? = some cs ∧ fs.characterSets[0]? = some s ∧ fs.records[0]? = some (.characterIDKeyed r) ∧
    cs.data.length = 3 ∧ fs.strings.getString r.registry = some registry ∧ fs.strings.getString r.ordering = some ordering ∧
    (∀ g < cs.data.length, ∃ id : UInt16, (sids s)[g]? = some id.toNat) ∧
    (∀ g < cs.data.length, ∃ d, ∀ n, Selects r.encoding g n ↔ n = d) ∧
    ∀ g < cs.data.length, ∃ l out, ∀ cfg', Comes cfg' fs 0 g l out := by
  obtain ⟨bytes, h1, h2⟩ := C104_make sampleCollection_fits
  obtain ⟨fs, q, h3, -, h4⟩ := h2 checkedBuild [] [] (by simp; omega) (by decide)
  rw [List.nil_append, List.append_nil] at h3
  obtain ⟨a1, -, ⟨cs, a4, a5⟩, a6, ⟨s, a7, a8, a9⟩, -, r, a3, e1, e2, -, -, -, e3⟩ := h4 0 _ rfl
  refine ⟨bytes, fs, q, cs, s, r, _, _, by omega, h3, a1, a4, a7, a3, a5, (e1 (Utf8.lossy [82])).mpr (C19_utf8_lossy _).1,
    (e2 (Utf8.lossy [79])).mpr (C19_utf8_lossy _).1, ?_, ?_, ?_⟩
  · intro g hg
    rw [a5] at hg
    match g, hg with
    | 0, _ => exact ⟨0, a8⟩
    | 1, _ => exact ⟨7, a9 0 _ rfl⟩
    | 2, _ => exact ⟨300, a9 1 _ rfl⟩
  · intro g hg
    exact ⟨_, e3 g _ (List.getElem?_eq_getElem (a5 ▸ hg))⟩
  · intro g hg
    exact ⟨_, _, fun cfg' => a6 cfg' g _ (List.getElem?_eq_getElem (a5 ▸ hg))⟩

end PS
