import Verif.Spec.Mixed
import Verif.Props.Collections
/-!
# Property C105: font sets with fonts of both kinds, made from scratch
-/
namespace PS
open PS.Spec

namespace Mixed

/-- A font, if the code of drawings is `F` and its strings are numbered from `n` on. -/
def font (F : Drawing → List UInt8) (n : Nat) : AnyFace → FontDef
  | .named f => Faces.font F n f
  | .keyed f => Collections.font F n f

/-- The fonts, one after another. -/
def fonts (F : Drawing → List UInt8) : Nat → List AnyFace → List FontDef
  | _, [] => []
  | n, f :: fs => font F n f :: fonts F (n + f.labels.length) fs

/-- The font set. -/
def fontSet (F : Drawing → List UInt8) (fs : List AnyFace) : FontSetDef where
  names := fs.map AnyFace.name
  strings := fs.flatMap AnyFace.labels
  globals := []
  fonts := fonts F 391 fs

theorem fonts_length (F : Drawing → List UInt8) (n : Nat) (fs : List AnyFace) : (fonts F n fs).length = fs.length := by
  induction fs generalizing n with
  | nil => rfl
  | cons f fs ih => simp [fonts, ih]

theorem fonts_get (F : Drawing → List UInt8) {fs : List AnyFace} {n k : Nat} {f : AnyFace} (h : fs[k]? = some f) :
    (fonts F n fs)[k]? = some (font F (n + ((fs.take k).map fun f => f.labels.length).sum) f) := by
  induction fs generalizing n k with
  | nil => simp at h
  | cons g fs ih =>
    cases k with
    | zero =>
      simp only [List.getElem?_cons_zero, Option.some.injEq] at h
      subst h
      simp [fonts]
    | succ k =>
      simp only [List.getElem?_cons_succ] at h
      simp only [fonts, List.getElem?_cons_succ, ih h, List.take_succ_cons, List.map_cons, List.sum_cons, Nat.add_assoc]

theorem strings_get {fs : List AnyFace} {k i : Nat} {f : AnyFace} {t : List UInt8} (h : fs[k]? = some f)
    (hi : f.labels[i]? = some t) :
    (fs.flatMap AnyFace.labels)[((fs.take k).map fun f => f.labels.length).sum + i]? = some t := by
  induction fs generalizing k with
  | nil => simp at h
  | cons g fs ih =>
    rw [List.flatMap_cons]
    cases k with
    | zero =>
      simp only [List.getElem?_cons_zero, Option.some.injEq] at h
      subst h
      simp only [List.take_zero, List.map_nil, List.sum_nil, Nat.zero_add]
      rw [List.getElem?_append_left (List.getElem?_eq_some_iff.mp hi).1, hi]
    | succ k =>
      simp only [List.getElem?_cons_succ] at h
      simp only [List.take_succ_cons, List.map_cons, List.sum_cons]
      rw [List.getElem?_append_right (by omega), Nat.add_assoc, Nat.add_sub_cancel_left]
      exact ih h

theorem range_before {fs : List AnyFace} {k : Nat} {f : AnyFace} (h : fs[k]? = some f) :
    ((fs.take k).map fun f => f.labels.length).sum + f.labels.length ≤ (fs.map fun f => f.labels.length).sum := by
  induction fs generalizing k with
  | nil => simp at h
  | cons g fs ih =>
    cases k with
    | zero =>
      simp only [List.getElem?_cons_zero, Option.some.injEq] at h
      subst h
      simp
    | succ k =>
      simp only [List.getElem?_cons_succ] at h
      have := ih h
      simp only [List.take_succ_cons, List.map_cons, List.sum_cons]
      omega

theorem strings_length (fs : List AnyFace) : (fs.flatMap AnyFace.labels).length = (fs.map fun f => f.labels.length).sum := by
  rw [List.length_flatMap]

theorem item_size {F : Drawing → List UInt8} {f : AnyFace} (hF : ∀ d ∈ f.drawings, (F d).length ≤ d.bulk) (n : Nat) :
    f.name.length + 8 + ((font F n f).dict 0).length + f.labels.flatten.length + 4 * f.labels.length + ((font F n f).blob 0).length ≤
      f.bulk := by
  cases f with
  | named f => exact Faces.item_size hF n
  | keyed f => exact Collections.item_size (fun x hx => hF _ (List.mem_map_of_mem hx)) n

theorem font_valid {F : Drawing → List UInt8} {f : AnyFace} (hF : ∀ d ∈ f.drawings, (F d).length ≤ d.bulk) (hv : f.Valid)
    (hb : f.bulk < 2 ^ 31) {m : Nat} (hm : m + f.labels.length ≤ 65536) : (font F m f).Valid := by
  cases f with
  | named f => exact Faces.font_valid hF hv hb hm
  | keyed f => exact Collections.font_valid (fun x hx => hF _ (List.mem_map_of_mem hx)) hv hb hm

theorem size_fonts {F : Drawing → List UInt8} {fs : List AnyFace} (hF : ∀ f ∈ fs, ∀ d ∈ f.drawings, (F d).length ≤ d.bulk) (n : Nat) :
    (fs.map AnyFace.name).flatten.length + 4 * fs.length +
    (4 * fs.length + ((fonts F n fs).map fun f => (f.dict 0).length).sum) +
    ((fs.flatMap AnyFace.labels).flatten.length + 4 * (fs.map fun f => f.labels.length).sum) +
    ((fonts F n fs).map fun f => (f.blob 0).length).sum ≤ (fs.map AnyFace.bulk).sum := by
  induction fs generalizing n with
  | nil => simp [fonts]
  | cons f fs ih =>
    have h1 := item_size (hF f (by simp)) n
    have h3 := ih (fun f hf => hF f (by simp [hf])) (n + f.labels.length)
    simp only [fonts, List.map_cons, List.flatten_cons, List.length_append, List.length_cons, List.sum_cons, List.flatMap_cons,
      List.flatten_append]
    omega

theorem fonts_mem (F : Drawing → List UInt8) {fs : List AnyFace} {n : Nat} {g : FontDef} (h : g ∈ fonts F n fs) :
    ∃ f ∈ fs, ∃ m, m + f.labels.length ≤ n + (fs.map fun f => f.labels.length).sum ∧ g = font F m f := by
  induction fs generalizing n with
  | nil => simp [fonts] at h
  | cons f fs ih =>
    simp only [fonts, List.mem_cons] at h
    rcases h with rfl | h
    · exact ⟨f, by simp, n, by simp, rfl⟩
    · obtain ⟨f', h1, m, h2, h3⟩ := ih h
      exact ⟨f', by simp [h1], m, by simp only [List.map_cons, List.sum_cons]; omega, h3⟩

theorem fontSet_valid {F : Drawing → List UInt8} {fs : List AnyFace} (hF : ∀ f ∈ fs, ∀ d ∈ f.drawings, (F d).length ≤ d.bulk)
    (h : MixedFit fs) : (fontSet F fs).Valid := by
  obtain ⟨h1, h2, h3, h4⟩ := h
  have hs := size_fonts hF 391
  have hw : (fontSet F fs).write.length < 2 ^ 31 := by
    have i1 := Recoding.index_bulk (fs.map AnyFace.name)
    have i2 := Recoding.index_bulk (fs.flatMap AnyFace.labels)
    have i3 : (encodeIndex 4 ([] : List (List UInt8))).length = 2 := rfl
    unfold indexBulk at i1 i2
    rw [strings_length] at i2
    rw [List.length_map] at i1
    rw [write_length]
    simp only [fontSet, fonts_length, i3]
    split <;> omega
  refine ⟨?_, ?_, ⟨by simp [fontSet], by omega, by omega, by simp [fontSet]⟩, ?_, ?_, hw⟩
  · refine Recoding.fits (by simpa [fontSet] using h1) ?_
    simp only [indexBulk, fontSet, List.length_map]
    omega
  · refine Recoding.fits ?_ ?_
    · simp only [fontSet, strings_length]
      omega
    · simp only [indexBulk, fontSet, strings_length]
      omega
  · simpa [fontSet, fonts_length] using h1
  · intro g hg
    obtain ⟨f, hf, m, hm, rfl⟩ := fonts_mem F hg
    have hb : f.bulk ≤ (fs.map AnyFace.bulk).sum := List.single_le_sum (by simp) _ (List.mem_map_of_mem hf)
    exact font_valid (hF f hf) (h2 f hf) (by omega) (by omega)

/-- The drawings of a font that can be made are in order and not larger than the font. -/
theorem drawn {f : AnyFace} (h : f.Valid) {d : Drawing} (hd : d ∈ f.drawings) : Drawable d.shows d.ends ∧ d.bulk ≤ f.bulk := by
  cases f with
  | named f =>
    refine ⟨h.2.2.1 d hd, ?_⟩
    have h2 : d.bulk + 4 ≤ (f.drawings.map fun d => d.bulk + 4).sum :=
      List.single_le_sum (by simp) _ (List.mem_map_of_mem (f := fun d : Drawing => d.bulk + 4) hd)
    simp only [AnyFace.bulk, Face.bulk]
    omega
  | keyed f =>
    obtain ⟨x, hx, rfl⟩ := List.mem_map.mp hd
    refine ⟨(h.2.2.2.2.1 x hx).2.2, ?_⟩
    have h2 : x.2.bulk + 7 ≤ (f.slots.map fun x => x.2.bulk + 7).sum :=
      List.single_le_sum (by simp) _ (List.mem_map_of_mem (f := fun x : Nat × Drawing => x.2.bulk + 7) hx)
    simp only [AnyFace.bulk, CidFace.bulk]
    omega

theorem all_in {F : Drawing → List UInt8} {fonts : List AnyFace} {fs : FontSet} (h : (fontSet F fonts).In fs) (hfit : MixedFit fonts)
    (hF : ∀ f ∈ fonts, ∀ d ∈ f.drawings, ∀ cfg, Type2.Spec.Run cfg (Type2.Program.new (F d) [] []) d.shows d.ends)
    {k : Nat} {f : AnyFace} (hk : fonts[k]? = some f) : f.In k fs := by
  have hmem := List.mem_of_getElem? hk
  have hr := range_before hk
  have hfit3 := hfit.2.2.1
  have hv := hfit.2.1 f hmem
  have hn : (fontSet F fonts).names[k]? = some f.name := by simp [fontSet, hk]
  have hg := fonts_get F (n := 391) hk
  have hs : ∀ i t, f.labels[i]? = some t → (fontSet F fonts).strings[_ + i]? = some t := fun i t => strings_get hk
  have hd := hF f hmem
  have hl : _ + f.labels.length ≤ 65145 := Nat.le_trans hr hfit3
  cases f with
  | named f => exact Faces.face_in_set h rfl hv hn hg hs hl hd
  | keyed f => exact Collections.collection_in_set h rfl hv hn hg hs hl fun x hx => hd _ (List.mem_map_of_mem hx)

theorem comes_same {cfg : Config} {fs : FontSet} {k i : Nat} {d e : Drawing} (h : Comes cfg fs k i d.shows d.ends)
    (h' : Comes cfg fs k i e.shows e.ends) : d = e := by
  obtain ⟨h1, h2⟩ := (h' _ _).mp ((h d.shows d.ends).mpr ⟨rfl, rfl⟩)
  cases d
  cases e
  simp_all

theorem named_same {fs : FontSet} {i j : UInt16} {a b : List UInt8} (h : NamedBy fs i a) (h' : NamedBy fs j b) (e : i.toNat = j.toNat) :
    SameText a b := by
  obtain rfl := UInt16.toNat_inj.mp e
  exact fun text => (h text).symm.trans (h' text)

theorem entries_same {a b : Entries} {l l' l'' : List Operator} {o : Operations} (h : a.In l o) (h' : b.In l' o) (h1 : l ⊆ l'')
    (h2 : l' ⊆ l'') : SameEntries a b l'' := fun op hop operands =>
  (h op (fun hh => hop (h1 hh)) operands).symm.trans (h' op (fun hh => hop (h2 hh)) operands)

theorem texts_same {fs : FontSet} {top : Operations} {a b : List (Operator × List UInt8)}
    (h : ∀ x ∈ a, ∃ id : UInt16, top.map x.1 = some [.integer id.toNat] ∧ NamedBy fs id x.2)
    (h' : ∀ x ∈ b, ∃ id : UInt16, top.map x.1 = some [.integer id.toNat] ∧ NamedBy fs id x.2) : SameTexts a b := by
  intro x hx y hy e
  obtain ⟨i, i1, i2⟩ := h x hx
  obtain ⟨j, j1, j2⟩ := h' y hy
  rw [e, j1] at i1
  simp only [Option.some.injEq, List.cons.injEq, and_true, Number.integer.injEq] at i1
  exact named_same i2 j2 (by omega)

theorem faces_same {f g : Face} {k : Nat} {fs : FontSet} (h : FaceIn f k fs) (h' : FaceIn g k fs) : Alike (.named f) (.named g) := by
  obtain ⟨a1, ⟨top, a2, a3, a4⟩, ⟨r, a5, a6⟩, ⟨cs, a7, a8⟩, a9, a10, s, a11, -, a12⟩ := h
  obtain ⟨b1, ⟨top', b2, b3, b4⟩, ⟨r', b5, b6⟩, ⟨cs', b7, b8⟩, b9, b10, s', b11, -, b12⟩ := h'
  obtain rfl : top' = top := by simpa [b2] using a2
  obtain rfl : r' = r := by simpa [b5] using a5
  obtain rfl : cs' = cs := by simpa [b7] using a7
  obtain rfl : s' = s := by simpa [b11] using a11
  have hlen : f.drawings.length = g.drawings.length := a8.symm.trans b8
  have hlen' : f.glyphs.length = g.glyphs.length := by simpa [Face.drawings] using hlen
  refine .named (by simpa [b1] using a1.symm) (entries_same a3 b3 ?_ ?_) (texts_same a4 b4) (entries_same a6 b6 (fun _ h => h) fun _ h => h)
    (by simpa [b10] using a10.symm) ?_ ?_
  · exact fun _ h => List.mem_append_left _ h
  · intro _ h
    rcases List.mem_append.mp h with h | h
    · exact List.mem_append_left _ (List.mem_append_left _ h)
    · exact List.mem_append_right _ h
  · refine List.ext_getElem hlen fun i h1 h2 => ?_
    exact comes_same (a9 checkedBuild i _ (List.getElem?_eq_getElem h1)) (b9 checkedBuild i _ (List.getElem?_eq_getElem h2))
  · refine List.forall₂_iff_get.mpr ⟨by simpa using hlen', fun i h1 h2 => ?_⟩
    rw [List.length_map] at h1 h2
    obtain ⟨x, x1, x2⟩ := a12 i _ _ (List.getElem?_eq_getElem h1)
    obtain ⟨y, y1, y2⟩ := b12 i _ _ (List.getElem?_eq_getElem h2)
    simpa using named_same x2 y2 (by simpa [y1] using x1.symm)

theorem keyed_same {f g : CidFace} {k : Nat} {fs : FontSet} (h : CollectionIn f k fs) (h' : CollectionIn g k fs) :
    Alike (.keyed f) (.keyed g) := by
  obtain ⟨a1, ⟨top, a2, a3, a4⟩, ⟨cs, a7, a8⟩, a9, ⟨s, a11, -, a12⟩, a10, r, a13, a14, a15, a16, a17, a18, a19⟩ := h
  obtain ⟨b1, ⟨top', b2, b3, b4⟩, ⟨cs', b7, b8⟩, b9, ⟨s', b11, -, b12⟩, b10, r', b13, b14, b15, b16, b17, b18, b19⟩ := h'
  obtain rfl : top' = top := by simpa [b2] using a2
  obtain rfl : r' = r := by simpa [b13] using a13
  obtain rfl : cs' = cs := by simpa [b7] using a7
  obtain rfl : s' = s := by simpa [b11] using a11
  have hlen : f.slots.length = g.slots.length := a8.symm.trans b8
  have hlen' : f.glyphs.length = g.glyphs.length := by simpa [CidFace.slots] using hlen
  have hslots : f.slots = g.slots := by
    refine List.ext_getElem hlen fun i h1 h2 => Prod.ext ?_ ?_
    · exact (b19 i _ (List.getElem?_eq_getElem h2) _).mp ((a19 i _ (List.getElem?_eq_getElem h1) _).mpr rfl)
    · exact comes_same (a9 checkedBuild i _ (List.getElem?_eq_getElem h1)) (b9 checkedBuild i _ (List.getElem?_eq_getElem h2))
  unfold CidFace.slots at hslots
  obtain ⟨hm, hg⟩ := List.cons.inj hslots
  refine .keyed (by simpa [b1] using a1.symm) (entries_same a3 b3 ?_ ?_) (texts_same a4 b4) (named_same a14 b14 rfl) (named_same a15 b15 rfl)
    (by rw [← a16, b16]) ?_ (by simpa [b10] using a10.symm) hm ?_
  · exact fun _ h => List.mem_append_left _ h
  · intro _ h
    rcases List.mem_append.mp h with h | h
    · exact List.mem_append_left _ (List.mem_append_left _ h)
    · exact List.mem_append_right _ h
  · have hd : f.dicts.length = g.dicts.length := a17.length_eq.trans b17.length_eq.symm
    refine List.forall₂_iff_get.mpr ⟨hd, fun i h1 h2 => ?_⟩
    have l1 : i < r'.operations.length := a17.length_eq ▸ h1
    have l2 : i < r'.records.length := a18.length_eq ▸ h1
    exact ⟨entries_same (a17.get h1 l1) (b17.get h2 l1) (fun _ h => h) fun _ h => h,
      entries_same (a18.get h1 l2) (b18.get h2 l2) (fun _ h => h) fun _ h => h⟩
  · refine List.ext_getElem hlen' fun i h1 h2 => Prod.ext ?_ ?_
    · have e1 := a12 i _ (List.getElem?_eq_getElem h1)
      have e2 := b12 i _ (List.getElem?_eq_getElem h2)
      rw [e2] at e1
      exact (Option.some.inj e1).symm
    · have e1 : (f.glyphs.map Prod.snd)[i]? = (g.glyphs.map Prod.snd)[i]? := by rw [hg]
      simpa [h1, h2] using e1

end Mixed

/-- **C105.**  Font sets can be made from scratch, with fonts keyed by names and fonts keyed by character identifiers
in any order: there is a file of which reading gives just these fonts, in any build. -/
theorem C105_make {fonts : List AnyFace} (h : MixedFit fonts) :
    ∃ bytes : List UInt8, bytes.length < 2 ^ 31 ∧
      ∀ (cfg : Config) (pre post : List UInt8), (pre ++ bytes ++ post).length < 2 ^ 61 → pre.length + 2 ^ 31 ≤ cfg.maxSeek →
        ∃ fs q, FontSet.read (tape cfg (pre ++ bytes ++ post)) pre.length = (.ok fs, q) ∧
          fs.records.length = fonts.length ∧ ∀ (k : Nat) f, fonts[k]? = some f → f.In k fs := by
  obtain ⟨F, hF⟩ := Faces.codes (ds := fun d => ∃ f ∈ fonts, d ∈ f.drawings) (by
    rintro d ⟨f, hf, hd⟩
    obtain ⟨h1, h2⟩ := Mixed.drawn (h.2.1 f hf) hd
    have h3 : f.bulk ≤ (fonts.map AnyFace.bulk).sum := List.single_le_sum (by simp) _ (List.mem_map_of_mem hf)
    have h4 := h.2.2.2
    exact ⟨h1, by omega⟩)
  have hv := Mixed.fontSet_valid (F := F) (fun f hf d hd => (hF d ⟨f, hf, hd⟩).1) h
  refine ⟨(Mixed.fontSet F fonts).write, hv.2.2.2.2.2, fun cfg pre post h1 h2 => ?_⟩
  obtain ⟨fs, q, h3, h4⟩ := C60_round_trip hv cfg pre post h1 h2
  refine ⟨fs, q, h3, ?_, fun k f hk => Mixed.all_in h4 h (fun f hf d hd => (hF d ⟨f, hf, hd⟩).2) hk⟩
  rw [← h4.2.2.2.2.2.2.2.length_eq]
  exact Mixed.fonts_length _ _ _

/-- **C105.**  And every font set that was read is a list of fonts that can be made, if each of its fonts has all that a font
needs. -/
theorem C105_made (cfg : Config) (data : List UInt8) (hdata : data.length < 2 ^ 61) (base q : Nat) (fs : FontSet)
    (h : FontSet.read (tape cfg data) base = (.ok fs, q)) (hw : ∀ k < fs.records.length, Whole fs k) :
    ∃ fonts : List AnyFace, fonts.length = fs.records.length ∧ (∀ f ∈ fonts, f.Valid) ∧ ∀ (k : Nat) f, fonts[k]? = some f → f.In k fs := by
  have h1 : ∀ k, ∃ f : AnyFace, k < fs.records.length → f.Valid ∧ f.In k fs := by
    intro k
    by_cases hk : k < fs.records.length
    · obtain ⟨name, cs, s, r, e1, e2, e3, e4, e5, e6, e7⟩ := hw k hk
      cases r with
      | characterNameKeyed r =>
        obtain ⟨f, f1, f2⟩ := C103_made cfg data hdata base q fs h k e1 e2 e3 e4 e5 e7 e6
        exact ⟨.named f, fun _ => ⟨f1, f2⟩⟩
      | characterIDKeyed r =>
        obtain ⟨⟨registry, e8⟩, ⟨ordering, e9⟩, e10, e11⟩ := e7
        obtain ⟨f, f1, f2⟩ := C104_made cfg data hdata base q fs h k e1 e2 e3 e4 e5 e8 e9 e10 e11 e6
        exact ⟨.keyed f, fun _ => ⟨f1, f2⟩⟩
    · exact ⟨.named ⟨[], ⟨[], []⟩, ⟨[], []⟩, ⟨[], .failed⟩, [], .standard, []⟩, fun h => absurd h hk⟩
  choose A hA using h1
  refine ⟨(List.range fs.records.length).map A, by simp, ?_, ?_⟩
  · intro f hf
    obtain ⟨k, hk, rfl⟩ := List.mem_map.mp hf
    exact (hA k (List.mem_range.mp hk)).1
  · intro k f hk
    rw [List.getElem?_map, Option.map_eq_some_iff] at hk
    obtain ⟨i, hi, rfl⟩ := hk
    obtain ⟨h2, h3⟩ := List.getElem?_eq_some_iff.mp hi
    rw [List.getElem_range] at h3
    subst h3
    exact (hA _ (by simpa using h2)).2

/-- **C105.**  Fonts that were made have all that a font needs. -/
theorem C105_whole {f : AnyFace} {k : Nat} {fs : FontSet} (hv : f.Valid) (h : f.In k fs) : Whole fs k := by
  cases f with
  | named f =>
    obtain ⟨a1, -, ⟨r, a3, -⟩, ⟨cs, a4, a5⟩, a6, -, s, a7, a8, a9⟩ := h
    refine ⟨_, cs, s, _, a1, a4, a7, a3, ?_, ?_, ?_⟩
    · intro e
      rw [e] at a5
      simp [Face.drawings] at a5
    · intro g hg
      exact ⟨_, _, fun cfg => a6 cfg g _ (List.getElem?_eq_getElem (a5 ▸ hg))⟩
    · intro g hg
      cases g with
      | zero => exact ⟨0, ".notdef", a8, rfl⟩
      | succ g =>
        have hl : g < f.glyphs.length := by
          rw [a5] at hg
          simp [Face.drawings] at hg
          omega
        obtain ⟨id, b1, b2⟩ := a9 g _ _ (List.getElem?_eq_getElem hl)
        exact ⟨id, _, b1, (b2 (Utf8.lossy _)).mpr (C19_utf8_lossy _).1⟩
  | keyed f =>
    obtain ⟨a1, -, ⟨cs, a4, a5⟩, a6, ⟨s, a7, a8, a9⟩, -, r, a3, e1, e2, -, -, -, e3⟩ := h
    refine ⟨_, cs, s, _, a1, a4, a7, a3, ?_, ?_, ⟨_, (e1 (Utf8.lossy _)).mpr (C19_utf8_lossy _).1⟩,
      ⟨_, (e2 (Utf8.lossy _)).mpr (C19_utf8_lossy _).1⟩, ?_, ?_⟩
    · intro e
      rw [e] at a5
      simp [CidFace.slots] at a5
    · intro g hg
      exact ⟨_, _, fun cfg => a6 cfg g _ (List.getElem?_eq_getElem (a5 ▸ hg))⟩
    · intro g hg
      cases g with
      | zero => exact ⟨0, a8⟩
      | succ g =>
        have hl : g < f.glyphs.length := by
          rw [a5] at hg
          simp [CidFace.slots] at hg
          omega
        have hid := hv.2.2.2.2.2.1 _ (List.getElem_mem hl)
        exact ⟨UInt16.ofNat f.glyphs[g].1, by rw [a9 g _ (List.getElem?_eq_getElem hl), UInt16.toNat_ofNat_of_lt' hid]⟩
    · intro g hg
      exact ⟨_, e3 g _ (List.getElem?_eq_getElem (a5 ▸ hg))⟩

/-- **C105.**  So the fonts that can be made are just the ones that have all that a font needs. -/
theorem C105_exact (cfg : Config) (data : List UInt8) (hdata : data.length < 2 ^ 61) (base q : Nat) (fs : FontSet)
    (h : FontSet.read (tape cfg data) base = (.ok fs, q)) :
    (∀ k < fs.records.length, Whole fs k) ↔
      ∃ fonts : List AnyFace, fonts.length = fs.records.length ∧ (∀ f ∈ fonts, f.Valid) ∧ ∀ (k : Nat) f, fonts[k]? = some f → f.In k fs := by
  refine ⟨C105_made cfg data hdata base q fs h, ?_⟩
  rintro ⟨fonts, h1, h2, h3⟩ k hk
  have hf := List.getElem?_eq_getElem (h1 ▸ hk)
  exact C105_whole (h2 _ (List.mem_of_getElem? hf)) (h3 k _ hf)

/-- **C105.**  A font set tells fonts apart: only the same fonts can be in the same place of the same font set. -/
theorem C105_apart {f g : AnyFace} {k : Nat} {fs : FontSet} (h : f.In k fs) (h' : g.In k fs) : Alike f g := by
  cases f with
  | named f =>
    cases g with
    | named g => exact Mixed.faces_same h h'
    | keyed g =>
      obtain ⟨-, -, ⟨r, e, -⟩, -⟩ := h
      obtain ⟨-, -, -, -, -, -, r', e', -⟩ := h'
      simp [e] at e'
  | keyed f =>
    cases g with
    | named g =>
      obtain ⟨-, -, ⟨r, e, -⟩, -⟩ := h'
      obtain ⟨-, -, -, -, -, -, r', e', -⟩ := h
      simp [e] at e'
    | keyed g => exact Mixed.keyed_same h h'

/-- Fonts of different kinds in one font set: one keyed by character identifiers, and two keyed by names. -/
def sampleMixed : List AnyFace := .keyed sampleCollection :: sampleFaces.map .named

/-- The hypothesis of `C105_make` is met. -/
theorem sampleMixed_fits : MixedFit sampleMixed := by
  refine ⟨by decide, ?_, by decide, by decide +kernel⟩
  intro f hf
  simp only [sampleMixed, List.mem_cons, List.mem_map] at hf
  rcases hf with rfl | ⟨f, hf, rfl⟩
  · exact sampleCollection_fits.1 _ (by simp)
  · exact sampleFaces_fit.2.1 _ hf

/-- The font set of `sampleMixed` meets the hypotheses of `C105_made`, and with `C105_make` its fonts meet those of `C105_whole`. -/
example : ∃ (bytes : List UInt8) (fs : FontSet) (q : Nat), bytes.length < 2 ^ 61 ∧
    FontSet.read (tape checkedBuild bytes) 0 = (.ok fs, q) ∧ fs.records.length = 3 ∧ ∀ k < fs.records.length, Whole fs k := by
  obtain ⟨bytes, h1, h2⟩ := C105_make sampleMixed_fits
  obtain ⟨fs, q, h3, h4, h5⟩ := h2 checkedBuild [] [] (by simp; omega) (by decide)
  rw [List.nil_append, List.append_nil] at h3
  refine ⟨bytes, fs, q, by omega, h3, h4, fun k hk => ?_⟩
  have hf := List.getElem?_eq_getElem (h4 ▸ hk)
  exact C105_whole (sampleMixed_fits.2.1 _ (List.mem_of_getElem? hf)) (h5 k _ hf)

/-- Two fonts that are not equal meet the hypotheses of `C105_apart`: the bytes of one of them are others, for the same operations. -/
example : ∃ (f g : AnyFace) (fs : FontSet), f ≠ g ∧ f.In 1 fs ∧ g.In 1 fs := by
  obtain ⟨bytes, h1, h2⟩ := C105_make sampleMixed_fits
  obtain ⟨fs, q, h3, h4, h5⟩ := h2 checkedBuild [] [] (by simp; omega) (by decide)
  have hf := h5 1 (.named sampleFaces[0]) rfl
  refine ⟨_, .named { sampleFaces[0] with top := ⟨[(.opFullName, [.integer 1])], [28, 0, 1, 2]⟩ }, fs, ?_, hf, hf⟩
  intro e
  injection e with e
  have := congrArg (fun f => f.top.bytes.length) e
  revert this
  decide

end PS
