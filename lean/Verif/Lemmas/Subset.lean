import Verif.Lemmas.Edit
import Verif.Props.GlyphName
import Verif.Props.Select
import Verif.Spec.Subset
/-!
# Keeping some glyphs of a font
-/
namespace PS
open Spec

theorem pick_length {α : Type} {ks : List Nat} {l : List α} (h : ∀ k ∈ ks, k < l.length) : (pick ks l).length = ks.length := by
  unfold pick
  induction ks with
  | nil => rfl
  | cons k ks ih =>
    have hk := h k (by simp)
    rw [List.filterMap_cons_some (List.getElem?_eq_getElem hk), List.length_cons, List.length_cons,
      ih fun k hk => h k (List.mem_cons_of_mem _ hk)]

theorem pick_getElem? {α : Type} {ks : List Nat} {l : List α} (h : ∀ k ∈ ks, k < l.length) (j : Nat) :
    (pick ks l)[j]? = ks[j]?.bind (l[·]?) := by
  unfold pick
  induction ks generalizing j with
  | nil => rfl
  | cons k ks ih =>
    have hk := h k (by simp)
    rw [List.filterMap_cons_some (List.getElem?_eq_getElem hk)]
    cases j with
    | zero => simp [List.getElem?_eq_getElem hk]
    | succ j => simpa using ih (fun k hk => h k (List.mem_cons_of_mem _ hk)) j

theorem pick_filter {α : Type} (ks : List Nat) (l : List α) : pick ks l = pick (ks.filter (· < l.length)) l := by
  unfold pick
  induction ks with
  | nil => rfl
  | cons k ks ih =>
    by_cases hk : k < l.length
    · rw [List.filter_cons_of_pos (by simpa using hk), List.filterMap_cons_some (List.getElem?_eq_getElem hk),
        List.filterMap_cons_some (List.getElem?_eq_getElem hk), ih]
    · rw [List.filter_cons_of_neg (by simpa using hk), List.filterMap_cons_none (by simpa using hk), ih]

theorem pick_subperm' {α : Type} {ks : List Nat} (l : List α) (h : ks.Nodup) : List.Subperm (pick ks l) l := by
  rw [pick_filter]
  exact pick_subperm (h.filter _) fun k hk => by simpa using (List.mem_filter.mp hk).2

theorem pick_length_le {α : Type} (ks : List Nat) (l : List α) : (pick ks l).length ≤ ks.length :=
  List.length_filterMap_le _ _

/-! ## Parts of a font -/

/-- The codes of the glyphs that are kept. -/
def keptCodes (gs : List Nat) (e : Encoding) : List Nat := pick (gs.tail.map (· - 1)) (codesOf e)

/-- The encoding of the glyphs that are kept. -/
def keepEncoding (gs : List Nat) : Encoding → Encoding
  | .format0 f n codes =>
    .format0 0 (UInt8.ofNat (keptCodes gs (.format0 f n codes)).length) ((keptCodes gs (.format0 f n codes)).map UInt8.ofNat)
  | .format1 f n ranges =>
    .format0 0 (UInt8.ofNat (keptCodes gs (.format1 f n ranges)).length) ((keptCodes gs (.format1 f n ranges)).map UInt8.ofNat)
  | e => e

open Classical in
/-- The dictionary of a glyph. -/
noncomputable def dictionaryOf (e : DictEncoding) (g : Nat) : Nat := if h : ∃ d, Selects e g d then h.choose else 0

/-- The FDSelect of the glyphs that are kept. -/
noncomputable def keepSelect (gs : List Nat) (e : DictEncoding) : DictEncoding :=
  .format0 0 (gs.map fun g => UInt8.ofNat (dictionaryOf e g))

/-- The record of the glyphs that are kept. -/
noncomputable def keepKeying (gs : List Nat) : Keying → Keying
  | .names p => .names p
  | .identifiers r o s e ds => .identifiers r o s (keepSelect gs e) ds

/-- The character set of the glyphs that are kept. -/
def keepSet (gs : List Nat) (s : CharacterSet) : CharacterSet := .format0 0 ((pick gs (sids s)).tail.map UInt16.ofNat)

/-- The font with the glyphs that are kept. -/
noncomputable def Spec.FontDef.keep (gs : List Nat) (f : FontDef) : FontDef :=
  { f with codes := pick gs f.codes, set := keepSet gs f.set, encoding := keepEncoding gs f.encoding, keying := keepKeying gs f.keying }

/-- The font set with the glyphs of the font `k` that are kept. -/
noncomputable def Spec.FontSetDef.keep (k : Nat) (gs : List Nat) (d : FontSetDef) : FontSetDef :=
  { d with fonts := d.fonts.modify k (FontDef.keep gs) }

theorem sids_first {s : CharacterSet} {n : Nat} (h : (sids s)[0]? = some n) : n = 0 := by
  cases s with
  | isoAdobe => have : (sids .isoAdobe)[0]? = some 0 := by decide
                rw [this] at h; simpa using h.symm
  | expert => have : (sids .expert)[0]? = some 0 := by decide
              rw [this] at h; simpa using h.symm
  | expertSubset => have : (sids .expertSubset)[0]? = some 0 := by decide
                    rw [this] at h; simpa using h.symm
  | format0 => simpa [sids] using h.symm
  | format1 => simpa [sids] using h.symm
  | format2 => simpa [sids] using h.symm

theorem sids_keep {gs : List Nat} {s : CharacterSet} (h0 : gs[0]? = some 0)
    (h : ∀ g ∈ gs, ∃ sid, (sids s)[g]? = some sid ∧ sid < 65536) : sids (keepSet gs s) = pick gs (sids s) := by
  have hl : ∀ g ∈ gs, g < (sids s).length := fun g hg => by
    obtain ⟨sid, h1, -⟩ := h g hg
    exact (List.getElem?_eq_some_iff.mp h1).1
  have hp : ∀ x ∈ pick gs (sids s), x < 65536 := by
    intro x hx
    obtain ⟨g, hg, h1⟩ := List.mem_filterMap.mp hx
    obtain ⟨sid, h2, h3⟩ := h g hg
    rw [h2] at h1
    injection h1 with h1
    omega
  have hz : (pick gs (sids s))[0]? = some 0 := by
    rw [pick_getElem? hl, h0]
    obtain ⟨sid, h1, -⟩ := h 0 (List.mem_of_getElem? h0)
    rw [Option.bind_some, h1, sids_first h1]
  show 0 :: ((pick gs (sids s)).tail.map UInt16.ofNat).map UInt16.toNat = _
  cases hq : pick gs (sids s) with
  | nil => rw [hq] at hz; simp at hz
  | cons a l =>
    rw [hq] at hz hp
    simp only [List.getElem?_cons_zero, Option.some.injEq] at hz
    subst hz
    rw [List.tail_cons, List.map_map]
    congr 1
    conv => rhs; rw [← List.map_id l]
    refine List.map_congr_left fun x hx => ?_
    have := hp x (by simp [hx])
    simp [Nat.mod_eq_of_lt this]

theorem selects_lt {e : DictEncoding} {g d : Nat} (h : Selects e g d) : d < 256 := by
  cases e with
  | format0 f ids => obtain ⟨id, -, rfl⟩ := h; exact id.toNat_lt
  | format3 f n rs s => obtain ⟨_, r, _, -, -, -, -, rfl⟩ := h; exact r.dictionaryID.toNat_lt

theorem selects_keep {gs : List Nat} {e : DictEncoding} (h : ∀ g ∈ gs, ∃ d, Selects e g d ∧ ∀ d', Selects e g d' → d' = d)
    (j d : Nat) : Selects (keepSelect gs e) j d ↔ ∃ g, gs[j]? = some g ∧ Selects e g d := by
  unfold keepSelect
  simp only [Selects, List.getElem?_map, Option.map_eq_some_iff]
  have key : ∀ g ∈ gs, Selects e g (dictionaryOf e g) ∧ ∀ d', Selects e g d' → d' = dictionaryOf e g := by
    intro g hg
    obtain ⟨d, h1, h2⟩ := h g hg
    have h3 : ∃ d, Selects e g d := ⟨d, h1⟩
    have h4 : Selects e g (dictionaryOf e g) := by
      unfold dictionaryOf
      rw [dif_pos h3]
      exact h3.choose_spec
    exact ⟨h4, fun d' h' => (h2 d' h').trans (h2 _ h4).symm⟩
  have val : ∀ g ∈ gs, (UInt8.ofNat (dictionaryOf e g)).toNat = dictionaryOf e g := fun g hg => by
    have := selects_lt (key g hg).1
    simp [Nat.mod_eq_of_lt this]
  constructor
  · rintro ⟨id, ⟨g, hg, rfl⟩, rfl⟩
    have hm := List.mem_of_getElem? hg
    exact ⟨g, hg, by rw [val g hm]; exact (key g hm).1⟩
  · rintro ⟨g, hg, hd⟩
    have hm := List.mem_of_getElem? hg
    exact ⟨_, ⟨g, hg, rfl⟩, by rw [val g hm]; exact (key g hm).2 d hd⟩

/-- In an increasing list, the numbers below a bound come first. -/
theorem pick_prefix {α : Type} {ks : List Nat} (h : ks.Pairwise (· < ·)) (l : List α) (j : Nat) :
    (pick ks l)[j]? = ks[j]?.bind (l[·]?) := by
  unfold pick
  induction ks generalizing j with
  | nil => rfl
  | cons k ks ih =>
    obtain ⟨h1, h2⟩ := List.pairwise_cons.mp h
    by_cases hk : k < l.length
    · rw [List.filterMap_cons_some (List.getElem?_eq_getElem hk)]
      cases j with
      | zero => simp [List.getElem?_eq_getElem hk]
      | succ j => simpa using ih h2 j
    · have hnone : ∀ x ∈ k :: ks, l[x]? = none := by
        intro x hx
        rw [List.getElem?_eq_none_iff]
        rcases List.mem_cons.mp hx with rfl | hx
        · omega
        · have := h1 x hx; omega
      have : (k :: ks).filterMap (l[·]?) = [] := List.filterMap_eq_nil_iff.mpr hnone
      rw [this]
      cases hj : (k :: ks)[j]? with
      | none => rfl
      | some x => simp [hnone x (List.mem_of_getElem? hj)]

theorem leads_keep {gs : List Nat} {s s' : CharacterSet} {e : Encoding} (h0 : gs[0]? = some 0) (hp : gs.Pairwise (· < ·))
    (hs : ∀ j : Nat, (sids s')[j]? = gs[j]?.bind ((sids s)[·]?)) (hc : ∀ c ∈ codesOf e, c < 256) (code j : Nat) :
    Leads s' (keepEncoding gs e) code j ↔ ∃ g, gs[j]? = some g ∧ Leads s e code g := by
  have look : ∀ x : Nat, (sids s')[j]? = some x ↔ ∃ g, gs[j]? = some g ∧ (sids s)[g]? = some x := by
    intro x
    rw [hs, Option.bind_eq_some_iff]
  obtain ⟨gs', rfl⟩ : ∃ gs', gs = 0 :: gs' := by
    cases gs with
    | nil => simp at h0
    | cons a l => simp only [List.getElem?_cons_zero, Option.some.injEq] at h0; exact ⟨l, by rw [h0]⟩
  obtain ⟨hp1, hp2⟩ := List.pairwise_cons.mp hp
  have custom : ∀ e : Encoding, (∀ c ∈ codesOf e, c < 256) → ∀ s'' : Encoding, codesOf s'' = (keptCodes (0 :: gs') e).map (fun c => (UInt8.ofNat c).toNat) →
      ((code < 256 ∧ 1 ≤ j ∧ (codesOf s'')[j - 1]? = some code) ↔
        ∃ g, (0 :: gs')[j]? = some g ∧ code < 256 ∧ 1 ≤ g ∧ (codesOf e)[g - 1]? = some code) := by
    intro e hc s'' he
    have e1 : (keptCodes (0 :: gs') e).map (fun c => (UInt8.ofNat c).toNat) = keptCodes (0 :: gs') e := by
      conv => rhs; rw [← List.map_id (keptCodes (0 :: gs') e)]
      refine List.map_congr_left fun x hx => ?_
      have := hc x (mem_pick hx)
      simp [Nat.mod_eq_of_lt this]
    rw [he, e1]
    have hq : (gs'.map (· - 1)).Pairwise (· < ·) := by
      rw [List.pairwise_map]
      refine hp2.imp_of_mem fun {a b} ha hb hab => ?_
      have := hp1 a ha
      omega
    unfold keptCodes
    rw [List.tail_cons]
    cases j with
    | zero => simp
    | succ j =>
      rw [Nat.add_sub_cancel, pick_prefix hq, List.getElem?_cons_succ, List.getElem?_map]
      cases hj : gs'[j]? with
      | none => simp
      | some g =>
        have := hp1 g (List.mem_of_getElem? hj)
        simp only [Option.map_some, Option.bind_some, Option.some.injEq, exists_eq_left']
        constructor
        · rintro ⟨a, -, b⟩; exact ⟨a, this, b⟩
        · rintro ⟨a, -, b⟩; exact ⟨a, by omega, b⟩
  cases e with
  | standard =>
    simp only [keepEncoding, Leads, look]
    constructor
    · rintro ⟨a, b, g, c, d⟩; exact ⟨g, c, a, b, d⟩
    · rintro ⟨g, c, a, b, d⟩; exact ⟨a, b, g, c, d⟩
  | expert =>
    simp only [keepEncoding, Leads, look]
    constructor
    · rintro ⟨a, b, g, c, d⟩; exact ⟨g, c, a, b, d⟩
    · rintro ⟨g, c, a, b, d⟩; exact ⟨a, b, g, c, d⟩
  | supplemental f n sups =>
    simp only [keepEncoding, Leads, look]
    constructor
    · rintro ⟨x, hx, a, g, c, d⟩; exact ⟨g, c, x, hx, a, d⟩
    · rintro ⟨g, c, x, hx, a, d⟩; exact ⟨x, hx, a, g, c, d⟩
  | format0 f n codes =>
    have := custom (.format0 f n codes) hc (keepEncoding (0 :: gs') (.format0 f n codes)) (by simp [keepEncoding, codesOf])
    simpa only [keepEncoding, Leads] using this
  | format1 f n ranges =>
    have := custom (.format1 f n ranges) hc (keepEncoding (0 :: gs') (.format1 f n ranges)) (by simp [keepEncoding, codesOf])
    simpa only [keepEncoding, Leads] using this

/-! ## Sizes -/

theorem keep_dict (gs : List Nat) (f : FontDef) : ((f.keep gs).dict 0).length = (f.dict 0).length := by
  unfold FontDef.dict FontDef.ops
  rw [List.length_append, List.length_append, encodeOps_length, encodeOps_length]
  have : (f.keep gs).keying = keepKeying gs f.keying ∧ (f.keep gs).entries = f.entries := ⟨rfl, rfl⟩
  rw [this.1, this.2]
  cases f.keying <;> simp [Keying.ops, keepKeying, long_length]

theorem keepSet_length (gs : List Nat) (s : CharacterSet) : (encodeCharacterSet (keepSet gs s)).length ≤ 2 * gs.length + 1 := by
  have h := pick_length_le gs (sids s)
  have e : ∀ l : List UInt16, (l.flatMap fun g => be 2 g.toNat).length = 2 * l.length := by
    intro l
    induction l with
    | nil => rfl
    | cons x l ih => simp only [List.flatMap_cons, List.length_append, ih, be_length, List.length_cons]; omega
  simp only [keepSet, encodeCharacterSet, List.length_cons, e, List.length_map, List.length_tail]
  omega

theorem keptCodes_length_le (gs : List Nat) (e : Encoding) : (keptCodes gs e).length ≤ gs.length := by
  have := pick_length_le (gs.tail.map (· - 1)) (codesOf e)
  simp only [List.length_map, List.length_tail] at this
  unfold keptCodes
  omega

theorem keepEncoding_length (gs : List Nat) (e : Encoding) :
    (encodeEncoding (keepEncoding gs e)).length ≤ (encodeEncoding e).length + gs.length := by
  have := keptCodes_length_le gs e
  cases e <;> simp [keepEncoding, encodeEncoding] at this ⊢ <;> omega

theorem keepKeying_length (gs : List Nat) (k : Keying) (o o' : Nat) :
    ((keepKeying gs k).blob o).length ≤ (k.blob o').length + gs.length := by
  cases k with
  | names p => simp [keepKeying, Keying.blob]
  | identifiers r ord s e ds =>
    have : 1 ≤ (encodeSelect e).length := by cases e <;> simp [encodeSelect]
    simp only [keepKeying, Keying.blob, List.length_append]
    have a1 := array_length ds (o + (encodeSelect (keepSelect gs e)).length + (Keying.array ds 0).length) 0
    have a2 := array_length ds (o' + (encodeSelect e).length + (Keying.array ds 0).length) 0
    have a3 : (encodeSelect (keepSelect gs e)).length = gs.length + 1 := by simp [keepSelect, encodeSelect]
    omega

theorem keep_blob {gs : List Nat} (h : gs.Nodup) (f : FontDef) :
    ((f.keep gs).blob 0).length ≤ (f.blob 0).length + (4 * gs.length + 1) := by
  unfold FontDef.blob
  have e : (f.keep gs).keying = keepKeying gs f.keying ∧ (f.keep gs).set = keepSet gs f.set ∧
    (f.keep gs).encoding = keepEncoding gs f.encoding ∧ (f.keep gs).codes = pick gs f.codes := ⟨rfl, rfl, rfl, rfl⟩
  simp only [List.length_append, e.1, e.2.1, e.2.2.1, e.2.2.2]
  have h1 := keepSet_length gs f.set
  have h2 := keepEncoding_length gs f.encoding
  have h3 := keepKeying_length gs f.keying ((f.keep gs).recordAt 0) (f.recordAt 0)
  have h4 : (encodeIndex 4 (pick gs f.codes)).length ≤ (encodeIndex 4 f.codes).length :=
    encodeIndex_mono (pick_subperm' _ h).length_le (subperm_sum (pick_subperm' _ h) _)
  omega

theorem keep_write {gs : List Nat} (h : gs.Nodup) (k : Nat) (d : FontSetDef) :
    (d.keep k gs).write.length ≤ d.write.length + (4 * gs.length + 1) := by
  rw [write_length, write_length]
  have q1 : (d.keep k gs).strings = d.strings ∧ (d.keep k gs).globals = d.globals ∧ (d.keep k gs).names = d.names ∧
    (d.keep k gs).fonts = d.fonts.modify k (FontDef.keep gs) := ⟨rfl, rfl, rfl, rfl⟩
  rw [q1.1, q1.2.1, q1.2.2.1, q1.2.2.2, List.length_modify, sum_modify_eq fun f => keep_dict gs f]
  have := sum_modify_le (g := fun f => (f.blob 0).length) (F := FontDef.keep gs) (fun f => keep_blob h f) d.fonts k
  omega

theorem keep_valid {f : FontDef} (h : f.Valid) {gs : List Nat} (h0 : gs[0]? = some 0) (hp : gs.Pairwise (· < ·))
    (hb : ∀ g ∈ gs, g < f.codes.length) (hs : ∀ g ∈ gs, ∃ sid, (sids f.set)[g]? = some sid ∧ sid < 65536)
    (he : (codesOf f.encoding).length ≤ 255) : (f.keep gs).Valid := by
  obtain ⟨h1, h2, h3, h4, h5⟩ := h
  have hn : gs.Nodup := hp.imp fun h => Nat.ne_of_lt h
  have hsub := pick_subperm' f.codes hn
  have hlen : (pick gs f.codes).length = gs.length := pick_length hb
  refine ⟨h1, ⟨hsub.length_le.trans h2.1, by omega, by omega, ?_⟩, .inr ⟨rfl, ?_⟩, ?_, ?_⟩
  · have q1 := subperm_sum hsub List.length
    have q2 := h2.2.2.2
    rw [List.length_flatten] at q2 ⊢
    exact Nat.lt_of_le_of_lt (Nat.add_le_add_left q1 1) q2
  · show 1 + covered (keepSet gs f.set) = (pick gs f.codes).length
    have hl : ∀ g ∈ gs, g < (sids f.set).length := fun g hg => by
      obtain ⟨sid, h1, -⟩ := hs g hg
      exact (List.getElem?_eq_some_iff.mp h1).1
    have : 0 < gs.length := (List.getElem?_eq_some_iff.mp h0).1
    rw [hlen, keepSet, covered, List.length_map, List.length_tail, pick_length hl]
    omega
  · show (keepEncoding gs f.encoding = .standard ∨ keepEncoding gs f.encoding = .expert) ∨ Encodable (keepEncoding gs f.encoding)
    have hk : (keptCodes gs f.encoding).length < 256 := by
      have hsub : List.Subperm (keptCodes gs f.encoding) (codesOf f.encoding) := by
        refine pick_subperm' _ ?_
        refine List.Nodup.map_on ?_ hn.tail
        intro x hx y hy hxy
        have pos : ∀ z ∈ gs.tail, 0 < z := by
          intro z hz
          cases gs with
          | nil => simp at hz
          | cons a l =>
            have := (List.pairwise_cons.mp hp).1 z hz
            omega
        have := pos x hx
        have := pos y hy
        omega
      have := hsub.length_le
      omega
    cases hq : f.encoding with
    | standard => simp [keepEncoding]
    | expert => simp [keepEncoding]
    | supplemental a b c => rw [hq] at h4; simpa [keepEncoding] using h4
    | format0 a b c =>
      rw [hq] at hk
      refine .inr ⟨rfl, ?_⟩
      rw [List.length_map]
      simp [Nat.mod_eq_of_lt hk]
    | format1 a b c =>
      rw [hq] at hk
      refine .inr ⟨rfl, ?_⟩
      rw [List.length_map]
      simp [Nat.mod_eq_of_lt hk]
  · show (keepKeying gs f.keying).Valid (pick gs f.codes).length
    rw [hlen]
    cases hq : f.keying with
    | names p => rw [hq] at h5; exact h5
    | identifiers r o s e ds =>
      rw [hq] at h5
      obtain ⟨a, b, c, -, d⟩ := h5
      exact ⟨a, b, c, ⟨rfl, by simp⟩, d⟩

theorem forall₂_modify_iff {α β : Type} {R : α → β → Prop} {F : α → α} {k : Nat} {as : List α} {bs : List β} :
    List.Forall₂ R (as.modify k F) bs ↔ as.length = bs.length ∧
      ∀ (j : Nat) a b, as[j]? = some a → bs[j]? = some b → R (if j = k then F a else a) b := by
  rw [List.forall₂_iff_get]
  simp only [List.length_modify, List.get_eq_getElem]
  refine and_congr_right fun hl => ⟨fun h j a b ha hb => ?_, fun h j h1 h2 => ?_⟩
  · obtain ⟨ja, rfl⟩ := List.getElem?_eq_some_iff.mp ha
    obtain ⟨jb, rfl⟩ := List.getElem?_eq_some_iff.mp hb
    have := h j ja jb
    rw [List.getElem_modify] at this
    by_cases hk : k = j
    · simpa [hk] using this
    · rw [if_neg (Ne.symm hk)]; rwa [if_neg hk] at this
  · have := h j as[j] bs[j] (List.getElem?_eq_getElem h1) (List.getElem?_eq_getElem h2)
    rw [List.getElem_modify]
    by_cases hk : k = j
    · simpa [hk] using this
    · rw [if_neg (Ne.symm hk)] at this; rwa [if_neg hk]

end PS
