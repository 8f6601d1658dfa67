import Verif.Lemmas.Recode
import Verif.Lemmas.Subset
import Verif.Spec.Merge
/-!
# Font sets with other string identifiers
-/
namespace PS.Merging
open Spec

/-! ## Dictionaries -/

/-- An operation with other string identifiers. -/
def moveOp (ρ : Nat → Option Nat) (x : Operator × List Number) : Operator × List Number :=
  (x.1, if x.1 ∈ textual then x.2.map (movedNumber ρ) else x.2)

theorem operand_pos {n : Number} {bs : List UInt8} (h : Operand n bs) : 1 ≤ bs.length := by
  cases n with
  | integer i =>
    have h : DictInt i bs := h
    cases h with
    | short h => cases h <;> simp
    | long => simp
  | real x =>
    obtain ⟨d, packed, -, -, rfl, -⟩ := h
    simp

theorem operand_moved {ρ : Nat → Option Nat} (hρ : ∀ i j, ρ i = some j → j < 65536) {n : Number} {bs : List UInt8} (h : Operand n bs) :
    ∃ bs', Operand (movedNumber ρ n) bs' ∧ bs'.length ≤ 5 * bs.length := by
  have hpos := operand_pos h
  cases n with
  | real x => exact ⟨bs, h, by omega⟩
  | integer i =>
    by_cases hi : 0 ≤ i
    · simp only [movedNumber, if_pos hi]
      cases hj : ρ i.toNat with
      | none =>
        refine ⟨bs, ?_, by omega⟩
        rw [Option.getD_none, Int.toNat_of_nonneg hi]
        exact h
      | some j =>
        have := hρ _ _ hj
        refine ⟨(long (j : Int)).2, DictInt.long _ (by simp only [Option.getD_some]; omega) (by simp only [Option.getD_some]; omega), ?_⟩
        rw [long_length]; omega
    · simp only [movedNumber, if_neg hi]
      exact ⟨bs, h, by omega⟩

theorem operands_moved {ρ : Nat → Option Nat} (hρ : ∀ i j, ρ i = some j → j < 65536) {xs : List Number} {bs : List UInt8}
    (h : Seq Operand xs bs) : ∃ bs', Seq Operand (xs.map (movedNumber ρ)) bs' ∧ bs'.length ≤ 5 * bs.length := by
  induction h with
  | nil => exact ⟨[], .nil, by simp⟩
  | cons h _ ih =>
    obtain ⟨b1, h1, l1⟩ := operand_moved hρ h
    obtain ⟨b2, h2, l2⟩ := ih
    exact ⟨b1 ++ b2, .cons h1 h2, by simp only [List.length_append]; omega⟩

theorem operation_moved {ρ : Nat → Option Nat} (hρ : ∀ i j, ρ i = some j → j < 65536) {x : Operator × List Number} {bs : List UInt8}
    (h : Spec.Operation x bs) : ∃ bs', Spec.Operation (moveOp ρ x) bs' ∧ bs'.length ≤ 5 * bs.length := by
  obtain ⟨operands, h1, rfl⟩ := h
  by_cases ht : x.1 ∈ textual
  · obtain ⟨b, h2, h3⟩ := operands_moved hρ h1
    refine ⟨b ++ opCode x.1, ⟨b, ?_, rfl⟩, by simp only [List.length_append]; omega⟩
    simp only [moveOp, if_pos ht]
    exact h2
  · refine ⟨operands ++ opCode x.1, ⟨operands, ?_, rfl⟩, by omega⟩
    simp only [moveOp, if_neg ht]
    exact h1

theorem dict_moved {ρ : Nat → Option Nat} (hρ : ∀ i j, ρ i = some j → j < 65536) {ops : List (Operator × List Number)}
    {bs : List UInt8} (h : Dict ops bs) : ∃ bs', Dict (ops.map (moveOp ρ)) bs' ∧ bs'.length ≤ 5 * bs.length := by
  induction h with
  | nil => exact ⟨[], .nil, by simp⟩
  | cons h _ ih =>
    obtain ⟨b1, h1, l1⟩ := operation_moved hρ h
    obtain ⟨b2, h2, l2⟩ := ih
    exact ⟨b1 ++ b2, .cons h1 h2, by simp only [List.length_append]; omega⟩

theorem entries_moved {ρ : Nat → Option Nat} (hρ : ∀ i j, ρ i = some j → j < 65536) {e : Entries} {reserved : List Operator}
    (h : e.Valid reserved) : ∃ e' : Entries, e'.Valid reserved ∧ e'.ops = e.ops.map (moveOp ρ) ∧
      e'.bytes.length ≤ 5 * e.bytes.length := by
  obtain ⟨bs, h1, h2⟩ := dict_moved hρ h.1
  refine ⟨⟨_, bs⟩, ⟨h1, ?_⟩, rfl, h2⟩
  intro x hx
  obtain ⟨y, hy, rfl⟩ := List.mem_map.mp hx
  exact h.2 y hy

theorem last_map {f : Operator → List Number → List Number} {ops : List (Operator × List Number)} {op : Operator} {ys : List Number} :
    Last (ops.map fun x => (x.1, f x.1 x.2)) op ys ↔ ∃ xs, Last ops op xs ∧ f op xs = ys := by
  constructor
  · rintro ⟨before, after, h1, h2⟩
    obtain ⟨b, r, rfl, rfl, h3⟩ := List.map_eq_append_iff.mp h1
    obtain ⟨x, a, rfl, h4, rfl⟩ := List.map_eq_cons_iff.mp h3
    obtain ⟨x1, x2⟩ := x
    injection h4 with h4 h5
    subst h4
    exact ⟨x2, ⟨b, a, rfl, fun y hy => h2 (y.1, f y.1 y.2) (List.mem_map.mpr ⟨y, hy, rfl⟩)⟩, h5⟩
  · rintro ⟨xs, ⟨b, a, rfl, h2⟩, rfl⟩
    refine ⟨b.map fun x => (x.1, f x.1 x.2), a.map fun x => (x.1, f x.1 x.2), by simp, ?_⟩
    intro y hy
    obtain ⟨z, hz, rfl⟩ := List.mem_map.mp hy
    exact h2 z hz

theorem dict_in {ρ : Nat → Option Nat} {e e' : Entries} (he : e'.ops = e.ops.map (moveOp ρ)) {reserved : List Operator}
    {o o' : Operations} (h : e.In reserved o) (h' : e'.In reserved o') : MovedDict ρ reserved o o' := by
  intro op hop
  apply Option.ext
  intro ys
  rw [h' op hop ys, he]
  rw [show e.ops.map (moveOp ρ) = e.ops.map fun x => (x.1, (fun op xs => if op ∈ textual then xs.map (movedNumber ρ) else xs) x.1 x.2) from rfl,
    last_map (f := fun op xs => if op ∈ textual then xs.map (movedNumber ρ) else xs), Option.map_eq_some_iff]
  constructor
  · rintro ⟨xs, h1, h2⟩; exact ⟨xs, (h op hop xs).mpr h1, h2⟩
  · rintro ⟨xs, h1, h2⟩; exact ⟨xs, (h op hop xs).mp h1, h2⟩

/-! ## Records -/

theorem place_dicts (start : Nat) (ds : List FontDictDef) :
    ((place (fun d : FontDictDef => d.priv.blob.length) start ds).map fun x => x.1.dict x.2).map List.length =
      ds.map fun d => (d.dict 0).length :=
  place_sizes (g := fun d : FontDictDef => (d.dict 0).length) _ (fun d o => fontDict_length d o 0) _ _

theorem dicts_moved {ρ : Nat → Option Nat} (hρ : ∀ i j, ρ i = some j → j < 65536) {ds : List FontDictDef}
    (h : ∀ d ∈ ds, d.entries.Valid [.opPrivate] ∧ d.priv.Valid) :
    ∃ ds' : List FontDictDef, List.Forall₂ (fun d d' => d'.priv = d.priv ∧ d'.entries.Valid [.opPrivate] ∧
      d'.entries.ops = d.entries.ops.map (moveOp ρ) ∧ (d'.dict 0).length ≤ 5 * (d.dict 0).length) ds ds' := by
  induction ds with
  | nil => exact ⟨[], .nil⟩
  | cons d ds ih =>
    obtain ⟨ds', h1⟩ := ih fun d hd => h d (List.mem_cons_of_mem _ hd)
    obtain ⟨e', h2, h3, h4⟩ := entries_moved hρ (h d List.mem_cons_self).1
    refine ⟨⟨e', d.priv⟩ :: ds', .cons ⟨rfl, h2, h3, ?_⟩ h1⟩
    simp only [FontDictDef.dict, List.length_append]
    omega

theorem forall₂_sum_le {α : Type} {R : α → α → Prop} {g : α → Nat} {c : Nat} (h : ∀ a b, R a b → g b ≤ c * g a) {as bs : List α}
    (h2 : List.Forall₂ R as bs) : (bs.map g).sum ≤ c * (as.map g).sum := by
  induction h2 with
  | nil => simp
  | cons h1 _ ih =>
    simp only [List.map_cons, List.sum_cons, Nat.mul_add]
    have := h _ _ h1
    omega

/-- A record with other string identifiers. -/
theorem keying_moved {ρ : Nat → Option Nat} (hρ : ∀ i j, ρ i = some j → j < 65536) {k : Keying} {n : Nat} (h : k.Valid n)
    (hu : ∀ a b c s ds, k = .identifiers a b c s ds → (ρ a).isSome ∧ (ρ b).isSome) :
    ∃ k' : Keying, k'.Valid n ∧ (k'.blob 0).length ≤ 5 * (k.blob 0).length ∧
      (encodeOps (k'.ops 0)).length = (encodeOps (k.ops 0)).length ∧
      ∀ r r', k.In r → k'.In r' → MovedRecord ρ r r' := by
  cases k with
  | names p =>
    refine ⟨.names p, h, by omega, rfl, fun r r' h1 h2 => ?_⟩
    have := same_record h1 h2
    cases r <;> cases r' <;> first | exact h1.elim | exact h2.elim | exact this
  | identifiers a b c s ds =>
    obtain ⟨v1, v2, v3, v4, v5, v6⟩ := h
    obtain ⟨u1, u2⟩ := hu _ _ _ _ _ rfl
    obtain ⟨a', ha⟩ := Option.isSome_iff_exists.mp u1
    obtain ⟨b', hb⟩ := Option.isSome_iff_exists.mp u2
    obtain ⟨ds', hds⟩ := dicts_moved hρ v6
    have hp : ds'.map (fun d => d.priv) = ds.map fun d => d.priv := by
      rw [← List.forall₂_eq_eq_eq, List.forall₂_map_left_iff, List.forall₂_map_right_iff]
      exact hds.flip.imp fun _ _ h => h.1
    refine ⟨.identifiers a' b' c s ds', ⟨hρ _ _ ha, hρ _ _ hb, v3, v4, by rw [← hds.length_eq]; exact v5, ?_⟩, ?_, ?_, ?_⟩
    · intro d' hd'
      obtain ⟨i, hi⟩ := List.mem_iff_getElem?.mp hd'
      obtain ⟨d, hd, h1, h2, -⟩ := forall₂_getElem? hds.flip hi
      rw [h1]
      exact ⟨h2, (v6 d (List.mem_of_getElem? hd)).2⟩
    · simp only [Keying.blob, List.length_append]
      rw [array_length ds' _ 0, array_length ds _ 0]
      have e1 : (ds'.map fun d => d.priv.blob) = ds.map fun d => d.priv.blob := by
        have := congrArg (List.map PrivateDef.blob) hp
        simpa [List.map_map, Function.comp_def] using this
      have e2 : (Keying.array ds' 0).length ≤ 5 * (Keying.array ds 0).length := by
        unfold Keying.array
        rw [encodeIndex_length, encodeIndex_length, place_dicts, place_dicts, List.length_map, List.length_map, place_length,
          place_length, ← hds.length_eq]
        have := forall₂_sum_le (g := fun d : FontDictDef => (d.dict 0).length) (c := 5) (fun _ _ h => h.2.2.2) hds
        split <;> omega
      rw [e1]
      omega
    · simp [Keying.ops, encodeOps_length, long_length]
    · intro r r' h1 h2
      cases r with
      | characterNameKeyed r => exact h1.elim
      | characterIDKeyed r =>
        cases r' with
        | characterNameKeyed r' => exact h2.elim
        | characterIDKeyed r' =>
          obtain ⟨p1, p2, p3, p4, p5, p6⟩ := h1
          obtain ⟨q1, q2, q3, q4, q5, q6⟩ := h2
          refine ⟨by rw [p1, q1, ha], by rw [p2, q2, hb], p3.trans q3.symm, p4.trans q4.symm, ?_, ?_⟩
          · have g : List.Forall₂ (fun (d : FontDictDef) o' => ∃ d' : FontDictDef, d'.entries.ops = d.entries.ops.map (moveOp ρ) ∧
                d'.entries.In [.opPrivate] o') ds r'.operations :=
              forall₂_both hds.flip q5 fun d' d o' x y => ⟨d', x.2.2.1, y⟩
            exact forall₂_both p5 g fun d o o' x ⟨d', y, z⟩ => dict_in y x z
          · have g : List.Forall₂ (fun (d : FontDictDef) r' => d.priv.In r') ds r'.records :=
              forall₂_both hds.flip q6 fun d' d o' x y => x.1 ▸ y
            exact forall₂_both p6 g fun d o o' x y => ⟨same_dict x.1 y.1, x.2.trans y.2.symm⟩

/-! ## Glyphs -/

theorem standard_sids (s : CharacterSet) (h : PredefinedSet s) : ∀ i ∈ sids s, i < 391 := by
  rcases h with rfl | rfl | rfl <;> decide +kernel

/-- A character set with other string identifiers. -/
def moveSet (ρ : Nat → Option Nat) (s : CharacterSet) : CharacterSet :=
  match s with
  | .isoAdobe => .isoAdobe
  | .expert => .expert
  | .expertSubset => .expertSubset
  | s => .format0 0 ((sids s).tail.map fun i => UInt16.ofNat ((ρ i).getD 0))

/-- An encoding with other string identifiers. -/
def moveEncoding (ρ : Nat → Option Nat) (e : Encoding) : Encoding :=
  match e with
  | .supplemental f n sups => .supplemental f n (sups.map fun x => { x with glyph := UInt16.ofNat ((ρ x.glyph.toNat).getD 0) })
  | e => e

theorem custom_sids (s : CharacterSet) (h : ¬ PredefinedSet s) : ∃ l, sids s = 0 :: l ∧ l.length = covered s := by
  cases s with
  | isoAdobe => exact absurd (.inl rfl) h
  | expert => exact absurd (.inr (.inl rfl)) h
  | expertSubset => exact absurd (.inr (.inr rfl)) h
  | format0 f gs => exact ⟨_, rfl, by simp [covered]⟩
  | format1 f rs => exact ⟨_, rfl, by simp [covered, List.length_flatMap]⟩
  | format2 f rs => exact ⟨_, rfl, by simp [covered, List.length_flatMap]⟩

theorem moveSet_custom (ρ : Nat → Option Nat) (s : CharacterSet) (h : ¬ PredefinedSet s) :
    moveSet ρ s = .format0 0 ((sids s).tail.map fun i => UInt16.ofNat ((ρ i).getD 0)) := by
  cases s with
  | isoAdobe => exact absurd (.inl rfl) h
  | expert => exact absurd (.inr (.inl rfl)) h
  | expertSubset => exact absurd (.inr (.inr rfl)) h
  | format0 f gs => rfl
  | format1 f rs => rfl
  | format2 f rs => rfl

theorem moveSet_predefined (ρ : Nat → Option Nat) (s : CharacterSet) (h : PredefinedSet s) : moveSet ρ s = s := by
  rcases h with rfl | rfl | rfl <;> rfl

theorem ofNat_toNat {j : Nat} (h : j < 65536) : (UInt16.ofNat j).toNat = j := by
  rw [UInt16.toNat_ofNat']
  exact Nat.mod_eq_of_lt h

theorem sids_moved {ρ : Nat → Option Nat} (h0 : ∀ i, i < 391 → ρ i = some i) (hρ : ∀ i j, ρ i = some j → j < 65536)
    (s : CharacterSet) (hu : ∀ i ∈ sids s, (ρ i).isSome) : List.Forall₂ (fun i j => ρ i = some j) (sids s) (sids (moveSet ρ s)) := by
  by_cases hp : PredefinedSet s
  · rw [moveSet_predefined ρ s hp, List.forall₂_same]
    exact fun i hi => h0 i (standard_sids s hp i hi)
  · rw [moveSet_custom ρ s hp]
    obtain ⟨l, hl, -⟩ := custom_sids s hp
    rw [hl] at hu ⊢
    refine .cons (h0 0 (by omega)) ?_
    rw [List.tail_cons, List.map_map, List.forall₂_map_right_iff, List.forall₂_same]
    intro i hi
    obtain ⟨j, hj⟩ := Option.isSome_iff_exists.mp (hu i (List.mem_cons_of_mem _ hi))
    simp only [Function.comp_apply, hj, Option.getD_some]
    rw [ofNat_toNat (hρ _ _ hj)]

theorem code_standard (code : Nat) : codeSID standardCodes code < 391 ∧ codeSID expertCodes code < 391 := by
  constructor
  · unfold codeSID
    split
    · rename_i first last sid h
      have h1 := List.find?_some h
      have h2 := List.mem_of_find?_eq_some h
      have : ∀ x ∈ standardCodes, x.2.2 + (x.2.1 - x.1) < 391 := by decide +kernel
      have h3 := this _ h2
      simp only [decide_eq_true_eq] at h1
      simp only at h3
      omega
    · omega
  · unfold codeSID
    split
    · rename_i first last sid h
      have h1 := List.find?_some h
      have h2 := List.mem_of_find?_eq_some h
      have : ∀ x ∈ expertCodes, x.2.2 + (x.2.1 - x.1) < 391 := by decide +kernel
      have h3 := this _ h2
      simp only [decide_eq_true_eq] at h1
      simp only at h3
      omega
    · omega

theorem leads_moved {ρ : Nat → Option Nat} (h0 : ∀ i, i < 391 → ρ i = some i) (hρ : ∀ i j, ρ i = some j → j < 65536)
    (hi : ∀ i i' j, ρ i = some j → ρ i' = some j → i = i') {s s' : CharacterSet}
    (hs : List.Forall₂ (fun i j => ρ i = some j) (sids s) (sids s')) (e : Encoding)
    (hu : ∀ f n sups, e = .supplemental f n sups → ∀ x ∈ sups, (ρ x.glyph.toNat).isSome) (code g : Nat) :
    Leads s' (moveEncoding ρ e) code g ↔ Leads s e code g := by
  have key : ∀ i j, ρ i = some j → ((sids s')[g]? = some j ↔ (sids s)[g]? = some i) := by
    intro i j hij
    constructor
    · intro h
      obtain ⟨i', h1, h2⟩ := forall₂_getElem? hs.flip h
      rw [h1, hi _ _ _ h2 hij]
    · intro h
      obtain ⟨j', h1, h2⟩ := forall₂_getElem? hs h
      rw [h1]
      rw [hij] at h2
      exact h2.symm
  cases e with
  | standard => simp only [moveEncoding, Leads]; rw [key _ _ (h0 _ (code_standard code).1)]
  | expert => simp only [moveEncoding, Leads]; rw [key _ _ (h0 _ (code_standard code).2)]
  | format0 f n codes => exact Iff.rfl
  | format1 f n ranges => exact Iff.rfl
  | supplemental f n sups =>
    simp only [moveEncoding, Leads]
    have hx : ∀ x ∈ sups, ((sids s')[g]? = some (UInt16.ofNat ((ρ x.glyph.toNat).getD 0)).toNat ↔ (sids s)[g]? = some x.glyph.toNat) := by
      intro x hx
      obtain ⟨j, hj⟩ := Option.isSome_iff_exists.mp (hu f n sups rfl x hx)
      rw [hj, Option.getD_some, ofNat_toNat (hρ _ _ hj)]
      exact key _ _ hj
    constructor
    · rintro ⟨y, hy, h1, h2⟩
      obtain ⟨x, hxm, rfl⟩ := List.mem_map.mp hy
      exact ⟨x, hxm, h1, (hx x hxm).mp h2⟩
    · rintro ⟨x, hxm, h1, h2⟩
      exact ⟨_, List.mem_map_of_mem hxm, h1, (hx x hxm).mpr h2⟩

/-! ## Fonts -/

/-- What has to be known of the string identifiers of a font. -/
def Known (ρ : Nat → Option Nat) (f : FontDef) : Prop :=
  match f.keying with
  | .names _ => (∀ i ∈ sids f.set, (ρ i).isSome) ∧ ∀ a n sups, f.encoding = .supplemental a n sups → ∀ x ∈ sups, (ρ x.glyph.toNat).isSome
  | .identifiers a b _ _ _ => (ρ a).isSome ∧ (ρ b).isSome

/-- A font with other string identifiers. -/
def FontMoved (ρ : Nat → Option Nat) (f f' : FontDef) : Prop :=
  f'.Valid ∧ f'.codes = f.codes ∧ f'.entries.ops = f.entries.ops.map (moveOp ρ) ∧ (f'.dict 0).length ≤ 5 * (f.dict 0).length ∧
  (f'.blob 0).length ≤ 5 * (f.blob 0).length ∧ (∀ r r', f.keying.In r → f'.keying.In r' → MovedRecord ρ r r') ∧
  ∀ r, f.keying.In r → MovedGlyphs ρ r f.set f'.set f.encoding f'.encoding

theorem encoding_length (ρ : Nat → Option Nat) (e : Encoding) :
    (encodeEncoding (moveEncoding ρ e)).length = (encodeEncoding e).length := by
  cases e <;> simp [moveEncoding, encodeEncoding, List.length_flatMap, Function.comp_def, be_length]

theorem font_moved {ρ : Nat → Option Nat} (h0 : ∀ i, i < 391 → ρ i = some i) (hρ : ∀ i j, ρ i = some j → j < 65536)
    (hi : ∀ i i' j, ρ i = some j → ρ i' = some j → i = i') {f : FontDef} (h : f.Valid) (hk : Known ρ f) :
    ∃ f', FontMoved ρ f f' := by
  obtain ⟨h1, h2, h3, h4, h5⟩ := h
  obtain ⟨e', e1, e2, e3⟩ := entries_moved hρ h1
  obtain ⟨k', k1, k2, k3, k4⟩ := keying_moved hρ h5 (by
    intro a b c s ds hq
    unfold Known at hk
    rw [hq] at hk
    exact hk)
  have dict_le : ∀ f' : FontDef, f'.entries = e' → f'.keying = k' → (f'.dict 0).length ≤ 5 * (f.dict 0).length := by
    intro f' he hk'
    unfold FontDef.dict FontDef.ops
    rw [he, hk']
    have t1 : ∀ (k : Keying) o, (encodeOps (k.ops o)).length = (encodeOps (k.ops 0)).length := by
      intro k o; cases k <;> simp [Keying.ops, encodeOps_length, long_length]
    have t2 : ∀ a b : List (Operator × List Piece), (encodeOps (a ++ b)).length = (encodeOps a).length + (encodeOps b).length := by
      intro a b; simp [encodeOps_length]
    rw [List.length_append, List.length_append, t2, t2, t1 k', t1 f.keying, k3]
    simp only [encodeOps_length, List.map_cons, List.map_nil, long_length]
    omega
  cases hq : f.keying with
  | identifiers a b c s ds =>
    refine ⟨⟨e', f.codes, f.set, f.encoding, k'⟩, ⟨e1, h2, h3, h4, k1⟩, rfl, e2, dict_le _ rfl rfl, ?_, k4, ?_⟩
    · unfold FontDef.blob
      simp only [List.length_append]
      rw [keying_blob_length k' _ 0, keying_blob_length f.keying _ 0]
      omega
    · intro r hr
      rw [hq] at hr
      cases r with
      | characterNameKeyed r => exact hr.elim
      | characterIDKeyed r => exact ⟨rfl, rfl⟩
  | names p =>
    unfold Known at hk
    rw [hq] at hk
    refine ⟨⟨e', f.codes, moveSet ρ f.set, moveEncoding ρ f.encoding, k'⟩, ⟨e1, h2, ?_, ?_, k1⟩, rfl, e2, dict_le _ rfl rfl, ?_, k4, ?_⟩
    · rcases h3 with h3 | ⟨h3, h3'⟩
      · exact .inl (by rw [show FontDef.set _ = moveSet ρ f.set from rfl, moveSet_predefined ρ _ h3]; exact h3)
      · have hn : ¬ PredefinedSet f.set := by
          intro hp
          rcases hp with hp | hp | hp <;> rw [hp] at h3 <;> exact h3
        refine .inr ?_
        obtain ⟨l, hl, hl'⟩ := custom_sids _ hn
        show Custom (moveSet ρ f.set) ∧ 1 + covered (moveSet ρ f.set) = f.codes.length
        rw [moveSet_custom ρ _ hn, hl]
        exact ⟨rfl, by rw [← h3', ← hl']; simp [covered]⟩
    · rcases h4 with (h4 | h4) | h4
      · exact .inl (.inl (by show moveEncoding ρ f.encoding = _; rw [h4]; rfl))
      · exact .inl (.inr (by show moveEncoding ρ f.encoding = _; rw [h4]; rfl))
      · refine .inr ?_
        show Encodable (moveEncoding ρ f.encoding)
        cases he : f.encoding with
        | standard => rw [he] at h4; exact h4.elim
        | expert => rw [he] at h4; exact h4.elim
        | format0 => rw [he] at h4; exact h4
        | format1 => rw [he] at h4; exact h4
        | supplemental a n sups => rw [he] at h4; exact ⟨h4.1, by rw [List.length_map]; exact h4.2⟩
    · unfold FontDef.blob
      simp only [List.length_append]
      rw [keying_blob_length k' _ 0, keying_blob_length f.keying _ 0, encoding_length]
      have hs : (encodeCharacterSet (moveSet ρ f.set)).length + (encodeIndex 4 f.codes).length ≤
          5 * ((encodeCharacterSet f.set).length + (encodeIndex 4 f.codes).length) := by
        rcases h3 with h3 | ⟨h3, h3'⟩
        · rw [moveSet_predefined ρ _ h3]; omega
        · have hn : ¬ PredefinedSet f.set := by
            intro hp
            rcases hp with hp | hp | hp <;> rw [hp] at h3 <;> exact h3
          obtain ⟨l, hl, hl'⟩ := custom_sids _ hn
          rw [moveSet_custom ρ _ hn, hl, encodeIndex_length, if_neg (by omega)]
          simp only [encodeCharacterSet, List.length_cons, List.length_flatMap, List.tail_cons, List.map_map, Function.comp_def, be_length,
            List.map_const', List.sum_replicate, smul_eq_mul]
          omega
      omega
    · intro r hr
      rw [hq] at hr
      cases r with
      | characterIDKeyed r => exact hr.elim
      | characterNameKeyed r =>
        have hs := sids_moved h0 hρ f.set hk.1
        exact ⟨hs, fun code g => leads_moved h0 hρ hi hs f.encoding hk.2 code g⟩

theorem fonts_moved {ρ : Nat → Option Nat} (h0 : ∀ i, i < 391 → ρ i = some i) (hρ : ∀ i j, ρ i = some j → j < 65536)
    (hi : ∀ i i' j, ρ i = some j → ρ i' = some j → i = i') {fonts : List FontDef} (h : ∀ f ∈ fonts, f.Valid ∧ Known ρ f) :
    ∃ fonts', List.Forall₂ (FontMoved ρ) fonts fonts' := by
  induction fonts with
  | nil => exact ⟨[], .nil⟩
  | cons f fonts ih =>
    obtain ⟨fonts', h1⟩ := ih fun f hf => h f (List.mem_cons_of_mem _ hf)
    obtain ⟨f', h2⟩ := font_moved h0 hρ hi (h f List.mem_cons_self).1 (h f List.mem_cons_self).2
    exact ⟨f' :: fonts', .cons h2 h1⟩

/-- The parts of a font. -/
theorem font_in {d : FontSetDef} {fs : FontSet} (h : d.In fs) {k : Nat} {f : FontDef} (hf : d.fonts[k]? = some f) :
    ∃ o cs r, fs.operations[k]? = some o ∧ fs.characterStrings[k]? = some cs ∧ fs.characterSets[k]? = some f.set ∧
      fs.encodings[k]? = some f.encoding ∧ fs.records[k]? = some r ∧ f.entries.In FontDef.reserved o ∧ cs.data = f.codes ∧
      f.keying.In r := by
  obtain ⟨-, -, -, h4, h5, h6, h7, h8⟩ := h
  obtain ⟨o, o1, o2⟩ := forall₂_getElem? h4 hf
  obtain ⟨cs, c1, c2⟩ := forall₂_getElem? h5 hf
  obtain ⟨r, r1, r2⟩ := forall₂_getElem? h8 hf
  exact ⟨o, cs, r, o1, c1, by rw [h6, List.getElem?_map, hf]; rfl, by rw [h7, List.getElem?_map, hf]; rfl, r1, o2, c2, r2⟩

theorem moved_in {ρ : Nat → Option Nat} {d d' : FontSetDef} {fs fs' : FontSet} (h : d.In fs) (h' : d'.In fs') {k k' : Nat}
    {f f' : FontDef} (hf : d.fonts[k]? = some f) (hf' : d'.fonts[k']? = some f') (hm : FontMoved ρ f f') :
    MovedFont ρ fs k fs' k' := by
  obtain ⟨o, cs, r, a1, a2, a3, a4, a5, a6, a7, a8⟩ := font_in h hf
  obtain ⟨o', cs', r', b1, b2, b3, b4, b5, b6, b7, b8⟩ := font_in h' hf'
  obtain ⟨-, m2, m3, -, -, m6, m7⟩ := hm
  exact ⟨o, o', cs, cs', _, _, _, _, r, r', a1, b1, a2, b2, a3, b3, a4, b4, a5, b5, dict_in m3 a6 b6, by rw [b7, m2, a7],
    m6 r r' a8 b8, m7 r a8⟩

theorem known_of {ρ : Nat → Option Nat} {d : FontSetDef} {fs : FontSet} (h : d.In fs)
    (hu : ∀ k sid, Uses fs k sid → (ρ sid).isSome) : ∀ f ∈ d.fonts, Known ρ f := by
  intro f hf
  obtain ⟨k, hk⟩ := List.mem_iff_getElem?.mp hf
  obtain ⟨o, cs, r, -, -, a3, a4, a5, -, -, a8⟩ := font_in h hk
  unfold Known
  cases hq : f.keying with
  | names p =>
    rw [hq] at a8
    cases r with
    | characterIDKeyed r => exact a8.elim
    | characterNameKeyed r =>
      exact ⟨fun i hi => hu k i (.inl ⟨r, f.set, a5, a3, hi⟩), fun a n sups he x hx =>
        hu k _ (.inr (.inl ⟨r, a, n, sups, a5, by rw [a4, he], x, hx, rfl⟩))⟩
  | identifiers a b c s ds =>
    rw [hq] at a8
    cases r with
    | characterNameKeyed r => exact a8.elim
    | characterIDKeyed r =>
      exact ⟨hu k _ (.inr (.inr ⟨r, a5, .inl a8.1⟩)), hu k _ (.inr (.inr ⟨r, a5, .inr a8.2.1⟩))⟩

theorem fonts_bulk {ρ : Nat → Option Nat} {as bs : List FontDef} (h : List.Forall₂ (FontMoved ρ) as bs) :
    bs.length = as.length ∧ (bs.map fun f => (f.dict 0).length).sum ≤ 5 * (as.map fun f => (f.dict 0).length).sum ∧
    (bs.map fun f => (f.blob 0).length).sum ≤ 5 * (as.map fun f => (f.blob 0).length).sum :=
  ⟨h.length_eq.symm, forall₂_sum_le (fun _ _ h => h.2.2.2.1) h, forall₂_sum_le (fun _ _ h => h.2.2.2.2.1) h⟩

theorem forall₂_mem_right {α β : Type} {R : α → β → Prop} {as : List α} {bs : List β} (h : List.Forall₂ R as bs) {b : β} (hb : b ∈ bs) :
    ∃ a ∈ as, R a b := by
  obtain ⟨i, hi⟩ := List.mem_iff_getElem?.mp hb
  obtain ⟨a, ha, hr⟩ := forall₂_getElem? h.flip hi
  exact ⟨a, List.mem_of_getElem? ha, hr⟩

end PS.Merging
