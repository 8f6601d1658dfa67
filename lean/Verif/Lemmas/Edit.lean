import Verif.Lemmas.Rewrite
import Verif.Props.Writer
import Verif.Spec.Edit
import Mathlib.Data.List.Perm.Subperm
/-!
# Editing what a font set is made of
-/
namespace PS
open Spec

theorem write_length (d : FontSetDef) : d.write.length = 4 + (encodeIndex 4 d.names).length +
    (if d.fonts.length = 0 then 2 else 3 + 4 * (d.fonts.length + 1) + (d.fonts.map fun f => (f.dict 0).length).sum) +
    (encodeIndex 4 d.strings).length + (encodeIndex 4 d.globals).length + (d.fonts.map fun f => (f.blob 0).length).sum := by
  have e1 : (((d.placed d.start).map fun x => x.1.blob x.2).flatten).length = (d.fonts.map fun f => (f.blob 0).length).sum := by
    rw [List.length_flatten, FontSetDef.placed, place_sizes (g := fun f : FontDef => (f.blob 0).length) _
        (fun f o => font_blob_length f o 0)]
  have e2 : (encodeIndex 4 ((d.placed d.start).map fun x => x.1.dict x.2)).length =
      if d.fonts.length = 0 then 2 else 3 + 4 * (d.fonts.length + 1) + (d.fonts.map fun f => (f.dict 0).length).sum := by
    rw [encodeIndex_length, List.length_map, FontSetDef.placed, place_length,
      place_sizes (g := fun f : FontDef => (f.dict 0).length) _ (fun f o => font_dict_length f o 0)]
  unfold FontSetDef.write FontSetDef.head
  simp only [List.length_append, e1, e2, List.length_cons, List.length_nil]

theorem encodeIndex_mono {xs ys : List (List UInt8)} (h1 : xs.length ≤ ys.length)
    (h2 : (xs.map List.length).sum ≤ (ys.map List.length).sum) : (encodeIndex 4 xs).length ≤ (encodeIndex 4 ys).length := by
  rw [encodeIndex_length, encodeIndex_length]
  split <;> split <;> omega

theorem pick_map {α β : Type} (f : α → β) (ks : List Nat) (l : List α) : (pick ks l).map f = pick ks (l.map f) := by
  unfold pick
  rw [List.map_filterMap]
  congr 1
  funext k
  simp

theorem forall₂_pick {α β : Type} {R : α → β → Prop} {as : List α} {bs : List β} (h : List.Forall₂ R as bs) (ks : List Nat) :
    List.Forall₂ R (pick ks as) (pick ks bs) := by
  unfold pick
  induction ks with
  | nil => exact .nil
  | cons k ks ih =>
    cases ha : as[k]? with
    | none =>
      have hb : bs[k]? = none := by
        rw [List.getElem?_eq_none_iff] at ha ⊢
        rw [← h.length_eq]; exact ha
      rw [List.filterMap_cons_none ha, List.filterMap_cons_none hb]
      exact ih
    | some a =>
      obtain ⟨b, hb, hr⟩ := forall₂_getElem? h ha
      rw [List.filterMap_cons_some ha, List.filterMap_cons_some hb]
      exact .cons hr ih

theorem pick_all {α : Type} (l : List α) : pick (List.range l.length) l = l := by
  unfold pick
  induction l with
  | nil => rfl
  | cons a l ih =>
    rw [List.length_cons, List.range_succ_eq_map, List.filterMap_cons_some (b := a) (by simp), List.filterMap_map]
    congr 1

theorem pick_subperm {α : Type} {ks : List Nat} {l : List α} (h1 : ks.Nodup) (h2 : ∀ k ∈ ks, k < l.length) :
    List.Subperm (pick ks l) l := by
  obtain ⟨js, h3, h4⟩ := List.subperm_of_subset h1 (l₂ := List.range l.length) fun k hk => List.mem_range.mpr (h2 k hk)
  have h5 := h4.filterMap (l[·]?)
  rw [show (List.range l.length).filterMap (l[·]?) = l from pick_all l] at h5
  exact ⟨_, h3.filterMap _, h5⟩

theorem subperm_sum {α : Type} {xs ys : List α} (h : xs.Subperm ys) (f : α → Nat) : (xs.map f).sum ≤ (ys.map f).sum := by
  obtain ⟨zs, h1, h2⟩ := h
  rw [← (h1.map f).sum_eq]
  exact (h2.map f).sum_le_sum fun _ _ => Nat.zero_le _

theorem mem_pick {α : Type} {ks : List Nat} {l : List α} {a : α} (h : a ∈ pick ks l) : a ∈ l := by
  obtain ⟨k, -, h⟩ := List.mem_filterMap.mp h
  exact List.mem_of_getElem? h

/-! ## Replacing a character string -/

/-- A font with another character string for the glyph `i`. -/
def Spec.FontDef.put (i : Nat) (code : List UInt8) (f : FontDef) : FontDef := { f with codes := f.codes.set i code }

theorem sum_set_le (l : List (List UInt8)) (i : Nat) (c : List UInt8) :
    ((l.set i c).map List.length).sum ≤ (l.map List.length).sum + c.length := by
  induction l generalizing i with
  | nil => simp
  | cons x l ih =>
    cases i with
    | zero => simp; omega
    | succ i => have := ih i; simp only [List.set_cons_succ, List.map_cons, List.sum_cons]; omega

theorem sum_modify_le {α : Type} {g : α → Nat} {F : α → α} {a : Nat} (h : ∀ x, g (F x) ≤ g x + a) (l : List α) (k : Nat) :
    ((l.modify k F).map g).sum ≤ (l.map g).sum + a := by
  induction l generalizing k with
  | nil => simp
  | cons x l ih =>
    cases k with
    | zero => have := h x; simp; omega
    | succ k => have := ih k; simp only [List.modify_succ_cons, List.map_cons, List.sum_cons]; omega

theorem sum_modify_eq {α : Type} {g : α → Nat} {F : α → α} (h : ∀ x, g (F x) = g x) (l : List α) (k : Nat) :
    ((l.modify k F).map g).sum = (l.map g).sum := by
  induction l generalizing k with
  | nil => simp
  | cons x l ih =>
    cases k with
    | zero => have := h x; simp; omega
    | succ k => have := ih k; simp only [List.modify_succ_cons, List.map_cons, List.sum_cons]; omega

theorem forall₂_modify {α β : Type} {R : α → β → Prop} {F : α → α} (hR : ∀ a b, R (F a) b → R a b) {k : Nat} {as : List α}
    {bs : List β} (h : List.Forall₂ R (as.modify k F) bs) : List.Forall₂ R as bs := by
  induction as generalizing k bs with
  | nil => simpa using h
  | cons a as ih =>
    cases k with
    | zero => rw [List.modify_zero_cons] at h; cases h with | cons a b => exact .cons (hR _ _ a) b
    | succ k => rw [List.modify_succ_cons] at h; cases h with | cons a b => exact .cons a (ih b)

theorem put_dict (i : Nat) (code : List UInt8) (f : FontDef) : ((f.put i code).dict 0).length = (f.dict 0).length := by
  unfold FontDef.dict FontDef.ops
  rw [List.length_append, List.length_append, encodeOps_length, encodeOps_length]
  show _ = _
  have : (f.put i code).keying = f.keying ∧ (f.put i code).entries = f.entries := ⟨rfl, rfl⟩
  rw [this.1, this.2]
  cases f.keying <;> simp [Keying.ops, long_length]

theorem put_blob (i : Nat) (code : List UInt8) (f : FontDef) :
    ((f.put i code).blob 0).length ≤ (f.blob 0).length + code.length := by
  unfold FontDef.blob
  have : (f.put i code).keying = f.keying ∧ (f.put i code).set = f.set ∧ (f.put i code).encoding = f.encoding ∧
    (f.put i code).codes = f.codes.set i code := ⟨rfl, rfl, rfl, rfl⟩
  simp only [List.length_append]
  rw [keying_blob_length (f.put i code).keying ((f.put i code).recordAt 0) (f.recordAt 0), this.1, this.2.1, this.2.2.1, this.2.2.2]
  have := sum_set_le f.codes i code
  rw [encodeIndex_length, encodeIndex_length, List.length_set]
  split <;> omega

theorem codes_le_blob (f : FontDef) : f.codes.flatten.length ≤ (f.blob 0).length := by
  unfold FontDef.blob
  simp only [List.length_append]
  rw [encodeIndex_length, List.length_flatten]
  split
  · rename_i h
    rw [List.length_eq_zero_iff.mp h]
    simp
  · omega

theorem put_valid {f : FontDef} (h : f.Valid) (i : Nat) (code : List UInt8) (hc : (f.blob 0).length + code.length < 2 ^ 31) :
    (f.put i code).Valid := by
  obtain ⟨h1, h2, h3, h4, h5⟩ := h
  have e : (f.put i code).codes.length = f.codes.length := List.length_set
  refine ⟨h1, ⟨by rw [e]; exact h2.1, by omega, by omega, ?_⟩, ?_, h4, ?_⟩
  · have q1 := codes_le_blob f
    have q2 := sum_set_le f.codes i code
    rw [List.length_flatten] at q1 ⊢
    have q3 : ((f.put i code).codes.map List.length).sum ≤ (f.codes.map List.length).sum + code.length := q2
    norm_num at hc ⊢
    omega
  · rw [e]; exact h3
  · rw [e]; exact h5

/-- A font set with another character string for the glyph `i` of the font `k`. -/
def Spec.FontSetDef.put (k i : Nat) (code : List UInt8) (d : FontSetDef) : FontSetDef :=
  { d with fonts := d.fonts.modify k (FontDef.put i code) }

theorem put_write (k i : Nat) (code : List UInt8) (d : FontSetDef) :
    (d.put k i code).write.length ≤ d.write.length + code.length := by
  rw [write_length, write_length]
  have q1 : (d.put k i code).strings = d.strings ∧ (d.put k i code).globals = d.globals ∧ (d.put k i code).names = d.names ∧
    (d.put k i code).fonts = d.fonts.modify k (FontDef.put i code) := ⟨rfl, rfl, rfl, rfl⟩
  rw [q1.1, q1.2.1, q1.2.2.1, q1.2.2.2, List.length_modify, sum_modify_eq fun f => put_dict i code f]
  have := sum_modify_le (g := fun f => (f.blob 0).length) (F := FontDef.put i code) (fun f => put_blob i code f) d.fonts k
  omega

theorem put_valid_set {d : FontSetDef} (h : d.Valid) (k i : Nat) (code : List UInt8) (hc : d.write.length + code.length < 2 ^ 31) :
    (d.put k i code).Valid := by
  obtain ⟨h1, h2, h3, h4, h5, h6⟩ := h
  refine ⟨h1, h2, h3, by rw [show (d.put k i code).fonts = d.fonts.modify k (FontDef.put i code) from rfl, List.length_modify]; exact h4,
    ?_, Nat.lt_of_le_of_lt (put_write k i code d) hc⟩
  intro f hf
  obtain ⟨j, hj⟩ := List.mem_iff_getElem?.mp hf
  rw [show (d.put k i code).fonts = d.fonts.modify k (FontDef.put i code) from rfl, List.getElem?_modify] at hj
  obtain ⟨f', hf', rfl⟩ := Option.map_eq_some_iff.mp hj
  have hm := List.mem_of_getElem? hf'
  split
  · refine put_valid (h5 f' hm) i code ?_
    have q1 : (f'.blob 0).length ≤ (d.fonts.map fun f => (f.blob 0).length).sum :=
      List.single_le_sum (by simp) _ (List.mem_map_of_mem hm)
    have q2 := write_length d
    omega
  · exact h5 f' hm

end PS
