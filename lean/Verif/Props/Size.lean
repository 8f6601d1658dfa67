import Verif.Spec.Size
import Verif.Lemmas.Writer
import Verif.Props.Contained
import Verif.Props.Agree
/-!
# Property C77: how much a font set holds
-/
namespace PS
open Spec

theorem weight_le {ix : Index} {bs : List UInt8} (h : IndexBytes ix bs) : weight ix ≤ bs.length ∧ ix.data.length ≤ bs.length := by
  rcases h with ⟨rfl, rfl⟩ | ⟨h1, h2, -, -, rfl⟩
  · exact ⟨Nat.zero_le _, Nat.zero_le _⟩
  · rw [encodeIndex_length, if_neg (by simpa using h1)]
    have := Nat.mul_le_mul_right (ix.data.length + 1) h2.2.1
    unfold weight
    omega

theorem indexAt_weight {data : List UInt8} {p : Nat} {ix : Index} (h : IndexAt data p ix) :
    weight ix ≤ data.length ∧ ix.data.length ≤ data.length := by
  obtain ⟨bs, h, hs⟩ := h
  have := weight_le h
  have := sits_length hs
  omega

theorem private_weight {A : Addressing} {data : List UInt8} {top : Operations} {r : PrivateRecord} (h : PrivateAt A data top r) :
    weight r.subroutines ≤ data.length := by
  obtain ⟨_, _, _, _, _, _, _, _, _, _, ⟨_, _, _, _, _, _, h⟩ | ⟨-, h⟩⟩ := h
  · exact (indexAt_weight h).1
  · rw [h]; exact Nat.zero_le _

theorem held_sum_le {α : Type} {f : α → Nat} {g : α → Nat} {l : List α} (h : ∀ x ∈ l, f x ≤ g x) : (l.map f).sum ≤ (l.map g).sum := by
  induction l with
  | nil => exact Nat.le_refl _
  | cons x l ih =>
    simp only [List.map_cons, List.sum_cons]
    exact Nat.add_le_add (h x (by simp)) (ih fun y hy => h y (by simp [hy]))

theorem held_sum_const {α : Type} {l : List α} {n : Nat} : (l.map fun _ => n).sum = n * l.length := by
  induction l with
  | nil => rfl
  | cons x l ih => simp only [List.map_cons, List.sum_cons, List.length_cons, ih]; ring

theorem held_sum_mul {α : Type} {l : List α} {f : α → Nat} {n : Nat} : (l.map fun x => n * f x).sum = n * (l.map f).sum := by
  induction l with
  | nil => rfl
  | cons x l ih => simp only [List.map_cons, List.sum_cons, ih]; ring

theorem record_weight {A : Addressing} {data : List UInt8} {top : Operations} {glyphs : Nat} {r : Record}
    (h : RecordAt A data top glyphs r) :
    (∀ ix ∈ locals r, weight ix ≤ data.length) ∧ (locals r).length ≤ max 1 (min 65535 data.length) := by
  cases r with
  | characterNameKeyed r =>
    refine ⟨?_, by simp [locals]⟩
    intro ix hix
    rw [locals, List.mem_singleton] at hix
    exact hix ▸ private_weight h.2
  | characterIDKeyed r =>
    obtain ⟨-, -, ⟨_, _, _, -, -, h1, h2⟩, h3⟩ := h
    refine ⟨?_, ?_⟩
    · intro ix hix
      obtain ⟨x, hx, rfl⟩ := List.mem_map.mp hix
      obtain ⟨_, _, h⟩ := forall₂_right_mem h3 hx
      exact private_weight h
    · rw [locals, List.length_map, ← h3.length_eq, ← h2.length_eq]
      have := (indexAt_weight h1).2
      have := (index_small h1).1
      omega

/-- **C77.**  A font set that was read holds no more than the file for its INDEXes of
names, strings and global subroutines together, and once more for each font and for each
private dictionary.  There are at most 65535 fonts, and no more than bytes in the file;
the same holds for the private dictionaries of a font.
Missing from the full claim, which is false (`C77_false`): that all of it together is no
larger than the file. -/
theorem C77_bounded_partial (cfg : Config) (data : List UInt8) (hdata : data.length < 2 ^ 61) (base q : Nat) (fs : FontSet)
    (h : FontSet.read (tape cfg data) base = (.ok fs, q)) :
    weight fs.names + weight fs.strings + weight fs.subroutines ≤ data.length ∧
    (∀ cs ∈ fs.characterStrings, weight cs ≤ data.length) ∧
    (∀ r ∈ fs.records, ∀ ix ∈ locals r, weight ix ≤ data.length) ∧
    held fs ≤ data.length * (1 + fs.characterStrings.length + privateCount fs) ∧
    fs.characterStrings.length ≤ min 65535 data.length ∧
    ∀ r ∈ fs.records, (locals r).length ≤ max 1 (min 65535 data.length) := by
  obtain ⟨-, ⟨p1, p2, p3, p4, p5, ix, -, ⟨b1, h1, s1, e1⟩, ⟨b2, h2, s2, e2⟩, ⟨b3, h3, s3, e3⟩, ⟨b4, h4, s4, e4⟩, hd⟩, l1, -, -, l4, hf⟩ :=
    (C32_layout_iff cfg data hdata base fs).mp ⟨q, h⟩
  have k1 : weight fs.names + weight fs.strings + weight fs.subroutines ≤ data.length := by
    have w1 := (weight_le h1).1
    have w3 := (weight_le h3).1
    have w4 := (weight_le h4).1
    by_cases hp : p1 ≤ data.length
    · have hs : ∀ {p : Nat} {bs : List UInt8}, Sits data p bs → p ≤ data.length → p + bs.length ≤ data.length := by
        intro p bs hs hp
        have := List.IsPrefix.length_le hs
        rw [List.length_drop] at this
        omega
      have := hs s1 hp
      have := hs s2 (by omega)
      have := hs s3 (by omega)
      have := hs s4 (by omega)
      omega
    · have := List.IsPrefix.length_le s1
      have := List.IsPrefix.length_le s2
      have := List.IsPrefix.length_le s3
      have := List.IsPrefix.length_le s4
      rw [List.length_drop] at *
      omega
  have k2 : ∀ cs ∈ fs.characterStrings, weight cs ≤ data.length := by
    intro cs hcs
    obtain ⟨i, hi, rfl⟩ := List.getElem_of_mem hcs
    obtain ⟨cs', _, _, _, e1, -, -, -, ⟨_, _, -, -, -, hc⟩, -⟩ := hf i _ (List.getElem?_eq_getElem (l1 ▸ hi))
    rw [List.getElem?_eq_getElem hi, Option.some.injEq] at e1
    exact e1 ▸ (indexAt_weight hc).1
  have k3 : ∀ r ∈ fs.records, (∀ ix ∈ locals r, weight ix ≤ data.length) ∧ (locals r).length ≤ max 1 (min 65535 data.length) := by
    intro r hr
    obtain ⟨i, hi, rfl⟩ := List.getElem_of_mem hr
    obtain ⟨_, _, _, r', -, -, -, e4, -, -, -, hr'⟩ := hf i _ (List.getElem?_eq_getElem (l4 ▸ hi))
    rw [List.getElem?_eq_getElem hi, Option.some.injEq] at e4
    exact e4 ▸ record_weight hr'
  refine ⟨k1, k2, fun r hr => (k3 r hr).1, ?_, ?_, fun r hr => (k3 r hr).2⟩
  · have k4 := held_sum_le k2
    rw [held_sum_const] at k4
    have k5 : (fs.records.map fun r => ((locals r).map weight).sum).sum ≤ (fs.records.map fun r => data.length * (locals r).length).sum := by
      refine held_sum_le fun r hr => ?_
      have := held_sum_le (k3 r hr).1
      rwa [held_sum_const] at this
    rw [held_sum_mul] at k5
    unfold held privateCount
    rw [Nat.mul_add, Nat.mul_add]
    omega
  · rw [l1, ← hd.length_eq]
    have := (index_small ⟨b2, h2, s2⟩).1
    have := (indexAt_weight ⟨b2, h2, s2⟩).2
    omega

/-! ## A small file that holds much -/

namespace Bomb

/-- A private dictionary with one local subroutine, of `m` bytes. -/
def priv (m : Nat) : PrivateDef := ⟨⟨[], []⟩, [List.replicate m 0]⟩

/-- A font dictionary that leads to the private dictionary at `offset`. -/
def fd (m offset : Nat) : List UInt8 := FontDictDef.dict ⟨⟨[], []⟩, priv m⟩ offset

/-- The operations of a top dictionary: the character strings are at `offset`, the
FDSelect behind them, and the font dictionaries behind that. -/
def ops (offset : Nat) : List (Operator × List Piece) :=
  [(.opCharStrings, [long offset]), (.opROS, [long 0, long 0, long 0]), (.opFDSelect, [long (offset + 2 : Nat)]),
   (.opFDArray, [long (offset + 3 : Nat)])]

/-- A file with `k` equal fonts of no glyphs and `d` equal font dictionaries. -/
def file (k d m : Nat) : List UInt8 :=
  ([1, 0, 4, 4] ++ encodeIndex 4 [] ++ encodeIndex 4 (List.replicate k (encodeOps (ops (41 * k + 17)))) ++ encodeIndex 4 [] ++
    encodeIndex 4 []) ++
  (encodeIndex 4 [] ++ encodeSelect (.format0 0 []) ++ encodeIndex 4 (List.replicate d (fd m (41 * k + 15 * d + 27))) ++ (priv m).blob)

theorem ops_length (o : Nat) : (encodeOps (ops o)).length = 37 := by
  simp [ops, encodeOps_length, long_length, opCode]

theorem fd_length (m o : Nat) : (fd m o).length = 11 := by
  simp [fd, FontDictDef.dict, encodeOps_length, long_length, opCode]

theorem dict_length (m : Nat) : (priv m).dict.length = 6 := by
  simp [priv, PrivateDef.dict, encodeOps_length, long_length, opCode]

theorem blob_length (m : Nat) : (priv m).blob.length = m + 17 := by
  unfold PrivateDef.blob
  rw [List.length_append, dict_length, encodeIndex_length]
  simp [priv]
  omega

theorem sum_replicate (k : Nat) (l : List UInt8) : ((List.replicate k l).map List.length).sum = k * l.length := by
  simp

theorem empty_length : (encodeIndex 4 []).length = 2 := by rfl

theorem repeated_length {k : Nat} (hk : 1 ≤ k) (l : List UInt8) :
    (encodeIndex 4 (List.replicate k l)).length = 3 + 4 * (k + 1) + k * l.length := by
  rw [encodeIndex_length, if_neg (by simp; omega), sum_replicate, List.length_replicate]

theorem select_length : (encodeSelect (.format0 0 [])).length = 1 := rfl

theorem file_length {k d : Nat} (hk : 1 ≤ k) (hd : 1 ≤ d) (m : Nat) : (file k d m).length = 41 * k + 15 * d + m + 44 := by
  unfold file
  simp only [List.length_append, repeated_length hk, repeated_length hd, ops_length, fd_length, blob_length, empty_length,
    select_length, List.length_cons, List.length_nil]
  omega

theorem entries_valid (r : List Operator) : Entries.Valid ⟨[], []⟩ r := ⟨.nil, by simp⟩

theorem priv_valid {m : Nat} (hm : m < 2 ^ 30) : (priv m).Valid := by
  refine ⟨entries_valid _, ?_⟩
  unfold IndexFits priv
  simp
  omega

theorem repeated_fits {k : Nat} (hk : k ≤ 65535) {l : List UInt8} (hl : l.length ≤ 37) : IndexFits 4 (List.replicate k l) := by
  have : k * l.length ≤ 65535 * 37 := Nat.mul_le_mul hk hl
  refine ⟨by simpa using hk, by omega, by omega, ?_⟩
  rw [List.length_flatten, sum_replicate]
  omega

theorem forall₂_replicate {α β : Type} {R : α → β → Prop} {a : α} {b : β} (h : R a b) (k : Nat) :
    List.Forall₂ R (List.replicate k a) (List.replicate k b) := by
  induction k with
  | zero => exact .nil
  | succ k ih => exact .cons h ih

theorem laidOut {k d m : Nat} (hk : 1 ≤ k) (hk' : k ≤ 65535) (hd : 1 ≤ d) (hd' : d ≤ 65535) (hm : m < 2 ^ 30) :
    ∃ fs, LaidOut (relativeTo 0 (2 ^ 31)) (file k d m) 0 fs ∧ held fs = k * (d * m) := by
  have hs : Sits (file k d m) 0 (file k d m) := List.prefix_refl _
  have hs1 := Transfer.sits_append.mp hs
  have hs2 := Transfer.sits_append.mp hs1.1
  have hs3 := Transfer.sits_append.mp hs2.1
  have hs4 := Transfer.sits_append.mp hs3.1
  have hs5 := Transfer.sits_append.mp hs4.1
  have ht1 := Transfer.sits_append.mp hs1.2
  have ht2 := Transfer.sits_append.mp ht1.1
  have ht3 := Transfer.sits_append.mp ht2.1
  have e1 : ([1, 0, 4, 4] ++ encodeIndex 4 [] ++ encodeIndex 4 (List.replicate k (encodeOps (ops (41 * k + 17)))) ++
      encodeIndex 4 [] ++ encodeIndex 4 [] : List UInt8).length = 41 * k + 17 := by
    simp only [List.length_append, repeated_length hk, ops_length, empty_length, List.length_cons, List.length_nil]
    omega
  have ht1' := ht1.2
  have ht2' := ht2.2
  have ht3' := ht3.2
  have ht3'' := ht3.1
  rw [e1] at ht1' ht2' ht3' ht3''
  simp only [List.length_append, repeated_length hd, fd_length, empty_length, select_length, Nat.zero_add] at ht1' ht2' ht3' ht3''
  have hpv := priv_valid hm
  -- a font dictionary and its private dictionary
  obtain ⟨o, o1, -, o2, -⟩ := dictOf_entries (entries_valid [.opPrivate])
    (ops := [(.opPrivate, [long (priv m).dict.length, long (41 * k + 15 * d + 27 : Nat)])])
    (by
      intro x hx i hi
      have hl := dict_length m
      simp only [List.mem_singleton] at hx
      subst hx
      simp only [List.mem_cons, List.not_mem_nil, or_false] at hi
      rcases hi with rfl | rfl <;> exact operand_long (by omega))
    (by simp) (by simp)
  obtain ⟨r, r1, r2, -⟩ := private_at (data := file k d m) (base := 0) (limit := 2 ^ 31) hpv (o2 .opPrivate _ (.head _))
    (by rw [Nat.zero_add]; convert ht1' using 1; omega) (by rw [blob_length]; omega) (by omega)
  -- a top dictionary
  obtain ⟨top, h1, -, h3, h4⟩ := dictOf_entries (entries_valid FontDef.reserved) (ops := ops (41 * k + 17))
    (by
      intro x hx i hi
      simp only [ops, List.mem_cons, List.not_mem_nil, or_false] at hx
      rcases hx with rfl | rfl | rfl | rfl <;> simp only [List.mem_cons, List.not_mem_nil, or_false] at hi
      · subst hi; exact operand_long (by omega)
      · rcases hi with rfl | rfl | rfl <;> exact operand_long (by omega)
      · subst hi; exact operand_long (by omega)
      · subst hi; exact operand_long (by omega))
    (by simp [ops]) (by intro x hx; simp only [ops, List.mem_cons, List.not_mem_nil, or_false] at hx
                        rcases hx with rfl | rfl | rfl | rfl <;> simp [FontDef.reserved])
  have t1 : top.map .opCharStrings = some [.integer (41 * k + 17 : Nat)] := h3 .opCharStrings _ (.head _)
  have t2 : top.map .opROS = some [.integer 0, .integer 0, .integer 0] := h3 .opROS _ (.tail _ (.head _))
  have t3 : top.map .opFDSelect = some [.integer (41 * k + 17 + 2 : Nat)] := h3 .opFDSelect _ (.tail _ (.tail _ (.head _)))
  have t4 : top.map .opFDArray = some [.integer (41 * k + 17 + 3 : Nat)] :=
    h3 .opFDArray _ (.tail _ (.tail _ (.tail _ (.head _))))
  have t5 : top.map .opCharStringType = none := h4 _ (by simp [FontDef.reserved]) (by simp [ops])
  have t6 : top.map .opCharSet = none := h4 _ (by simp [FontDef.reserved]) (by simp [ops])
  have t7 : top.map .opEncoding = none := h4 _ (by simp [FontDef.reserved]) (by simp [ops])
  obtain ⟨fds, g1, g2⟩ := index_of (repeated_fits hd' (l := fd m (41 * k + 15 * d + 27)) (by rw [fd_length]; omega))
  obtain ⟨tops, g3, g4⟩ := index_of (repeated_fits hk' (l := encodeOps (ops (41 * k + 17))) (by rw [ops_length]))
  have hno : IndexBytes noObjects (encodeIndex 4 []) := .inl ⟨rfl, rfl⟩
  have hfont : FontAt (relativeTo 0 (2 ^ 31)) (file k d m) top noObjects .isoAdobe .standard
      (.characterIDKeyed ⟨0, 0, .integer 0, .format0 0 [], List.replicate d o, List.replicate d r⟩) := by
    refine ⟨⟨_, 41 * k + 17, ⟨_, .inl t1⟩, ⟨by omega, by push_cast; omega, by omega⟩,
        ⟨[], .inr ⟨t5, by simp [opDefault], .cons (by norm_num [Stands]) .nil⟩⟩, _, hno, ht3''⟩,
      ⟨0, ⟨[], .inr ⟨t6, by simp [opDefault], .cons (by norm_num [Stands]) .nil⟩⟩, .inl ⟨rfl, rfl⟩⟩,
      ⟨0, ⟨[], .inr ⟨t7, by simp [opDefault], .cons (by norm_num [Stands]) .nil⟩⟩, .inl ⟨rfl, rfl⟩⟩,
      ⟨_, _, t2, ⟨0, rfl, by omega, rfl⟩, ⟨0, rfl, by omega, rfl⟩⟩,
      ⟨_, 41 * k + 17 + 2, ⟨_, .inl t3⟩, ⟨by omega, by push_cast; omega, by omega⟩, ⟨rfl, rfl⟩, ht3'⟩,
      ⟨_, 41 * k + 17 + 3, fds, ⟨_, .inl t4⟩, ⟨by omega, by push_cast; omega, by omega⟩, ⟨_, g2, ht2'⟩, ?_⟩, ?_⟩
    · rw [g1]; exact forall₂_replicate o1 d
    · exact forall₂_replicate r1 d
  refine ⟨⟨⟨1, 0, 4, 4⟩, noObjects, List.replicate k top, noObjects, noObjects, List.replicate k .standard,
    List.replicate k noObjects, List.replicate k .isoAdobe,
    List.replicate k (.characterIDKeyed ⟨0, 0, .integer 0, .format0 0 [], List.replicate d o, List.replicate d r⟩)⟩,
    ⟨hs5.1, ⟨4, _, _, _, _, tops, ⟨by omega, by rfl, by omega⟩, ⟨_, hno, hs5.2, rfl⟩, ⟨_, g4, ?_, rfl⟩, ⟨_, hno, ?_, rfl⟩,
      ⟨_, hno, ?_, rfl⟩, ?_⟩, by simp, by simp, by simp, by simp, ?_⟩, ?_⟩
  · exact hs4.2
  · have h := hs3.2
    simp only [List.length_append, ← Nat.add_assoc] at h
    exact h
  · have h := hs2.2
    simp only [List.length_append, ← Nat.add_assoc] at h
    exact h
  · rw [g3]; exact forall₂_replicate h1 k
  · intro i t hi
    rw [List.getElem?_replicate] at hi
    split at hi
    · rename_i hik
      cases hi
      exact ⟨_, _, _, _, by rw [List.getElem?_replicate, if_pos hik], by rw [List.getElem?_replicate, if_pos hik],
        by rw [List.getElem?_replicate, if_pos hik], by rw [List.getElem?_replicate, if_pos hik], hfont⟩
    · exact absurd hi (by simp)
  · have hw : weight r.subroutines = m := by unfold weight; rw [r2.2]; simp [priv]
    have h0 : weight noObjects = 0 := rfl
    simp only [held, locals, h0, List.map_replicate, List.sum_replicate, hw, smul_eq_mul]
    omega

end Bomb

open Bomb in
/-- **C77.**  Sharing makes a font set much larger than its file: with `k` fonts and `d`
font dictionaries that share one subroutine of `m` bytes, a file of `41 k + 15 d + m + 44`
bytes becomes a font set of `k d m` bytes. -/
theorem C77_amplified (cfg : Config) (hseek : 2 ^ 31 ≤ cfg.maxSeek) (k d m : Nat) (hk : 1 ≤ k) (hk' : k ≤ 65535)
    (hd : 1 ≤ d) (hd' : d ≤ 65535) (hm : m < 2 ^ 30) :
    ∃ data fs q, data.length = 41 * k + 15 * d + m + 44 ∧ FontSet.read (tape cfg data) 0 = (.ok fs, q) ∧
      held fs = k * (d * m) := by
  obtain ⟨fs, h1, h2⟩ := laidOut hk hk' hd hd' hm
  have hl := file_length hk hd m
  obtain ⟨q, h⟩ := C32_layout cfg _ (by omega) 0 (2 ^ 31) fs hseek (by omega) h1
  exact ⟨_, fs, q, hl, h, h2⟩

/-- **C77, negation.**  A font set may hold more bytes than its file has. -/
theorem C77_false : ¬ ∀ (cfg : Config) (data : List UInt8) (q : Nat) (fs : FontSet), data.length < 2 ^ 61 →
    FontSet.read (tape cfg data) 0 = (.ok fs, q) → held fs ≤ data.length := by
  intro h
  obtain ⟨data, fs, q, h1, h2, h3⟩ := C77_amplified fileBuild (by decide) 10 10 100 (by omega) (by omega) (by omega) (by omega)
    (by omega)
  have := h fileBuild data q fs (by omega) h2
  omega

/-- A file of three megabytes that holds four terabytes. -/
example : ∃ data fs q, data.length < 3700000 ∧ FontSet.read (tape fileBuild data) 0 = (.ok fs, q) ∧ 4 * 10 ^ 12 < held fs := by
  obtain ⟨data, fs, q, h1, h2, h3⟩ := C77_amplified fileBuild (by decide) 65535 65535 1000 (by omega) (by omega) (by omega)
    (by omega) (by omega)
  exact ⟨data, fs, q, by omega, h2, by omega⟩

end PS
