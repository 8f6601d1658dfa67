import Verif.Model.Strings
import Verif.Spec.Strings
import Mathlib.Tactic.NormNum
/-!
# Lemmas about UTF-8
-/
namespace PS
open Spec
namespace Utf8

theorem isCont_iff {b : UInt8} : isCont b = true ↔ 128 ≤ b.toNat ∧ b.toNat ≤ 191 := by
  unfold isCont
  simp only [Bool.and_eq_true, decide_eq_true_eq, UInt8.le_iff_toNat_le]
  exact Iff.rfl

theorem second3_iff {a b : UInt8} : second3 a b = true ↔
    (a.toNat = 224 ∧ 160 ≤ b.toNat ∧ b.toNat ≤ 191) ∨ (225 ≤ a.toNat ∧ a.toNat ≤ 236 ∧ 128 ≤ b.toNat ∧ b.toNat ≤ 191) ∨
    (a.toNat = 237 ∧ 128 ≤ b.toNat ∧ b.toNat ≤ 159) ∨ (238 ≤ a.toNat ∧ a.toNat ≤ 239 ∧ 128 ≤ b.toNat ∧ b.toNat ≤ 191) := by
  unfold second3
  simp only [Bool.and_eq_true, Bool.or_eq_true, beq_iff_eq, decide_eq_true_eq, UInt8.le_iff_toNat_le, ← UInt8.toNat_inj,
    or_assoc, and_assoc]
  exact Iff.rfl

theorem second4_iff {a b : UInt8} : second4 a b = true ↔
    (a.toNat = 240 ∧ 144 ≤ b.toNat ∧ b.toNat ≤ 191) ∨ (241 ≤ a.toNat ∧ a.toNat ≤ 243 ∧ 128 ≤ b.toNat ∧ b.toNat ≤ 191) ∨
    (a.toNat = 244 ∧ 128 ≤ b.toNat ∧ b.toNat ≤ 143) := by
  unfold second4
  simp only [Bool.and_eq_true, Bool.or_eq_true, beq_iff_eq, decide_eq_true_eq, UInt8.le_iff_toNat_le, ← UInt8.toNat_inj,
    or_assoc, and_assoc]
  exact Iff.rfl

theorem range_iff {a lo hi : UInt8} : (lo ≤ a && a ≤ hi) = true ↔ lo.toNat ≤ a.toNat ∧ a.toNat ≤ hi.toNat := by
  simp only [Bool.and_eq_true, decide_eq_true_eq, UInt8.le_iff_toNat_le]

theorem char_toNat {n : Nat} (h : n < 0xd800 ∨ (0xdfff < n ∧ n < 0x110000)) : (Char.ofNat n).toNat = n := by
  rw [Char.ofNat, dif_pos h]
  rfl

theorem ofNat_byte {a : UInt8} {n : Nat} (h : n = a.toNat) : UInt8.ofNat n = a := by
  subst h
  exact UInt8.ofNat_toNat

theorem enc_unfold (c : Char) : String.utf8EncodeChar c =
    if c.toNat ≤ 127 then [UInt8.ofNat c.toNat]
    else if c.toNat ≤ 2047 then [UInt8.ofNat (c.toNat / 64 % 32 + 192), UInt8.ofNat (c.toNat % 64 + 128)]
    else if c.toNat ≤ 65535 then [UInt8.ofNat (c.toNat / 4096 % 16 + 224), UInt8.ofNat (c.toNat / 64 % 64 + 128),
      UInt8.ofNat (c.toNat % 64 + 128)]
    else [UInt8.ofNat (c.toNat / 262144 % 8 + 240), UInt8.ofNat (c.toNat / 4096 % 64 + 128),
      UInt8.ofNat (c.toNat / 64 % 64 + 128), UInt8.ofNat (c.toNat % 64 + 128)] := rfl

theorem enc1 {a : UInt8} (h : a.toNat < 128) : String.utf8EncodeChar (Char.ofNat a.toNat) = [a] := by
  rw [enc_unfold, char_toNat (by omega), if_pos (by omega), UInt8.ofNat_toNat]

theorem enc2 {a b : UInt8} (h1 : 194 ≤ a.toNat) (h2 : a.toNat ≤ 223) (hb : isCont b = true) :
    String.utf8EncodeChar (char2 a b) = [a, b] := by
  rw [isCont_iff] at hb
  unfold char2
  rw [enc_unfold, char_toNat (by omega), if_neg (by omega), if_pos (by omega)]
  congr 1
  · exact ofNat_byte (by omega)
  · congr 1; exact ofNat_byte (by omega)

theorem enc3 {a b c : UInt8} (h : second3 a b = true) (hc : isCont c = true) :
    String.utf8EncodeChar (char3 a b c) = [a, b, c] := by
  rw [isCont_iff] at hc
  rw [second3_iff] at h
  unfold char3
  rw [enc_unfold, char_toNat (by omega), if_neg (by omega), if_neg (by omega), if_pos (by omega)]
  congr 1
  · exact ofNat_byte (by omega)
  congr 1
  · exact ofNat_byte (by omega)
  congr 1
  exact ofNat_byte (by omega)

theorem enc4 {a b c d : UInt8} (h : second4 a b = true) (hc : isCont c = true) (hd : isCont d = true) :
    String.utf8EncodeChar (char4 a b c d) = [a, b, c, d] := by
  rw [isCont_iff] at hc hd
  rw [second4_iff] at h
  unfold char4
  rw [enc_unfold, char_toNat (by omega), if_neg (by omega), if_neg (by omega), if_neg (by omega)]
  congr 1
  · exact ofNat_byte (by omega)
  congr 1
  · exact ofNat_byte (by omega)
  congr 1
  · exact ofNat_byte (by omega)
  congr 1
  exact ofNat_byte (by omega)

theorem toNat_ofNat8 {n : Nat} (h : n < 256) : (UInt8.ofNat n).toNat = n :=
  UInt8.toNat_ofNat_of_lt' h

theorem char_valid (c : Char) : c.toNat < 0xd800 ∨ (0xdfff < c.toNat ∧ c.toNat < 0x110000) := c.valid

/-- The four shapes of an encoded character. -/
theorem enc_cases (c : Char) :
    (∃ a, String.utf8EncodeChar c = [a] ∧ a.toNat < 128 ∧ c = Char.ofNat a.toNat) ∨
    (∃ a b, String.utf8EncodeChar c = [a, b] ∧ 194 ≤ a.toNat ∧ a.toNat ≤ 223 ∧ isCont b = true ∧ c = char2 a b) ∨
    (∃ a b d, String.utf8EncodeChar c = [a, b, d] ∧ second3 a b = true ∧ isCont d = true ∧ c = char3 a b d) ∨
    (∃ a b d e, String.utf8EncodeChar c = [a, b, d, e] ∧ second4 a b = true ∧ isCont d = true ∧ isCont e = true ∧
      c = char4 a b d e) := by
  have hv := char_valid c
  rw [enc_unfold]
  by_cases h1 : c.toNat ≤ 127
  · rw [if_pos h1]
    refine .inl ⟨_, rfl, ?_, ?_⟩
    · rw [toNat_ofNat8 (by omega)]; omega
    · rw [toNat_ofNat8 (by omega), Char.ofNat_toNat]
  rw [if_neg h1]
  by_cases h2 : c.toNat ≤ 2047
  · rw [if_pos h2]
    refine .inr (.inl ⟨_, _, rfl, ?_, ?_, ?_, ?_⟩)
    · rw [toNat_ofNat8 (by omega)]; omega
    · rw [toNat_ofNat8 (by omega)]; omega
    · rw [isCont_iff, toNat_ofNat8 (by omega)]; omega
    · unfold char2
      rw [toNat_ofNat8 (by omega), toNat_ofNat8 (by omega)]
      conv => lhs; rw [← Char.ofNat_toNat c]
      congr 1
      omega
  rw [if_neg h2]
  by_cases h3 : c.toNat ≤ 65535
  · rw [if_pos h3]
    refine .inr (.inr (.inl ⟨_, _, _, rfl, ?_, ?_, ?_⟩))
    · rw [second3_iff, toNat_ofNat8 (by omega), toNat_ofNat8 (by omega)]; omega
    · rw [isCont_iff, toNat_ofNat8 (by omega)]; omega
    · unfold char3
      rw [toNat_ofNat8 (by omega), toNat_ofNat8 (by omega), toNat_ofNat8 (by omega)]
      conv => lhs; rw [← Char.ofNat_toNat c]
      congr 1
      omega
  rw [if_neg h3]
  refine .inr (.inr (.inr ⟨_, _, _, _, rfl, ?_, ?_, ?_, ?_⟩))
  · rw [second4_iff, toNat_ofNat8 (by omega), toNat_ofNat8 (by omega)]; omega
  · rw [isCont_iff, toNat_ofNat8 (by omega)]; omega
  · rw [isCont_iff, toNat_ofNat8 (by omega)]; omega
  · unfold char4
    rw [toNat_ofNat8 (by omega), toNat_ofNat8 (by omega), toNat_ofNat8 (by omega), toNat_ofNat8 (by omega)]
    conv => lhs; rw [← Char.ofNat_toNat c]
    congr 1
    omega

/-! ## One step -/

theorem lt80_iff {a : UInt8} : a < 0x80 ↔ a.toNat < 128 := UInt8.lt_iff_toNat_lt

theorem step_enc {c : Char} {a : UInt8} {tl rest : List UInt8} (h : String.utf8EncodeChar c = a :: tl) :
    step a (tl ++ rest) = (some c, tl.length) := by
  unfold step
  simp only [lt80_iff, range_iff]
  rcases enc_cases c with ⟨x, h1, h2, h3⟩ | ⟨x, y, h1, h2, h3, h4, h5⟩ | ⟨x, y, z, h1, h2, h3, h4⟩ |
      ⟨x, y, z, w, h1, h2, h3, h4, h5⟩ <;> rw [h1] at h <;> obtain ⟨rfl, rfl⟩ := List.cons.inj h
  · rw [if_pos h2, ← h3]; rfl
  · rw [if_neg (by omega), if_pos ⟨h2, h3⟩]
    simp [h4, h5]
  · have := second3_iff.mp h2
    rw [if_neg (by omega), if_neg (by simp; omega), if_pos (by simp; omega)]
    simp [h2, h3, h4]
  · have := second4_iff.mp h2
    rw [if_neg (by omega), if_neg (by simp; omega), if_neg (by simp; omega), if_pos (by simp; omega)]
    simp [h2, h3, h4, h5]

theorem step_some {c : Char} {a : UInt8} {r : List UInt8} {k : Nat} (h : step a r = (some c, k)) :
    String.utf8EncodeChar c = a :: r.take k := by
  unfold step at h
  simp only [lt80_iff, range_iff] at h
  split at h
  · rename_i h1
    simp at h
    obtain ⟨rfl, rfl⟩ := h
    exact enc1 h1
  split at h
  · rename_i h1
    split at h
    · split at h <;> simp at h
      rename_i hb
      obtain ⟨rfl, rfl⟩ := h
      exact enc2 h1.1 h1.2 hb
    · simp at h
  split at h
  · split at h
    · split at h
      · rename_i h2
        split at h
        · split at h <;> simp at h
          rename_i h3
          obtain ⟨rfl, rfl⟩ := h
          exact enc3 h2 h3
        · simp at h
      · simp at h
    · simp at h
  split at h
  · split at h
    · split at h
      · rename_i h2
        split at h
        · split at h
          · rename_i h3
            split at h
            · split at h <;> simp at h
              rename_i h4
              obtain ⟨rfl, rfl⟩ := h
              exact enc4 h2 h3 h4
            · simp at h
          · simp at h
        · simp at h
      · simp at h
    · simp at h
  · simp at h

theorem exists_second3 {a : UInt8} (h1 : 224 ≤ a.toNat) (h2 : a.toNat ≤ 239) : ∃ b, second3 a b = true := by
  by_cases h : a.toNat = 224
  · exact ⟨160, second3_iff.mpr (by simp; omega)⟩
  · exact ⟨128, second3_iff.mpr (by simp; omega)⟩

theorem exists_second4 {a : UInt8} (h1 : 240 ≤ a.toNat) (h2 : a.toNat ≤ 244) : ∃ b, second4 a b = true := by
  by_cases h : a.toNat = 240
  · exact ⟨144, second4_iff.mpr (by simp; omega)⟩
  · exact ⟨128, second4_iff.mpr (by simp; omega)⟩

theorem cont80 : isCont 128 = true := by decide

theorem beginning_one {a : UInt8} (h1 : 194 ≤ a.toNat) (h2 : a.toNat ≤ 244) : Beginning [a] := by
  by_cases h : a.toNat ≤ 223
  · exact ⟨_, by rw [enc2 h1 h cont80]; exact ⟨[128], rfl⟩, by rw [enc2 h1 h cont80]; simp⟩
  by_cases h' : a.toNat ≤ 239
  · obtain ⟨b, hb⟩ := exists_second3 (a := a) (by omega) h'
    exact ⟨_, by rw [enc3 hb cont80]; exact ⟨[b, 128], rfl⟩, by rw [enc3 hb cont80]; simp⟩
  · obtain ⟨b, hb⟩ := exists_second4 (a := a) (by omega) h2
    exact ⟨_, by rw [enc4 hb cont80 cont80]; exact ⟨[b, 128, 128], rfl⟩, by rw [enc4 hb cont80 cont80]; simp⟩

theorem beginning_two {a b : UInt8} (h : second3 a b = true ∨ second4 a b = true) : Beginning [a, b] := by
  rcases h with h | h
  · exact ⟨_, by rw [enc3 h cont80]; exact ⟨[128], rfl⟩, by rw [enc3 h cont80]; simp⟩
  · exact ⟨_, by rw [enc4 h cont80 cont80]; exact ⟨[128, 128], rfl⟩, by rw [enc4 h cont80 cont80]; simp⟩

theorem beginning_three {a b c : UInt8} (h : second4 a b = true) (hc : isCont c = true) : Beginning [a, b, c] :=
  ⟨_, by rw [enc4 h hc cont80]; exact ⟨[128], rfl⟩, by rw [enc4 h hc cont80]; simp⟩

/-- What a beginning of two bytes or more looks like. -/
theorem beginning_cases {a b : UInt8} {l : List UInt8} (h : Beginning (a :: b :: l)) :
    (second3 a b = true ∧ l = []) ∨
    (second4 a b = true ∧ (l = [] ∨ ∃ c, l = [c] ∧ isCont c = true)) := by
  obtain ⟨c, hp, hn⟩ := h
  rcases enc_cases c with ⟨x, h1, h2, h3⟩ | ⟨x, y, h1, h2, h3, h4, h5⟩ | ⟨x, y, z, h1, h2, h3, h4⟩ |
      ⟨x, y, z, w, h1, h2, h3, h4, h5⟩ <;> rw [h1] at hp hn
  · have := hp.length_le
    simp at this
  · obtain ⟨t, ht⟩ := hp
    simp at ht
    obtain ⟨rfl, rfl, rfl, rfl⟩ := ht
    exact absurd rfl hn
  · obtain ⟨t, ht⟩ := hp
    simp at ht
    obtain ⟨rfl, rfl, ht⟩ := ht
    rcases l with _ | ⟨e, l⟩
    · exact .inl ⟨h2, rfl⟩
    · simp at ht
      obtain ⟨rfl, rfl, rfl⟩ := ht
      exact absurd rfl hn
  · obtain ⟨t, ht⟩ := hp
    simp at ht
    obtain ⟨rfl, rfl, ht⟩ := ht
    rcases l with _ | ⟨e, _ | ⟨f, l⟩⟩
    · exact .inr ⟨h2, .inl rfl⟩
    · simp at ht
      obtain ⟨rfl, ht⟩ := ht
      exact .inr ⟨h2, .inr ⟨_, rfl, h3⟩⟩
    · simp at ht
      obtain ⟨rfl, rfl, rfl, rfl⟩ := ht
      exact absurd rfl hn

theorem prefix_cases {α : Type} {a : α} {l r : List α} (h : l <+: a :: r) : l = [] ∨ l = [a] ∨
    ∃ b l' r', l = a :: b :: l' ∧ r = b :: r' ∧ l' <+: r' := by
  obtain ⟨t, ht⟩ := h
  rcases l with _ | ⟨x, _ | ⟨y, l⟩⟩
  · exact .inl rfl
  · simp at ht
    exact .inr (.inl (by rw [ht.1]))
  · simp at ht
    obtain ⟨rfl, rfl⟩ := ht
    exact .inr (.inr ⟨y, l, l ++ t, rfl, rfl, ⟨t, rfl⟩⟩)

theorem second3_second4 {a b : UInt8} (h : second3 a b = true) : ¬ second4 a b = true := by
  rw [second4_iff]
  rw [second3_iff] at h
  omega

theorem step_none {a : UInt8} {r : List UInt8} {k : Nat} (h : step a r = (none, k)) :
    Subpart (a :: r.take k) (r.drop k) := by
  have happ : (a :: r.take k) ++ r.drop k = a :: r := by simp
  refine ⟨by simp, ?_, ?_, ?_⟩
  · rw [happ]
    rintro c ⟨t, ht⟩
    have hne : String.utf8EncodeChar c ≠ [] := String.utf8EncodeChar_ne_nil
    rcases he : String.utf8EncodeChar c with _ | ⟨x, tl⟩
    · exact hne he
    · rw [he] at ht
      simp at ht
      obtain ⟨rfl, rfl⟩ := ht
      rw [step_enc he] at h
      simp at h
  · unfold step at h
    simp only [lt80_iff, range_iff] at h
    split at h
    · simp at h
    split at h
    · split at h
      · split at h <;> simp at h
        subst h
        exact .inr rfl
      · simp at h
        subst h
        exact .inr rfl
    split at h
    · split at h
      · split at h
        · rename_i h2
          split at h
          · split at h <;> simp at h
            subst h
            exact .inl (beginning_two (.inl h2))
          · simp at h
            subst h
            exact .inl (beginning_two (.inl h2))
        · simp at h
          subst h
          exact .inr rfl
      · simp at h
        subst h
        exact .inr rfl
    split at h
    · split at h
      · split at h
        · rename_i h2
          split at h
          · split at h
            · rename_i h3
              split at h
              · split at h <;> simp at h
                subst h
                exact .inl (beginning_three h2 h3)
              · simp at h
                subst h
                exact .inl (beginning_three h2 h3)
            · simp at h
              subst h
              exact .inl (beginning_two (.inr h2))
          · simp at h
            subst h
            exact .inl (beginning_two (.inr h2))
        · simp at h
          subst h
          exact .inr rfl
      · simp at h
        subst h
        exact .inr rfl
    · simp at h
      subst h
      exact .inr rfl
  · rw [happ]
    intro longer hp hb
    rcases prefix_cases hp with rfl | rfl | ⟨b, l', r', rfl, rfl, hp'⟩
    · simp
    · simp
    · rcases beginning_cases hb with ⟨h2, rfl⟩ | ⟨h2, rfl | ⟨c, rfl, hc⟩⟩
      · have h3 := second3_iff.mp h2
        unfold step at h
        simp only [lt80_iff, range_iff] at h
        rw [if_neg (by omega), if_neg (by simp; omega), if_pos (by simp; omega)] at h
        simp only [h2, if_true] at h
        split at h
        · split at h <;> simp at h
          subst h
          simp
        · simp at h
          subst h
          simp
      · have h3 := second4_iff.mp h2
        unfold step at h
        simp only [lt80_iff, range_iff] at h
        rw [if_neg (by omega), if_neg (by simp; omega), if_neg (by simp; omega), if_pos (by simp; omega)] at h
        simp only [h2, if_true] at h
        split at h
        · split at h
          · split at h
            · split at h <;> simp at h
              subst h
              simp
            · simp at h
              subst h
              simp
          · simp at h
            subst h
            simp
        · simp at h
          subst h
          simp
      · have h3 := second4_iff.mp h2
        obtain ⟨t, rfl⟩ := hp'
        unfold step at h
        simp only [lt80_iff, range_iff] at h
        rw [if_neg (by omega), if_neg (by simp; omega), if_neg (by simp; omega), if_pos (by simp; omega)] at h
        simp only [h2, if_true, List.cons_append, hc, List.nil_append] at h
        split at h
        · split at h <;> simp at h
          subst h
          simp
        · simp at h
          subst h
          simp

/-! ## Whole texts -/

theorem chunks_cons (a : UInt8) (r : List UInt8) :
    chunks (a :: r) = (step a r).1 :: chunks (r.drop (step a r).2) := by
  rw [chunks]

theorem chunks_enc (text : List Char) : chunks (text.flatMap String.utf8EncodeChar) = text.map some := by
  induction text with
  | nil => rw [List.flatMap_nil, chunks]; rfl
  | cons c text ih =>
    rcases he : String.utf8EncodeChar c with _ | ⟨a, tl⟩
    · exact absurd he String.utf8EncodeChar_ne_nil
    · rw [List.flatMap_cons, he, List.cons_append, chunks_cons, step_enc he]
      simp [ih]

theorem chunks_decodes (n : Nat) (bs : List UInt8) (h : bs.length ≤ n) :
    Decodes bs ((chunks bs).map fun c => c.getD '�') := by
  induction n generalizing bs with
  | zero =>
    obtain rfl : bs = [] := List.length_eq_zero_iff.mp (by omega)
    rw [chunks]
    exact .nil
  | succ n ih =>
    rcases bs with _ | ⟨a, r⟩
    · rw [chunks]
      exact .nil
    · rw [chunks_cons]
      have hl : (r.drop (step a r).2).length ≤ n := by
        simp at h ⊢
        omega
      have := ih _ hl
      rcases hs : step a r with ⟨_ | c, k⟩
      · rw [hs] at this
        have h2 := Decodes.invalid (step_none hs) this
        simp only [List.cons_append, List.take_append_drop] at h2
        exact h2
      · rw [hs] at this
        have h2 := Decodes.char c this
        rw [step_some hs] at h2
        simp only [List.cons_append, List.take_append_drop] at h2
        exact h2

theorem chunks_all_some (n : Nat) (bs : List UInt8) (h : bs.length ≤ n) (ha : (chunks bs).all Option.isSome = true) :
    bs = ((chunks bs).filterMap id).flatMap String.utf8EncodeChar := by
  induction n generalizing bs with
  | zero =>
    obtain rfl : bs = [] := List.length_eq_zero_iff.mp (by omega)
    rw [chunks]
    rfl
  | succ n ih =>
    rcases bs with _ | ⟨a, r⟩
    · rw [chunks]
      rfl
    · rw [chunks_cons] at ha ⊢
      have hl : (r.drop (step a r).2).length ≤ n := by
        simp at h ⊢
        omega
      rcases hs : step a r with ⟨_ | c, k⟩
      · rw [hs] at ha
        simp at ha
      · rw [hs] at ha hl
        simp only [List.all_cons, Option.isSome_some, Bool.true_and] at ha
        have := ih _ hl ha
        simp only [List.filterMap_cons, id, List.flatMap_cons, step_some hs, List.cons_append]
        rw [← this, List.take_append_drop]

theorem subpart_length {s1 r1 s2 r2 : List UInt8} (h1 : Subpart s1 r1) (h2 : Subpart s2 r2) (h : s1 ++ r1 = s2 ++ r2) :
    s1.length ≤ s2.length := by
  rcases h1.2.2.1 with hb | hl
  · exact h2.2.2.2 s1 ⟨r1, h⟩ hb
  · rw [hl]
    exact List.length_pos_iff.mpr h2.1

theorem decodes_unique {bs : List UInt8} {text : List Char} (h : Decodes bs text) :
    text = (chunks bs).map fun c => c.getD '�' := by
  induction h with
  | nil => rw [chunks]; rfl
  | char c _ ih =>
    rename_i bs text
    rcases he : String.utf8EncodeChar c with _ | ⟨a, tl⟩
    · exact absurd he String.utf8EncodeChar_ne_nil
    · rw [List.cons_append, chunks_cons, step_enc he]
      simp [ih]
  | invalid hs hdec ih =>
    rename_i sub rest text
    rcases hsub : sub with _ | ⟨a, tl⟩
    · exact absurd hsub hs.1
    · subst hsub
      rcases hst : step a (tl ++ rest) with ⟨_ | c, k⟩
      · have hn := step_none hst
        have happ : a :: (tl ++ rest).take k ++ (tl ++ rest).drop k = a :: tl ++ rest := by simp
        have l1 := subpart_length hs hn happ.symm
        have l2 := subpart_length hn hs happ
        have hd : (tl ++ rest).drop k = rest := by
          have : ((tl ++ rest).take k).length = tl.length := by
            rw [List.length_cons, List.length_cons] at l1 l2
            omega
          have h3 : (tl ++ rest).take k ++ (tl ++ rest).drop k = tl ++ rest := List.take_append_drop _ _
          exact (List.append_inj h3 this).2
        rw [List.cons_append, chunks_cons, hst]
        simp only [List.map_cons, Option.getD_none, hd, ← ih]
      · have := step_some hst
        exact absurd ⟨(tl ++ rest).drop k, by rw [this]; simp⟩ (hs.2.1 c)

end Utf8
end PS
