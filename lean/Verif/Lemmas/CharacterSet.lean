import Verif.Lemmas.Index
import Verif.Lemmas.Strings
import Verif.Spec.CharacterSet
/-!
# Lemmas about character sets and encodings
-/
namespace PS
open Spec

theorem Exact.ite {c : Prop} [Decidable c] {m n : Rd α} {R S : α → List UInt8 → Prop} (hm : c → Exact m R)
    (hn : ¬ c → Exact n S) : Exact (if c then m else n) (fun a bs => (c ∧ R a bs) ∨ (¬ c ∧ S a bs)) := by
  by_cases hc : c
  · rw [if_pos hc]
    exact (hm hc).congr (by simp [hc])
  · rw [if_neg hc]
    exact (hn hc).congr (by simp [hc])

/-! ## Character sets -/

namespace CharacterSet

theorem exact_range1 : Exact readRange1 (fun r bs => bs = be 2 r.firstStringID.toNat ++ [r.leftCount]) := by
  unfold readRange1
  refine Exact.congr (Exact.bind exact_u16 (fun f => Exact.bind exact_u8 (fun l => Exact.pure _))) ?_
  intro r bs
  constructor
  · rintro ⟨f, b1, _, rfl, rfl, l, b2, b3, rfl, rfl, rfl, rfl⟩
    simp
  · rintro rfl
    exact ⟨_, _, _, rfl, rfl, _, _, [], by simp, rfl, rfl, rfl⟩

theorem exact_range2 : Exact readRange2 (fun r bs => bs = be 2 r.firstStringID.toNat ++ be 2 r.leftCount.toNat) := by
  unfold readRange2
  refine Exact.congr (Exact.bind exact_u16 (fun f => Exact.bind exact_u16 (fun l => Exact.pure _))) ?_
  intro r bs
  constructor
  · rintro ⟨f, b1, _, rfl, rfl, l, b2, b3, rfl, rfl, rfl, rfl⟩
    simp
  · rintro rfl
    exact ⟨_, _, _, rfl, rfl, _, _, [], by simp, rfl, rfl, rfl⟩

/-- The sizes of ranges, one after another from `found` on, reach `count` at the
last one and end with `n`. -/
def Reach (count found : Nat) : List Nat → Nat → Prop
  | [], n => count ≤ found ∧ n = found
  | s :: l, n => found < count ∧ Reach count (found + s) l n

theorem reach_exact {count found : Nat} {l : List Nat} (hl : ∀ s ∈ l, 0 < s) :
    Reach count found l count ↔ found + l.sum = count := by
  induction l generalizing found with
  | nil => simp only [Reach, List.sum_nil]; omega
  | cons s l ih =>
    have h1 := hl s (by simp)
    simp only [Reach, List.sum_cons]
    rw [ih (fun s hs => hl s (by simp [hs]))]
    omega

theorem exact_ranges1 (fuel count found : Nat) (hf : count - found ≤ fuel) :
    Exact (readRanges1 fuel count found) (fun x bs =>
      Reach count found (x.2.map fun r => 1 + r.leftCount.toNat) x.1 ∧
      bs = x.2.flatMap fun r => be 2 r.firstStringID.toNat ++ [r.leftCount]) := by
  induction fuel generalizing found with
  | zero =>
    unfold readRanges1
    rw [if_neg (by omega)]
    refine Exact.congr (Exact.pure _) ?_
    rintro ⟨n, rs⟩ bs
    constructor
    · rintro ⟨h, rfl⟩
      obtain ⟨rfl, rfl⟩ := Prod.mk.inj h
      exact ⟨⟨by omega, rfl⟩, rfl⟩
    · rintro ⟨h1, rfl⟩
      rcases rs with _ | ⟨r, rs⟩
      · obtain ⟨-, rfl⟩ := h1
        exact ⟨rfl, rfl⟩
      · exact absurd h1.1 (by omega)
  | succ fuel ih =>
    unfold readRanges1
    by_cases hc : found < count
    · rw [if_pos hc]
      refine Exact.congr (Exact.bind exact_range1 (fun r =>
        Exact.bind (ih (found + (1 + r.leftCount.toNat)) (by omega)) (fun x => Exact.pure _))) ?_
      rintro ⟨n, rs⟩ bs
      constructor
      · rintro ⟨r, b1, _, rfl, rfl, x, b2, b3, rfl, ⟨h1, rfl⟩, h2, rfl⟩
        obtain ⟨rfl, rfl⟩ := Prod.mk.inj h2
        exact ⟨⟨hc, h1⟩, by simp⟩
      · rintro ⟨h1, rfl⟩
        rcases rs with _ | ⟨r, rs⟩
        · exact absurd h1.1 (by omega)
        · exact ⟨r, _, _, rfl, rfl, (n, rs), _, [], (List.append_nil _).symm, ⟨h1.2, rfl⟩, rfl, rfl⟩
    · rw [if_neg hc]
      refine Exact.congr (Exact.pure _) ?_
      rintro ⟨n, rs⟩ bs
      constructor
      · rintro ⟨h, rfl⟩
        obtain ⟨rfl, rfl⟩ := Prod.mk.inj h
        exact ⟨⟨by omega, rfl⟩, rfl⟩
      · rintro ⟨h1, rfl⟩
        rcases rs with _ | ⟨r, rs⟩
        · obtain ⟨-, rfl⟩ := h1
          exact ⟨rfl, rfl⟩
        · exact absurd h1.1 (by omega)

theorem exact_ranges2 (fuel count found : Nat) (hf : count - found ≤ fuel) :
    Exact (readRanges2 fuel count found) (fun x bs =>
      Reach count found (x.2.map fun r => 1 + r.leftCount.toNat) x.1 ∧
      bs = x.2.flatMap fun r => be 2 r.firstStringID.toNat ++ be 2 r.leftCount.toNat) := by
  induction fuel generalizing found with
  | zero =>
    unfold readRanges2
    rw [if_neg (by omega)]
    refine Exact.congr (Exact.pure _) ?_
    rintro ⟨n, rs⟩ bs
    constructor
    · rintro ⟨h, rfl⟩
      obtain ⟨rfl, rfl⟩ := Prod.mk.inj h
      exact ⟨⟨by omega, rfl⟩, rfl⟩
    · rintro ⟨h1, rfl⟩
      rcases rs with _ | ⟨r, rs⟩
      · obtain ⟨-, rfl⟩ := h1
        exact ⟨rfl, rfl⟩
      · exact absurd h1.1 (by omega)
  | succ fuel ih =>
    unfold readRanges2
    by_cases hc : found < count
    · rw [if_pos hc]
      refine Exact.congr (Exact.bind exact_range2 (fun r =>
        Exact.bind (ih (found + (1 + r.leftCount.toNat)) (by omega)) (fun x => Exact.pure _))) ?_
      rintro ⟨n, rs⟩ bs
      constructor
      · rintro ⟨r, b1, _, rfl, rfl, x, b2, b3, rfl, ⟨h1, rfl⟩, h2, rfl⟩
        obtain ⟨rfl, rfl⟩ := Prod.mk.inj h2
        exact ⟨⟨hc, h1⟩, by simp⟩
      · rintro ⟨h1, rfl⟩
        rcases rs with _ | ⟨r, rs⟩
        · exact absurd h1.1 (by omega)
        · exact ⟨r, _, _, rfl, rfl, (n, rs), _, [], (List.append_nil _).symm, ⟨h1.2, rfl⟩, rfl, rfl⟩
    · rw [if_neg hc]
      refine Exact.congr (Exact.pure _) ?_
      rintro ⟨n, rs⟩ bs
      constructor
      · rintro ⟨h, rfl⟩
        obtain ⟨rfl, rfl⟩ := Prod.mk.inj h
        exact ⟨⟨by omega, rfl⟩, rfl⟩
      · rintro ⟨h1, rfl⟩
        rcases rs with _ | ⟨r, rs⟩
        · obtain ⟨-, rfl⟩ := h1
          exact ⟨rfl, rfl⟩
        · exact absurd h1.1 (by omega)

theorem exact_read1 (count : Nat) : Exact (read1 count) (fun s bs => ∃ ranges, s = format1 1 ranges ∧
    1 + covered s = count ∧ bs = encodeCharacterSet s) := by
  unfold read1
  refine Exact.congr (Exact.bind exact_u8 (fun f => Exact.ite (fun _ => Exact.raise _) (fun _ =>
    Exact.bind (exact_ranges1 count count (0 + 1) (by omega)) (fun x =>
      Exact.ite (fun _ => Exact.raise _) (fun _ => Exact.pure _))))) ?_
  intro s bs
  constructor
  · rintro ⟨f, b1, _, rfl, rfl, ⟨-, h⟩ | ⟨hf, ⟨n, rs⟩, b2, b3, rfl, ⟨h1, rfl⟩, ⟨-, h⟩ | ⟨hn, rfl, rfl⟩⟩⟩
    · exact h.elim
    · exact h.elim
    · simp only [ne_eq, Decidable.not_not] at hf hn
      subst hf hn
      rw [reach_exact (by simp)] at h1
      exact ⟨rs, rfl, by simp only [covered]; omega, by simp [encodeCharacterSet]⟩
  · rintro ⟨rs, rfl, h1, rfl⟩
    refine ⟨1, [1], _, rfl, rfl, .inr ⟨by simp, (count, rs), _, [], (List.append_nil _).symm, ⟨?_, rfl⟩, .inr ⟨by simp, rfl, rfl⟩⟩⟩
    rw [reach_exact (by simp)]
    simp only [covered] at h1
    omega

theorem exact_read2 (count : Nat) : Exact (read2 count) (fun s bs => ∃ ranges, s = format2 2 ranges ∧
    1 + covered s = count ∧ bs = encodeCharacterSet s) := by
  unfold read2
  refine Exact.congr (Exact.bind exact_u8 (fun f => Exact.ite (fun _ => Exact.raise _) (fun _ =>
    Exact.bind (exact_ranges2 count count (0 + 1) (by omega)) (fun x =>
      Exact.ite (fun _ => Exact.raise _) (fun _ => Exact.pure _))))) ?_
  intro s bs
  constructor
  · rintro ⟨f, b1, _, rfl, rfl, ⟨-, h⟩ | ⟨hf, ⟨n, rs⟩, b2, b3, rfl, ⟨h1, rfl⟩, ⟨-, h⟩ | ⟨hn, rfl, rfl⟩⟩⟩
    · exact h.elim
    · exact h.elim
    · simp only [ne_eq, Decidable.not_not] at hf hn
      subst hf hn
      rw [reach_exact (by simp)] at h1
      exact ⟨rs, rfl, by simp only [covered]; omega, by simp [encodeCharacterSet]⟩
  · rintro ⟨rs, rfl, h1, rfl⟩
    refine ⟨2, [2], _, rfl, rfl, .inr ⟨by simp, (count, rs), _, [], (List.append_nil _).symm, ⟨?_, rfl⟩, .inr ⟨by simp, rfl, rfl⟩⟩⟩
    rw [reach_exact (by simp)]
    simp only [covered] at h1
    omega

/-- The glyphs of format 0 when the tape could hold them. -/
theorem replicate_ok_length {m : Rd α} {R : α → List UInt8 → Prop} (h : Exact m R) (hne : ∀ a bs, R a bs → bs ≠ [])
    {n : Nat} {env : Env} {p q : Nat} {as : List α} (hr : Rd.replicate n m env p = (.ok as, q)) :
    n ≤ env.data.length := by
  obtain ⟨bs, ⟨h1, h2⟩, h3, -⟩ := (exact_replicate h n _ _ _ _).mp hr
  have : as.length ≤ bs.length := by
    clear h1 h3 hr
    induction h2 with
    | nil => simp
    | cons hx _ ih =>
      rename_i a b as bs
      have := List.length_pos_iff.mpr (hne _ _ hx)
      simp
      omega
  have := h3.length_le
  simp at this
  omega

theorem exact_glyphs (count : Nat) : Exact (Rd.replicate count Rd.u16)
    (fun gs bs => gs.length = count ∧ bs = gs.flatMap fun g => be 2 g.toNat) :=
  (exact_replicate exact_u16 count).congr (fun _ _ => by rw [seq_fun_iff])

theorem exact_read0 (count : Nat) (h1 : 1 ≤ count) (h2 : count ≤ 2 ^ 62) :
    Exact (read0 count) (fun s bs => ∃ glyphs, s = format0 0 glyphs ∧
    1 + covered s = count ∧ bs = encodeCharacterSet s) := by
  unfold read0
  refine Exact.congr (Exact.bind exact_u8 (fun f => Exact.ite (fun _ => Exact.raise _) (fun _ =>
    Exact.cfg_bind (R := fun s bs => ∃ glyphs : List UInt16, s = format0 f glyphs ∧ glyphs.length = count - 1 ∧
      bs = glyphs.flatMap fun g => be 2 g.toNat) (fun c => ?_)))) ?_
  · rw [if_neg (by omega), if_neg (by omega)]
    refine Exact.congr (Exact.bind (exact_vec exact_u16 2 (count - 1) (by omega)) (fun gs => Exact.pure _)) ?_
    intro s bs
    constructor
    · rintro ⟨gs, b1, _, rfl, ⟨hl, hs⟩, rfl, rfl⟩
      exact ⟨gs, rfl, hl, by simpa [seq_fun_iff] using hs⟩
    · rintro ⟨gs, rfl, hl, rfl⟩
      exact ⟨gs, _, [], by simp, ⟨hl, seq_fun_iff.mpr rfl⟩, rfl, rfl⟩
  · intro s bs
    constructor
    · rintro ⟨f, b1, _, rfl, rfl, ⟨-, h⟩ | ⟨hf, gs, rfl, hl, rfl⟩⟩
      · exact h.elim
      · simp only [ne_eq, Decidable.not_not] at hf
        subst hf
        exact ⟨gs, rfl, by simp only [covered]; omega, rfl⟩
    · rintro ⟨gs, rfl, hl, rfl⟩
      simp only [covered] at hl
      exact ⟨0, [0], _, rfl, rfl, .inr ⟨by simp, gs, rfl, by omega, rfl⟩⟩

/-- Reading a character set, for glyph counts that do not overflow. -/
theorem exact_characterSet (count : Nat) (h1 : 1 ≤ count) (h2 : count ≤ 2 ^ 62) :
    Exact (read count) (fun s bs => Custom s ∧ 1 + covered s = count ∧ bs = encodeCharacterSet s) := by
  unfold read
  have key : ∀ b : UInt8, Exact (if b = 0 then read0 count else if b = 1 then read1 count
      else if b = 2 then read2 count else Rd.raise .unknownCharacterSetFormat)
      (fun s bs => (∃ l, bs = b :: l) ∧ Custom s ∧ 1 + covered s = count ∧ bs = encodeCharacterSet s) := by
    intro b
    by_cases h0 : b = 0
    · rw [if_pos h0]
      refine (exact_read0 count h1 h2).congr ?_
      intro s bs
      constructor
      · rintro ⟨gs, rfl, h, rfl⟩
        exact ⟨⟨_, by rw [h0]; rfl⟩, rfl, h, rfl⟩
      · rintro ⟨⟨l, hl⟩, hc, h, rfl⟩
        rcases s with _ | _ | _ | ⟨f, gs⟩ | ⟨f, gs⟩ | ⟨f, gs⟩ <;> try exact hc.elim
        · cases hc; exact ⟨gs, rfl, h, rfl⟩
        all_goals (subst h0; simp [encodeCharacterSet] at hl)
    rw [if_neg h0]
    by_cases h1 : b = 1
    · rw [if_pos h1]
      refine (exact_read1 count).congr ?_
      intro s bs
      constructor
      · rintro ⟨gs, rfl, h, rfl⟩
        exact ⟨⟨_, by rw [h1]; rfl⟩, rfl, h, rfl⟩
      · rintro ⟨⟨l, hl⟩, hc, h, rfl⟩
        rcases s with _ | _ | _ | ⟨f, gs⟩ | ⟨f, gs⟩ | ⟨f, gs⟩ <;> try exact hc.elim
        rotate_left
        · cases hc; exact ⟨gs, rfl, h, rfl⟩
        all_goals (subst h1; simp [encodeCharacterSet] at hl)
    rw [if_neg h1]
    by_cases h2 : b = 2
    · rw [if_pos h2]
      refine (exact_read2 count).congr ?_
      intro s bs
      constructor
      · rintro ⟨gs, rfl, h, rfl⟩
        exact ⟨⟨_, by rw [h2]; rfl⟩, rfl, h, rfl⟩
      · rintro ⟨⟨l, hl⟩, hc, h, rfl⟩
        rcases s with _ | _ | _ | ⟨f, gs⟩ | ⟨f, gs⟩ | ⟨f, gs⟩ <;> try exact hc.elim
        rotate_left 2
        · cases hc; exact ⟨gs, rfl, h, rfl⟩
        all_goals (subst h2; simp [encodeCharacterSet] at hl)
    rw [if_neg h2]
    refine (Exact.raise _).congr ?_
    intro s bs
    simp only [false_iff]
    rintro ⟨⟨l, hl⟩, hc, h, rfl⟩
    rcases s with _ | _ | _ | ⟨f, gs⟩ | ⟨f, gs⟩ | ⟨f, gs⟩ <;> try exact hc.elim
    · exact h0 (List.cons.inj hl).1.symm
    · exact h1 (List.cons.inj hl).1.symm
    · exact h2 (List.cons.inj hl).1.symm
  refine (exact_peek_u8 key (fun _ _ _ h => h.1)).congr ?_
  intro s bs
  constructor
  · rintro ⟨b, -, h⟩
    exact h
  · rintro ⟨hc, h, rfl⟩
    rcases s with _ | _ | _ | ⟨f, gs⟩ | ⟨f, gs⟩ | ⟨f, gs⟩ <;> try exact hc.elim
    · exact ⟨0, ⟨_, rfl⟩, hc, h, rfl⟩
    · exact ⟨1, ⟨_, rfl⟩, hc, h, rfl⟩
    · exact ⟨2, ⟨_, rfl⟩, hc, h, rfl⟩

/-! ### Failures -/

/-- The errors of reading a character set. -/
def SetErr (e : Err) : Prop :=
  e = .eof ∨ e = .raised .malformedCharacterSet ∨ e = .raised .unknownCharacterSetFormat

theorem errs_ranges1 (fuel count found : Nat) : Errs (readRanges1 fuel count found) SetErr := by
  have he : SetErr .eof := .inl rfl
  induction fuel generalizing found with
  | zero => unfold readRanges1; errs []
  | succ fuel ih => unfold readRanges1 readRange1; errs [ih]

theorem errs_ranges2 (fuel count found : Nat) : Errs (readRanges2 fuel count found) SetErr := by
  have he : SetErr .eof := .inl rfl
  induction fuel generalizing found with
  | zero => unfold readRanges2; errs []
  | succ fuel ih => unfold readRanges2 readRange2; errs [ih]

theorem errs_characterSet (count : Nat) : Errs (read count) SetErr := by
  have he : SetErr .eof := .inl rfl
  have h1 : SetErr (.raised .malformedCharacterSet) := .inr (.inl rfl)
  have h2 : SetErr (.raised .unknownCharacterSetFormat) := .inr (.inr rfl)
  unfold read read0 read1 read2
  errs [errs_ranges1 _ _ _, errs_ranges2 _ _ _]

theorem noPanic_ranges1 (fuel count found : Nat) (hf : count - found ≤ fuel) : NoPanic (readRanges1 fuel count found) := by
  induction fuel generalizing found with
  | zero => unfold readRanges1; rw [if_neg (by omega)]; exact NoPanic.pure _
  | succ fuel ih =>
    unfold readRanges1 readRange1
    refine NoPanic.ite (fun hc => ?_) (fun _ => NoPanic.pure _)
    refine NoPanic.bind ?_ (fun r => NoPanic.bind (ih _ (by omega)) (fun _ => NoPanic.pure _))
    nopanic []

theorem noPanic_ranges2 (fuel count found : Nat) (hf : count - found ≤ fuel) : NoPanic (readRanges2 fuel count found) := by
  induction fuel generalizing found with
  | zero => unfold readRanges2; rw [if_neg (by omega)]; exact NoPanic.pure _
  | succ fuel ih =>
    unfold readRanges2 readRange2
    refine NoPanic.ite (fun hc => ?_) (fun _ => NoPanic.pure _)
    refine NoPanic.bind ?_ (fun r => NoPanic.bind (ih _ (by omega)) (fun _ => NoPanic.pure _))
    nopanic []

theorem noPanic_read1 (count : Nat) : NoPanic (read1 count) := by
  unfold read1
  nopanic [noPanic_ranges1 _ _ _ (by omega)]

theorem noPanic_read2 (count : Nat) : NoPanic (read2 count) := by
  unfold read2
  nopanic [noPanic_ranges2 _ _ _ (by omega)]

theorem noPanic_read0 (count : Nat) (h1 : 1 ≤ count) (h2 : count ≤ 2 ^ 62) : NoPanic (read0 count) := by
  unfold read0
  refine NoPanic.bind NoPanic.u8 (fun _ => NoPanic.ite (fun _ => NoPanic.raise _) (fun _ =>
    NoPanic.bind NoPanic.cfg (fun c => ?_)))
  rw [if_neg (by omega), if_neg (by omega)]
  exact NoPanic.bind (NoPanic.vec NoPanic.u16 _ _ (by omega)) (fun _ => NoPanic.pure _)

theorem noPanic_characterSet (count : Nat) (h1 : 1 ≤ count) (h2 : count ≤ 2 ^ 62) : NoPanic (read count) := by
  unfold read
  nopanic [noPanic_read0 _ h1 h2, noPanic_read1 _, noPanic_read2 _]

end CharacterSet
end PS
