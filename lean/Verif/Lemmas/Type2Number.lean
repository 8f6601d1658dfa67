import Verif.Lemmas.Number
import Verif.Lemmas.F32
import Verif.Lemmas.Dict
import Verif.Spec.Program
/-!
# Lemmas: operands of Type 2 programs
-/
namespace PS.Type2
open PS.Spec hiding Operand Operation
open PS.Type2.Spec (Operand)

/-- The integer and fixed-point forms, in terms of the conversions. -/
theorem operand_iff {x : F32} {bs : List UInt8} : Operand x bs ↔
    (∃ i, ShortInt i bs ∧ x = F32.ofInt i) ∨
    (∃ i, -2147483648 ≤ i ∧ i ≤ 2147483647 ∧ bs = 255 :: beSigned 4 i ∧ x = F32.ofFixed i) := by
  constructor
  · rintro (⟨h, hn⟩ | ⟨i, h1, h2, hn⟩)
    · exact .inl ⟨_, h, hn.unique (ofInt_nearest _)⟩
    · exact .inr ⟨i, h1, h2, rfl, hn.unique (ofFixed_nearest _)⟩
  · rintro (⟨i, h, rfl⟩ | ⟨i, h1, h2, rfl, rfl⟩)
    · exact .int h (ofInt_nearest i)
    · exact .fixed i h1 h2 (ofFixed_nearest i)

theorem exact_readNumber : Exact readNumber Operand := by
  have h : Exact readNumber (fun x bs => ∃ (b0 : UInt8) (b1 b2 : List UInt8), bs = b1 ++ b2 ∧ b1 = [b0] ∧
      ((32 ≤ b0.toNat ∧ b0.toNat ≤ 246 ∧ x = F32.ofInt (b0.toNat - 139) ∧ b2 = []) ∨
       (247 ≤ b0.toNat ∧ b0.toNat ≤ 250 ∧ ∃ c : UInt8, x = F32.ofInt (((b0.toNat : Int) - 247) * 256 + c.toNat + 108) ∧ b2 = [c]) ∨
       (251 ≤ b0.toNat ∧ b0.toNat ≤ 254 ∧ ∃ c : UInt8, x = F32.ofInt (-((b0.toNat : Int) - 251) * 256 - c.toNat - 108) ∧ b2 = [c]) ∨
       (b0 = 0x1c ∧ ∃ w : UInt16, x = F32.ofInt (toS 16 w.toNat) ∧ b2 = be 2 w.toNat) ∨
       (b0 = 0xff ∧ ∃ w : UInt32, x = F32.ofFixed (toS 32 w.toNat) ∧ b2 = be 4 w.toNat))) := by
    unfold readNumber
    refine Exact.bind (R := fun b bs => bs = [b]) (S := fun (b0 : UInt8) (x : F32) (b2 : List UInt8) =>
      ((32 ≤ b0.toNat ∧ b0.toNat ≤ 246 ∧ x = F32.ofInt (b0.toNat - 139) ∧ b2 = []) ∨
       (247 ≤ b0.toNat ∧ b0.toNat ≤ 250 ∧ ∃ c : UInt8, x = F32.ofInt (((b0.toNat : Int) - 247) * 256 + c.toNat + 108) ∧ b2 = [c]) ∨
       (251 ≤ b0.toNat ∧ b0.toNat ≤ 254 ∧ ∃ c : UInt8, x = F32.ofInt (-((b0.toNat : Int) - 251) * 256 - c.toNat - 108) ∧ b2 = [c]) ∨
       (b0 = 0x1c ∧ ∃ w : UInt16, x = F32.ofInt (toS 16 w.toNat) ∧ b2 = be 2 w.toNat) ∨
       (b0 = 0xff ∧ ∃ w : UInt32, x = F32.ofFixed (toS 32 w.toNat) ∧ b2 = be 4 w.toNat))) exact_u8 ?_
    intro b0
    have hb := b0.toNat_lt
    have e1c : b0 = 0x1c ↔ b0.toNat = 28 := by rw [← UInt8.toNat_inj]; rfl
    have eff : b0 = 0xff ↔ b0.toNat = 255 := by rw [← UInt8.toNat_inj]; rfl
    have c1 : (0x20 ≤ b0 ∧ b0 ≤ 0xf6) ↔ 32 ≤ b0.toNat ∧ b0.toNat ≤ 246 := by
      simp only [UInt8.le_iff_toNat_le]; exact Iff.rfl
    have c2 : (0xf7 ≤ b0 ∧ b0 ≤ 0xfa) ↔ 247 ≤ b0.toNat ∧ b0.toNat ≤ 250 := by
      simp only [UInt8.le_iff_toNat_le]; exact Iff.rfl
    have c3 : (0xfb ≤ b0 ∧ b0 ≤ 0xfe) ↔ 251 ≤ b0.toNat ∧ b0.toNat ≤ 254 := by
      simp only [UInt8.le_iff_toNat_le]; exact Iff.rfl
    simp only [c1, c2, c3]
    split
    · rename_i hc
      rw [i32_of_mem (by omega), rd_pure_bind]
      refine Exact.congr (Exact.pure _) ?_
      intro v bs
      constructor
      · rintro ⟨rfl, rfl⟩; exact .inl ⟨hc.1, hc.2, rfl, rfl⟩
      · rintro (⟨_, _, rfl, rfl⟩ | ⟨_, _, _⟩ | ⟨_, _, _⟩ | ⟨rfl, _⟩ | ⟨rfl, _⟩)
        · exact ⟨rfl, rfl⟩
        all_goals first | omega | (simp at hc)
    split
    · rename_i _ hc
      rw [positiveTwoByte_eq, rd_bind_assoc]
      refine Exact.congr (Exact.bind exact_u8 (fun c => Exact.pure _)) ?_
      intro v bs
      constructor
      · rintro ⟨c, b1, b2, rfl, rfl, rfl, rfl⟩
        exact .inr (.inl ⟨hc.1, hc.2, c, rfl, rfl⟩)
      · rintro (⟨_, _, _⟩ | ⟨_, _, c, rfl, rfl⟩ | ⟨_, _, _⟩ | ⟨rfl, _⟩ | ⟨rfl, _⟩)
        · omega
        · exact ⟨c, [c], [], rfl, rfl, rfl, rfl⟩
        all_goals first | omega | (simp at hc)
    split
    · rename_i _ _ hc
      rw [negativeTwoByte_eq, rd_bind_assoc]
      refine Exact.congr (Exact.bind exact_u8 (fun c => Exact.pure _)) ?_
      intro v bs
      constructor
      · rintro ⟨c, b1, b2, rfl, rfl, rfl, rfl⟩
        exact .inr (.inr (.inl ⟨hc.1, hc.2, c, rfl, rfl⟩))
      · rintro (⟨_, _, _⟩ | ⟨_, _, _⟩ | ⟨_, _, c, rfl, rfl⟩ | ⟨rfl, _⟩ | ⟨rfl, _⟩)
        · omega
        · omega
        · exact ⟨c, [c], [], rfl, rfl, rfl, rfl⟩
        all_goals first | omega | (simp at hc)
    split
    · rename_i hc
      refine Exact.congr (Exact.bind exact_u16 (fun c => Exact.pure _)) ?_
      intro v bs
      constructor
      · rintro ⟨w, b1, b2, rfl, rfl, rfl, rfl⟩
        exact .inr (.inr (.inr (.inl ⟨hc, w, rfl, by simp⟩)))
      · rintro (⟨_, _, _⟩ | ⟨_, _, _⟩ | ⟨_, _, _⟩ | ⟨_, w, rfl, rfl⟩ | ⟨h', _⟩)
        · omega
        · omega
        · omega
        · exact ⟨w, _, [], (List.append_nil _).symm, rfl, rfl, rfl⟩
        · rw [hc] at h'; exact absurd h' (by decide)
    split
    · rename_i hc
      refine Exact.congr (Exact.bind exact_u32 (fun c => Exact.pure _)) ?_
      intro v bs
      constructor
      · rintro ⟨w, b1, b2, rfl, rfl, rfl, rfl⟩
        exact .inr (.inr (.inr (.inr ⟨hc, w, rfl, by simp⟩)))
      · rintro (⟨_, _, _⟩ | ⟨_, _, _⟩ | ⟨_, _, _⟩ | ⟨h', _⟩ | ⟨_, w, rfl, rfl⟩)
        · omega
        · omega
        · omega
        · rw [hc] at h'; exact absurd h' (by decide)
        · exact ⟨w, _, [], (List.append_nil _).symm, rfl, rfl, rfl⟩
    · refine Exact.congr (Exact.raise _) ?_
      intro v bs
      constructor
      · intro h; exact h.elim
      · rintro (⟨_, _, _⟩ | ⟨_, _, _⟩ | ⟨_, _, _⟩ | ⟨h', _⟩ | ⟨h', _⟩) <;> first | omega | contradiction
  refine h.congr ?_
  intro x bs
  rw [operand_iff]
  constructor
  · rintro ⟨b0, _, b2, rfl, rfl, h⟩
    rcases h with ⟨h1, h2, rfl, rfl⟩ | ⟨h1, h2, c, rfl, rfl⟩ | ⟨h1, h2, c, rfl, rfl⟩ | ⟨rfl, w, rfl, rfl⟩ |
      ⟨rfl, w, rfl, rfl⟩
    · exact .inl ⟨_, .oneByte b0 h1 h2, rfl⟩
    · exact .inl ⟨_, .positive b0 c h1 h2, rfl⟩
    · have := ShortInt.negative b0 c h1 h2
      rw [show -(((b0.toNat : Int) - 251) * 256) = -((b0.toNat : Int) - 251) * 256 by omega] at this
      exact .inl ⟨_, this, rfl⟩
    · have hw := w.toNat_lt
      have hb := toS_bounds 16 w.toNat (by decide)
      have := ShortInt.word (toS 16 w.toNat) (by simpa using hb.1) (by have := hb.2; norm_num at this; omega)
      rw [beSigned_toS 2 (by decide) w.toNat (by simpa using hw)] at this
      exact .inl ⟨_, this, rfl⟩
    · have hw := w.toNat_lt
      have hb := toS_bounds 32 w.toNat (by decide)
      refine .inr ⟨toS 32 w.toNat, by simpa using hb.1, by have := hb.2; norm_num at this; omega, ?_, rfl⟩
      rw [beSigned_toS 4 (by decide) w.toNat (by simpa using hw)]
      rfl
  · rintro (⟨i, h, rfl⟩ | ⟨i, h1, h2, rfl, rfl⟩)
    · cases h with
      | oneByte b0 h1 h2 => exact ⟨b0, [b0], [], rfl, rfl, .inl ⟨h1, h2, rfl, rfl⟩⟩
      | positive b0 b1 h1 h2 => exact ⟨b0, [b0], [b1], rfl, rfl, .inr (.inl ⟨h1, h2, b1, rfl, rfl⟩)⟩
      | negative b0 b1 h1 h2 =>
        refine ⟨b0, [b0], [b1], rfl, rfl, .inr (.inr (.inl ⟨h1, h2, b1, ?_, rfl⟩))⟩
        rw [show -(((b0.toNat : Int) - 251) * 256) = -((b0.toNat : Int) - 251) * 256 by omega]
      | word i h1 h2 =>
        have hu : toU 16 i < 2 ^ 16 := toU_lt 16 i
        refine ⟨28, [28], beSigned 2 i, rfl, rfl, .inr (.inr (.inr (.inl ⟨rfl, UInt16.ofNat (toU 16 i), ?_, ?_⟩)))⟩
        · rw [UInt16.toNat_ofNat', Nat.mod_eq_of_lt hu, toS_toU 16 i (by decide) (by norm_num; omega) (by norm_num; omega)]
        · rw [UInt16.toNat_ofNat', Nat.mod_eq_of_lt hu]; rfl
    · have hu : toU 32 i < 2 ^ 32 := toU_lt 32 i
      refine ⟨255, [255], beSigned 4 i, rfl, rfl, .inr (.inr (.inr (.inr ⟨rfl, UInt32.ofNat (toU 32 i), ?_, ?_⟩)))⟩
      · rw [UInt32.toNat_ofNat', Nat.mod_eq_of_lt hu, toS_toU 32 i (by decide) (by norm_num; omega) (by norm_num; omega)]
      · rw [UInt32.toNat_ofNat', Nat.mod_eq_of_lt hu]; rfl

theorem isOperandByte_iff {b : UInt8} : isOperandByte b = true ↔ b.toNat = 28 ∨ 32 ≤ b.toNat := by
  have e1c : b = 0x1c ↔ b.toNat = 28 := by rw [← UInt8.toNat_inj]; rfl
  simp [isOperandByte, UInt8.le_iff_toNat_le, e1c]

theorem operand_head {x : F32} {bs : List UInt8} (h : Operand x bs) :
    ∃ b l, bs = b :: l ∧ isOperandByte b = true := by
  simp only [isOperandByte_iff]
  cases h with
  | int h hn =>
    cases h with
    | oneByte b0 h1 h2 => exact ⟨b0, [], rfl, .inr h1⟩
    | positive b0 b1 h1 h2 => exact ⟨b0, [b1], rfl, .inr (by omega)⟩
    | negative b0 b1 h1 h2 => exact ⟨b0, [b1], rfl, .inr (by omega)⟩
    | word i h1 h2 => exact ⟨28, _, rfl, .inl rfl⟩
  | fixed i h1 h2 hn => exact ⟨255, _, rfl, .inr (by decide)⟩

theorem operand_ne_nil {x : F32} {bs : List UInt8} (h : Operand x bs) : bs ≠ [] := by
  obtain ⟨b, l, rfl, _⟩ := operand_head h
  simp

theorem operand_wf {x : F32} {bs : List UInt8} (h : Operand x bs) : x.WF := by
  cases h with
  | int h hn => exact hn.wf
  | fixed i h1 h2 hn => exact hn.wf

theorem errs_readNumber : Errs readNumber NumberErr := by
  have h1 : NumberErr .eof := .inl rfl
  have h2 : NumberErr (.raised .malformedNumber) := .inr rfl
  unfold readNumber Rd.positiveTwoByte Rd.negativeTwoByte
  errs [errs_i32]

theorem noPanic_readNumber : NoPanic readNumber := by
  unfold readNumber
  refine NoPanic.bind NoPanic.u8 (fun first => ?_)
  have h0 := first.toNat_lt
  rw [positiveTwoByte_eq, negativeTwoByte_eq, i32_of_mem (by omega)]
  nopanic []

theorem trunc_readNumber : Trunc readNumber := by
  unfold readNumber
  refine Trunc.bind trunc_u8 exact_u8 (fun first => ?_)
  have h0 := first.toNat_lt
  rw [positiveTwoByte_eq, negativeTwoByte_eq, i32_of_mem (by omega)]
  simp only [rd_bind_assoc, rd_pure_bind]
  repeat' with_reducible first
    | refine Trunc.ite (fun _ => ?_) (fun _ => ?_)
    | exact Trunc.pure _
    | exact Trunc.bind trunc_u8 exact_u8 (fun _ => Trunc.pure _)
    | exact Trunc.bind trunc_u16 exact_u16 (fun _ => Trunc.pure _)
    | exact Trunc.bind trunc_u32 exact_u32 (fun _ => Trunc.pure _)
    | exact Trunc.raise _

/-- Reading fails with the end of file inside an operand. -/
theorem readNumber_cut {x : F32} {bs tail : List UInt8} (h : Operand x bs) (hp : tail <+: bs) (hne : tail ≠ bs)
    {env : Env} {p : Nat} (hl : p ≤ env.data.length) (hd : env.data.drop p = tail) :
    ∃ q, readNumber env p = (.err .eof, q) := by
  obtain ⟨t, rfl⟩ := hp
  have ht : 0 < t.length := by
    rcases t with _ | ⟨a, t⟩
    · simp at hne
    · simp
  obtain ⟨cfg, data⟩ := env
  simp only at hl hd
  have h1 : readNumber { cfg, data := data ++ t } p = (.ok x, p + (tail ++ t).length) := by
    rw [exact_readNumber]
    refine ⟨_, h, ?_, rfl⟩
    show _ <+: (data ++ t).drop p
    rw [List.drop_append_of_le_length hl, hd]
  have hlen : data.length = p + tail.length := by
    rw [← hd, List.length_drop]; omega
  have := trunc_readNumber _ _ _ _ _ data.length h1 hl (by rw [List.length_append]; omega)
  rwa [List.take_left'  rfl] at this

/-- What starts like an operand is one, or the beginning of one. -/
theorem operand_cases {b : UInt8} (hb : isOperandByte b = true) (l : List UInt8) :
    (∃ x bs, Operand x bs ∧ bs <+: b :: l) ∨ (∃ x bs, Operand x bs ∧ b :: l <+: bs ∧ b :: l ≠ bs) := by
  rw [isOperandByte_iff] at hb
  have hlt := b.toNat_lt
  have two : 247 ≤ b.toNat → b.toNat ≤ 254 → ∀ c, ∃ x, Operand x [b, c] := by
    intro h1 h2 c
    by_cases h : b.toNat ≤ 250
    · exact ⟨_, operand_iff.mpr (.inl ⟨_, .positive b c h1 h, rfl⟩)⟩
    · exact ⟨_, operand_iff.mpr (.inl ⟨_, .negative b c (by omega) h2, rfl⟩)⟩
  have word : ∀ c d : UInt8, ∃ x, Operand x [28, c, d] := by
    intro c d
    have h1 := beNat_lt [c, d]
    have hb := toS_bounds 16 (beNat [c, d]) (by decide)
    have := ShortInt.word (toS 16 (beNat [c, d])) (by simpa using hb.1) (by have := hb.2; norm_num at this; omega)
    rw [beSigned_toS 2 (by decide) _ (by simpa using h1), show be 2 (beNat [c, d]) = [c, d] from be_beNat [c, d]] at this
    exact ⟨_, operand_iff.mpr (.inl ⟨_, this, rfl⟩)⟩
  have long : ∀ c d e f : UInt8, ∃ x, Operand x [255, c, d, e, f] := by
    intro c d e f
    have h1 := beNat_lt [c, d, e, f]
    have hb := toS_bounds 32 (beNat [c, d, e, f]) (by decide)
    refine ⟨_, operand_iff.mpr (.inr ⟨toS 32 (beNat [c, d, e, f]), by simpa using hb.1,
      by have := hb.2; norm_num at this; omega, ?_, rfl⟩)⟩
    rw [beSigned_toS 4 (by decide) _ (by simpa using h1), show be 4 (beNat [c, d, e, f]) = [c, d, e, f] from be_beNat [c, d, e, f]]
  by_cases h28 : b.toNat = 28
  · obtain rfl : b = 28 := UInt8.toNat_inj.mp h28
    match l with
    | c :: d :: l => obtain ⟨x, hx⟩ := word c d; exact .inl ⟨x, _, hx, l, rfl⟩
    | [c] => obtain ⟨x, hx⟩ := word c 0; exact .inr ⟨x, _, hx, ⟨[0], rfl⟩, by simp⟩
    | [] => obtain ⟨x, hx⟩ := word 0 0; exact .inr ⟨x, _, hx, ⟨[0, 0], rfl⟩, by simp⟩
  have h32 : 32 ≤ b.toNat := by omega
  by_cases h246 : b.toNat ≤ 246
  · exact .inl ⟨_, [b], operand_iff.mpr (.inl ⟨_, .oneByte b h32 h246, rfl⟩), l, rfl⟩
  by_cases h254 : b.toNat ≤ 254
  · match l with
    | c :: l => obtain ⟨x, hx⟩ := two (by omega) h254 c; exact .inl ⟨x, _, hx, l, rfl⟩
    | [] => obtain ⟨x, hx⟩ := two (by omega) h254 0; exact .inr ⟨x, _, hx, ⟨[0], rfl⟩, by simp⟩
  · obtain rfl : b = 255 := UInt8.toNat_inj.mp (show b.toNat = 255 by omega)
    match l with
    | c :: d :: e :: f :: l => obtain ⟨x, hx⟩ := long c d e f; exact .inl ⟨x, _, hx, l, rfl⟩
    | [c, d, e] => obtain ⟨x, hx⟩ := long c d e 0; exact .inr ⟨x, _, hx, ⟨[0], rfl⟩, by simp⟩
    | [c, d] => obtain ⟨x, hx⟩ := long c d 0 0; exact .inr ⟨x, _, hx, ⟨[0, 0], rfl⟩, by simp⟩
    | [c] => obtain ⟨x, hx⟩ := long c 0 0 0; exact .inr ⟨x, _, hx, ⟨[0, 0, 0], rfl⟩, by simp⟩
    | [] => obtain ⟨x, hx⟩ := long 0 0 0 0; exact .inr ⟨x, _, hx, ⟨[0, 0, 0, 0], rfl⟩, by simp⟩

/-- Encodings of operands are prefix-free, and each encodes one operand. -/
theorem operand_unique {x y : F32} {a b r t : List UInt8} (hx : Operand x a) (hy : Operand y b)
    (h : a ++ r = b ++ t) : x = y ∧ a = b ∧ r = t := by
  have h1 := (exact_readNumber ⟨⟨true, true, 0, fun p _ => p⟩, a ++ r⟩ 0 x _).mpr ⟨a, hx, ⟨r, rfl⟩, rfl⟩
  have h2 := (exact_readNumber ⟨⟨true, true, 0, fun p _ => p⟩, a ++ r⟩ 0 y _).mpr ⟨b, hy, ⟨t, h.symm⟩, rfl⟩
  rw [h1] at h2
  simp only [Prod.mk.injEq, Res.ok.injEq] at h2
  have hlen : a.length = b.length := by omega
  exact ⟨h2.1, List.append_inj h hlen⟩

/-! ## Operators -/

open PS.Type2.Spec (bytes)

/-- The code of an operator as `Operator::from` expects it. -/
def codeOf (op : Operator) : UInt16 := UInt16.ofNat (beNat (bytes op))

theorem from_codeOf (op : Operator) : Operator.from (codeOf op) = .ok op := by
  cases op <;> rfl

theorem codes_codeOf : ∀ x ∈ Operator.codes, codeOf x.2 = UInt16.ofNat x.1 := by decide +kernel

theorem from_ok {code : UInt16} {op : Operator} : Operator.from code = .ok op ↔ code = codeOf op := by
  constructor
  · intro h
    unfold Operator.from at h
    split at h
    · rename_i o ho
      simp only [Res.ok.injEq] at h
      subst h
      have := codes_codeOf _ (lookup_mem ho)
      simp only at this
      rw [this]
      simp
    · simp at h
  · rintro rfl
    exact from_codeOf op

theorem from_total (code : UInt16) :
    (∃ op, Operator.from code = .ok op) ∨ Operator.from code = .err (.raised .unknownOperator) := by
  unfold Operator.from
  split
  · exact .inl ⟨_, rfl⟩
  · exact .inr rfl

/-- An operator is one byte that is not 12, or 12 and a byte. -/
theorem bytes_cases (op : Operator) :
    (∃ b, bytes op = [b] ∧ b ≠ 12 ∧ isOperandByte b = false ∧ codeOf op = UInt16.ofNat b.toNat) ∨
    (∃ b, bytes op = [12, b] ∧ codeOf op = UInt16.ofNat (beNat [12, b])) := by
  cases op <;> first
    | exact .inl ⟨_, rfl, by decide, by decide, by decide⟩
    | exact .inr ⟨_, rfl, by decide⟩

theorem bytes_head (op : Operator) : ∃ b l, bytes op = b :: l ∧ isOperandByte b = false := by
  rcases bytes_cases op with ⟨b, h, _, h', _⟩ | ⟨b, h, _⟩
  · exact ⟨b, [], h, h'⟩
  · exact ⟨12, [b], h, by decide⟩

theorem bytes_ne_nil (op : Operator) : bytes op ≠ [] := by
  obtain ⟨b, l, h, _⟩ := bytes_head op
  simp [h]

theorem codeOf_one {b : UInt8} {op : Operator} (_hb : b ≠ 12) (h : UInt16.ofNat b.toNat = codeOf op) :
    bytes op = [b] := by
  have hb' := b.toNat_lt
  rcases bytes_cases op with ⟨c, h1, _, _, h2⟩ | ⟨c, h1, h2⟩
  · rw [h2] at h
    have hc := c.toNat_lt
    have := congrArg UInt16.toNat h
    rw [UInt16.toNat_ofNat_of_lt' (by simp [UInt16.size]; omega), UInt16.toNat_ofNat_of_lt' (by simp [UInt16.size]; omega)] at this
    rw [h1, UInt8.toNat_inj.mp this]
  · rw [h2] at h
    have hc := c.toNat_lt
    have e : beNat [12, c] = 12 * 256 + c.toNat := by simp [beNat]
    have := congrArg UInt16.toNat h
    rw [e, UInt16.toNat_ofNat_of_lt' (by simp [UInt16.size]; omega), UInt16.toNat_ofNat_of_lt' (by simp [UInt16.size]; omega)] at this
    omega

theorem codeOf_two {b : UInt8} {op : Operator} (h : UInt16.ofNat (beNat [12, b]) = codeOf op) :
    bytes op = [12, b] := by
  have hb' := b.toNat_lt
  have e : ∀ c : UInt8, beNat [12, c] = 12 * 256 + c.toNat := by intro c; simp [beNat]
  rcases bytes_cases op with ⟨c, h1, _, _, h2⟩ | ⟨c, h1, h2⟩
  · rw [h2] at h
    have hc := c.toNat_lt
    have := congrArg UInt16.toNat h
    rw [e, UInt16.toNat_ofNat_of_lt' (by simp [UInt16.size]; omega), UInt16.toNat_ofNat_of_lt' (by simp [UInt16.size]; omega)] at this
    omega
  · rw [h2] at h
    have hc := c.toNat_lt
    have := congrArg UInt16.toNat h
    rw [e, e, UInt16.toNat_ofNat_of_lt' (by simp [UInt16.size]; omega), UInt16.toNat_ofNat_of_lt' (by simp [UInt16.size]; omega)] at this
    rw [h1, UInt8.toNat_inj.mp (show b.toNat = c.toNat by omega)]

/-- Operators are prefix-free. -/
theorem bytes_unique {op op' : Operator} {r t : List UInt8} (h : bytes op ++ r = bytes op' ++ t) :
    op = op' ∧ r = t := by
  have key : ∀ {a b : Operator}, bytes a = bytes b → a = b := by
    intro a b hab
    have h1 := from_codeOf a
    have h2 := from_codeOf b
    unfold codeOf at h1 h2
    rw [hab, h2] at h1
    simpa using h1.symm
  rcases bytes_cases op with ⟨b, h1, hb, _, _⟩ | ⟨b, h1, _⟩ <;> rcases bytes_cases op' with ⟨c, h2, hc, _, _⟩ | ⟨c, h2, _⟩
  · rw [h1, h2] at h
    simp only [List.cons_append, List.nil_append, List.cons.injEq] at h
    exact ⟨key (by rw [h1, h2, h.1]), h.2⟩
  · rw [h1, h2] at h
    simp only [List.cons_append, List.nil_append, List.cons.injEq] at h
    exact absurd h.1 hb
  · rw [h1, h2] at h
    simp only [List.cons_append, List.nil_append, List.cons.injEq] at h
    exact absurd h.1.symm hc
  · rw [h1, h2] at h
    simp only [List.cons_append, List.nil_append, List.cons.injEq, true_and] at h
    exact ⟨key (by rw [h1, h2, h.1]), h.2⟩

/-- No operand starts like an operator. -/
theorem operand_bytes {x : F32} {bs r t : List UInt8} {op : Operator} (hx : Operand x bs) :
    bs ++ r ≠ bytes op ++ t := by
  obtain ⟨b, l, rfl, hb⟩ := operand_head hx
  obtain ⟨c, m, h, hc⟩ := bytes_head op
  rw [h]
  intro he
  simp only [List.cons_append, List.cons.injEq] at he
  rw [he.1, hc] at hb
  simp at hb

end PS.Type2
