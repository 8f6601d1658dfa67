import Verif.Spec.Tape
import Verif.Lemmas.Decimal
import Verif.Lemmas.F32
/-!
# Properties C01–C06: operands of dictionaries and offsets
-/
namespace PS
open Spec

/-- **C01.**  Every legal encoding of an integer reads back as that integer,
and the tape is left right after it, anywhere on any tape. -/
theorem C01_dict_integer_round_trip {i : Int} {bs : List UInt8} (h : DictInt i bs)
    (cfg : Config) (pre post : List UInt8) :
    Number.read (tape cfg (pre ++ bs ++ post)) pre.length = (.ok (.integer i), pre.length + bs.length) :=
  exact_number.parse (a := .integer i) h cfg pre post

theorem shortInt_encode {i : Int} (h1 : -32768 ≤ i) (h2 : i ≤ 32767) : ShortInt i (encodeShortInt i) := by
  unfold encodeShortInt
  split
  · have := ShortInt.oneByte (UInt8.ofNat (i + 139).toNat)
    rw [UInt8.toNat_ofNat_of_lt' (by simp [UInt8.size]; omega)] at this
    have := this (by omega) (by omega)
    rwa [show ((i + 139).toNat : Int) - 139 = i by omega] at this
  · split
    · have := ShortInt.positive (UInt8.ofNat ((i - 108).toNat / 256 + 247)) (UInt8.ofNat ((i - 108).toNat % 256))
      rw [UInt8.toNat_ofNat_of_lt' (by simp [UInt8.size]; omega),
        UInt8.toNat_ofNat_of_lt' (by simp [UInt8.size]; omega)] at this
      have := this (by omega) (by omega)
      rwa [show (((((i - 108).toNat / 256 + 247 : Nat) : Int) - 247) * 256 + (((i - 108).toNat % 256 : Nat) : Int) + 108) = i by
        omega] at this
    · split
      · have := ShortInt.negative (UInt8.ofNat ((-i - 108).toNat / 256 + 251)) (UInt8.ofNat ((-i - 108).toNat % 256))
        rw [UInt8.toNat_ofNat_of_lt' (by simp [UInt8.size]; omega),
          UInt8.toNat_ofNat_of_lt' (by simp [UInt8.size]; omega)] at this
        have := this (by omega) (by omega)
        rwa [show (-(((((-i - 108).toNat / 256 + 251 : Nat) : Int) - 251) * 256) - (((-i - 108).toNat % 256 : Nat) : Int) - 108) = i by
          omega] at this
      · exact .word i h1 h2

/-- **C01**, with a concrete encoder: every 32-bit integer has an encoding, and
reading the shortest one returns the integer. -/
theorem C01_dict_integer_encoder {i : Int} (h1 : -2147483648 ≤ i) (h2 : i ≤ 2147483647)
    (cfg : Config) (pre post : List UInt8) :
    Number.read (tape cfg (pre ++ encodeDictInt i ++ post)) pre.length =
      (.ok (.integer i), pre.length + (encodeDictInt i).length) := by
  refine C01_dict_integer_round_trip ?_ cfg pre post
  unfold encodeDictInt
  split
  · rename_i h
    exact .short (shortInt_encode h.1 h.2)
  · exact .long i h1 h2

/-- Each of the five forms exists: the hypothesis of the round trip is met. -/
example : DictInt 0 [139] := .short (.oneByte 139 (by decide) (by decide))
example : DictInt 1000 [250, 124] := .short (.positive 250 124 (by decide) (by decide))
example : DictInt (-1000) [254, 124] := .short (.negative 254 124 (by decide) (by decide))
example : DictInt (-10000) [28, 0xd8, 0xf0] := .short (.word (-10000) (by decide) (by decide))
example : DictInt 100000 [29, 0x00, 0x01, 0x86, 0xa0] := .long 100000 (by decide) (by decide)

/-- **C02.**  An integer is returned only for a legal encoding of it: it is a
32-bit integer, and the bytes between the two positions, at most five of them,
are its encoding. -/
theorem C02_dict_integer_sound {cfg : Config} {data : List UInt8} {p q : Nat} {i : Int}
    (h : Number.read (tape cfg data) p = (.ok (.integer i), q)) :
    DictInt i ((data.drop p).take (q - p)) ∧ p < q ∧ q ≤ data.length ∧ q - p ≤ 5 ∧
      -2147483648 ≤ i ∧ i ≤ 2147483647 := by
  obtain ⟨bs, hb, hp, rfl⟩ := (exact_number (tape cfg data) p _ q).mp h
  have hlen := hp.length_le
  have heq := List.prefix_iff_eq_take.mp hp
  have e1 : p + bs.length - p = bs.length := by omega
  change bs = List.take bs.length (List.drop p data) at heq
  change bs.length ≤ (List.drop p data).length at hlen
  rw [List.length_drop] at hlen
  rw [e1, ← heq]
  change DictInt i bs at hb
  refine ⟨hb, ?_⟩
  cases hb with
  | short hs =>
    cases hs with
    | oneByte b0 h1 h2 =>
      simp only [List.length_cons, List.length_nil] at *
      omega
    | positive b0 b1 h1 h2 =>
      have := b1.toNat_lt
      simp only [List.length_cons, List.length_nil] at *
      omega
    | negative b0 b1 h1 h2 =>
      have := b1.toNat_lt
      simp only [List.length_cons, List.length_nil] at *
      omega
    | word h1 h2 =>
      simp only [List.length_cons, beSigned_length] at *
      omega
  | long h1 h2 =>
    simp only [List.length_cons, beSigned_length] at *
    omega

example : Number.read (tape ⟨true, true, 0, fun p _ => p⟩ [9, 250, 124, 7]) 1 = (.ok (.integer 1000), 3) :=
  C01_dict_integer_round_trip (.short (.positive 250 124 (by decide) (by decide))) _ [9] [7]

/-- **C02.**  No input makes reading a number panic; in particular none of its
arithmetic overflows, the checks being on or off. -/
theorem C02_dict_number_no_panic (cfg : Config) (data : List UInt8) (p : Nat) (x : Panic) (q : Nat) :
    Number.read (tape cfg data) p ≠ (.panic x, q) :=
  noPanic_number _ _ _ _

/-- **C03.**  A reserved first byte is rejected with an error other than the
end of the tape. -/
theorem C03_reserved_lead_byte {b : UInt8} (h : b.toNat < 28 ∨ b.toNat = 31 ∨ b.toNat = 255)
    (cfg : Config) (pre post : List UInt8) :
    Number.read (tape cfg (pre ++ b :: post)) pre.length =
      (.err (.raised .malformedNumber), pre.length + 1) := by
  have h8 := exact_u8.parse (a := b) (bs := [b]) rfl cfg pre post
  rw [List.append_assoc] at h8
  unfold Number.read
  rw [Rd.bind_of_ok (show Rd.u8 (tape cfg (pre ++ b :: post)) pre.length = _ from h8)]
  simp only [UInt8.le_iff_toNat_le, ← UInt8.toNat_inj]
  have e (k : Nat) (hk : k < 256) : (OfNat.ofNat k : UInt8).toNat = k := by
    exact UInt8.toNat_ofNat_of_lt' hk
  simp only [e 0x20 (by omega), e 0xf6 (by omega), e 0xf7 (by omega), e 0xfa (by omega), e 0xfb (by omega),
    e 0xfe (by omega), e 0x1c (by omega), e 0x1d (by omega), e 0x1e (by omega)]
  rw [if_neg (by omega), if_neg (by omega), if_neg (by omega), if_neg (by omega), if_neg (by omega),
    if_neg (by omega)]
  rfl

/-- **C03.**  Any encoding of an integer that is cut short by the end of the
tape is reported as the end of the tape. -/
theorem C03_truncated_integer {i : Int} {bs : List UInt8} (h : DictInt i bs) (cfg : Config) (pre : List UInt8)
    {n : Nat} (hn : n < bs.length) :
    (Number.read (tape cfg (pre ++ bs.take n)) pre.length).1 = .err .eof := by
  have h1 := C01_dict_integer_round_trip h cfg pre []
  rw [List.append_nil] at h1
  obtain ⟨q, hq⟩ := trunc_number _ _ _ _ _ (pre.length + n) h1 (by omega) (by omega)
  rw [List.take_length_add_append] at hq
  exact congrArg Prod.fst hq

/-- **C03.**  More generally, if a number of any kind is read, then reading it from
a tape that ends inside its encoding reports the end of the tape. -/
theorem C03_truncated_number {cfg : Config} {data : List UInt8} {p q n : Nat} {x : Number}
    (h : Number.read (tape cfg data) p = (.ok x, q)) (h1 : p ≤ n) (h2 : n < q) :
    (Number.read (tape cfg (data.take n)) p).1 = .err .eof := by
  obtain ⟨q', hq⟩ := trunc_number _ _ _ _ _ n h h1 h2
  exact congrArg Prod.fst hq

example : (Number.read (tape ⟨true, true, 0, fun p _ => p⟩ [29, 1, 2]) 0).1 = .err .eof :=
  C03_truncated_number (n := 3) (C01_dict_integer_round_trip
    (.long (i := 16909060) (by decide) (by decide)) ⟨true, true, 0, fun p _ => p⟩ [] [])
    (by decide) (by decide)

/-- **C04.**  A packed decimal literal reads as the binary32 value nearest to the
number it denotes. -/
theorem C04_real_correctly_rounded {d : Decimal} (hd : d.Valid) {bs : List UInt8} (hb : Packed d.text bs)
    (cfg : Config) (pre post : List UInt8) :
    ∃ x, Number.read (tape cfg (pre ++ (0x1e :: bs) ++ post)) pre.length =
        (.ok (.real x), pre.length + (1 + bs.length)) ∧ Nearest d.neg d.magnitude x := by
  refine ⟨F32.ofDecimal d.neg d.mantissa d.exponent, ?_, ofDecimal_nearest _ _ _⟩
  have := exact_number.parse (a := .real (F32.ofDecimal d.neg d.mantissa d.exponent)) (bs := 0x1e :: bs)
    ⟨d.text, bs, rfl, hb, parseF32_text d hd⟩ cfg pre post
  rw [List.length_cons, Nat.add_comm bs.length] at this
  exact this

/-- **C04.**  The nearest value is unique, so the preceding theorem determines the result. -/
theorem C04_nearest_unique {neg : Bool} {q : ℚ} {x y : F32} (hx : Nearest neg q x) (hy : Nearest neg q y) :
    x = y := hx.unique hy

/-- The CFF specification's examples: -2.25 and 0.140541E-3. -/
example : Packed (Decimal.text ⟨true, [2], some [2, 5], none⟩) [0xe2, 0xa2, 0x5f] :=
  ⟨[14, 2, 10, 2, 5], [], by decide, by decide, by decide⟩
example : Packed (Decimal.text ⟨false, [0], some [1, 4, 0, 5, 4, 1], some (true, [3])⟩)
    [0x0a, 0x14, 0x05, 0x41, 0xc3, 0xff] :=
  ⟨[0, 10, 1, 4, 0, 5, 4, 1, 12, 3], [15], by decide, by decide, by decide⟩
example : Decimal.Valid ⟨true, [2], some [2, 5], none⟩ := ⟨by decide, by simp⟩

/-- Every text of a decimal literal can be packed, so every literal is an instance. -/
theorem C04_every_literal_packs (d : Decimal) : ∃ bs, Packed d.text bs := packed_exists d

/-- **C04.**  From half a unit above the greatest finite number on, a real is an infinity. -/
theorem C04_overflow {neg : Bool} {q : ℚ} (h : (2 ^ 25 - 1) * 2 ^ 103 ≤ q) (x : F32) : Nearest neg q x ↔ x = .inf neg :=
  ⟨fun hx => hx.unique (show Nearest neg q (.inf neg) from ⟨rfl, h⟩), fun hx => hx ▸ ⟨rfl, h⟩⟩

/-- The greatest number of binary32 is `(2^24 - 1) 2^104`. -/
example (x : F32) : Nearest true (2 ^ 128) x ↔ x = .inf true := C04_overflow (by norm_num) x

/-- **C04.**  Up to half of the least positive number, a real is a zero. -/
theorem C04_underflow {neg : Bool} {q : ℚ} (h0 : 0 ≤ q) (h : q * 2 ^ 150 ≤ 1) (x : F32) :
    Nearest neg q x ↔ x = .fin neg 0 0 := by
  have hz : Nearest neg q (.fin neg 0 0) := by
    rw [nearest_fin_iff]
    have h1 : q * 2 ^ 149 ≤ 1 / 2 := by linarith
    have h2 : 0 ≤ q * 2 ^ 149 := by positivity
    refine ⟨rfl, by nlinarith, by simp [F32.WF], ?_⟩
    intro n f _
    refine ⟨?_, fun _ _ => rfl⟩
    rw [Nat.zero_mul, Nat.cast_zero, sub_zero, abs_of_nonneg h2]
    rcases Nat.eq_zero_or_pos (n * 2 ^ f) with hn | hn
    · rw [hn]; simp [abs_of_nonneg h2]
    · have : (1 : ℚ) ≤ ((n * 2 ^ f : ℕ) : ℚ) := by exact_mod_cast hn
      rw [abs_of_nonpos (by linarith)]
      linarith
  exact ⟨fun hx => hx.unique hz, fun hx => hx ▸ hz⟩

theorem number_lt (ds : List (Fin 10)) : Decimal.number ds < 10 ^ ds.length := by
  induction ds with
  | nil => simp [Decimal.number]
  | cons d ds ih =>
    rw [Decimal.number, List.length_cons, Nat.pow_succ]
    have := d.isLt
    have : d.val * 10 ^ ds.length ≤ 9 * 10 ^ ds.length := Nat.mul_le_mul_right _ (by omega)
    omega

/-- **C04.**  The digits of a great exponent do not matter: if the exponent exceeds the
number of digits of the mantissa by 46, the literal stands for an infinity or for a zero.
So it makes no difference if the standard library stops reading an exponent at 65536, as
long as the mantissa has at most 65000 digits. -/
theorem C04_great_exponents {d : Decimal} {s : Bool} {ds : List (Fin 10)} (he : d.exp = some (s, ds))
    (h : (d.int ++ d.frac.getD []).length + 46 ≤ Decimal.number ds) (x : F32) :
    Nearest d.neg d.magnitude x ↔ x = if d.mantissa = 0 ∨ s = true then .fin d.neg 0 0 else .inf d.neg := by
  have hm : d.mantissa < 10 ^ (d.int ++ d.frac.getD []).length := number_lt _
  have hl : (d.frac.getD []).length ≤ (d.int ++ d.frac.getD []).length := by simp
  generalize (d.int ++ d.frac.getD []).length = L at *
  by_cases h0 : d.mantissa = 0
  · rw [if_pos (.inl h0)]
    refine C04_underflow ?_ ?_ x <;> simp [Decimal.magnitude, h0]
  · have h1 : (1 : ℚ) ≤ (d.mantissa : ℚ) := by exact_mod_cast Nat.one_le_iff_ne_zero.mpr h0
    cases s with
    | true =>
      rw [if_pos (.inr rfl)]
      have hx : d.magnitude ≤ (10 : ℚ) ^ (-46 : ℤ) := by
        unfold Decimal.magnitude Decimal.exponent
        rw [he]
        calc (d.mantissa : ℚ) * 10 ^ (Decimal.expValue (some (true, ds)) - (d.frac.getD []).length)
            ≤ 10 ^ (L : ℤ) * 10 ^ (-46 - L : ℤ) := by
              refine mul_le_mul ?_ (zpow_le_zpow_right₀ (by norm_num) ?_) (by positivity) (by positivity)
              · rw [zpow_natCast]; exact_mod_cast hm.le
              · show -(Decimal.number ds : ℤ) - _ ≤ _
                omega
          _ = 10 ^ (-46 : ℤ) := by rw [← zpow_add₀ (by norm_num)]; congr 1; ring
      refine C04_underflow ?_ ?_ x
      · unfold Decimal.magnitude; positivity
      · calc d.magnitude * 2 ^ 150 ≤ (10 : ℚ) ^ (-46 : ℤ) * 2 ^ 150 := by gcongr
          _ ≤ 1 := by norm_num
    | false =>
      rw [if_neg (by simp [h0])]
      refine C04_overflow ?_ x
      unfold Decimal.magnitude Decimal.exponent
      rw [he]
      calc ((2 : ℚ) ^ 25 - 1) * 2 ^ 103 ≤ 1 * 10 ^ (46 : ℤ) := by norm_num
        _ ≤ (d.mantissa : ℚ) * 10 ^ (Decimal.expValue (some (false, ds)) - (d.frac.getD []).length) := by
          refine mul_le_mul h1 (zpow_le_zpow_right₀ (by norm_num) ?_) (by positivity) (by positivity)
          show _ ≤ (Decimal.number ds : ℤ) - _
          omega

/-- `1e65536`, `-0.5e99999` and `12e-99999`. -/
example (x : F32) : (Nearest false (Decimal.magnitude ⟨false, [1], none, some (false, [6, 5, 5, 3, 6])⟩) x ↔ x = .inf false) ∧
    (Nearest true (Decimal.magnitude ⟨true, [0], some [5], some (false, [9, 9, 9, 9, 9])⟩) x ↔ x = .inf true) ∧
    (Nearest false (Decimal.magnitude ⟨false, [1, 2], none, some (true, [9, 9, 9, 9, 9])⟩) x ↔ x = .fin false 0 0) :=
  ⟨C04_great_exponents (d := ⟨false, [1], none, some (false, [6, 5, 5, 3, 6])⟩) rfl (by decide) x,
    C04_great_exponents (d := ⟨true, [0], some [5], some (false, [9, 9, 9, 9, 9])⟩) rfl (by decide) x,
    C04_great_exponents (d := ⟨false, [1, 2], none, some (true, [9, 9, 9, 9, 9])⟩) rfl (by decide) x⟩

/-- **C05.**  A real is returned only for the packed form of a decimal literal. -/
theorem C05_real_sound {cfg : Config} {data : List UInt8} {p q : Nat} {x : F32}
    (h : Number.read (tape cfg data) p = (.ok (.real x), q)) :
    ∃ (d : Decimal) (bs : List UInt8), d.Valid ∧ Packed d.text bs ∧
      (0x1e :: bs) <+: data.drop p ∧ q = p + (1 + bs.length) ∧ Nearest d.neg d.magnitude x := by
  obtain ⟨bs, ⟨t, bs', rfl, hp, hv⟩, hpre, rfl⟩ := (exact_number (tape cfg data) p _ q).mp h
  obtain ⟨d, hd, rfl, rfl⟩ := (packed_parse hp).mp hv
  exact ⟨d, bs', hd, hp, hpre, by simp; omega, ofDecimal_nearest _ _ _⟩

/-- **C05.**  A packed text that is not a decimal literal is rejected. -/
theorem C05_not_a_literal {t : List Char} {bs : List UInt8} (hp : Packed t bs)
    (ht : ∀ d : Decimal, d.Valid → d.text ≠ t) (cfg : Config) (pre post : List UInt8) :
    (Number.read (tape cfg (pre ++ (0x1e :: bs) ++ post)) pre.length).1 = .err (.raised .malformedNumber) := by
  have hd : (tape cfg (pre ++ (0x1e :: bs) ++ post)).data.drop pre.length = 0x1e :: (bs ++ post) := by
    simp [tape]
  rw [number_real hd]
  have hd' : bs <+: (tape cfg (pre ++ (0x1e :: bs) ++ post)).data.drop (pre.length + 1) := by
    rw [← List.drop_drop, hd]
    exact ⟨post, rfl⟩
  have hv : parseF32 t = none := by
    rcases hv : parseF32 t with _ | x
    · rfl
    · obtain ⟨d, h1, h2, -⟩ := (packed_parse hp).mp hv
      exact absurd h2 (ht d h1)
  rw [Rd.bind_of_err (parse_malformed hd' hp hv)]

/-- "e5" is not a literal. -/
example : Packed ['e', '5'] [0xb5, 0xf0] ∧ ∀ d : Decimal, d.Valid → d.text ≠ ['e', '5'] := by
  refine ⟨⟨[11, 5], [0], by decide, by decide, by decide⟩, fun d hd h => ?_⟩
  have := parseF32_text d hd
  rw [h] at this
  revert this
  have : parseF32 ['e', '5'] = none := by decide
  rw [this]
  simp

/-- **C05.**  The reserved nibble 13 is rejected wherever it occurs. -/
theorem C05_reserved_nibble {ns pad : List Nat} {u : List Char} {bs : List UInt8} (hs : spell ns = some u)
    (hb : nibbles bs = ns ++ 13 :: pad) (cfg : Config) (pre post : List UInt8) :
    (Number.read (tape cfg (pre ++ (0x1e :: bs) ++ post)) pre.length).1 = .err (.raised .malformedNumber) := by
  have hd : (tape cfg (pre ++ (0x1e :: bs) ++ post)).data.drop pre.length = 0x1e :: (bs ++ post) := by
    simp [tape]
  rw [number_real hd]
  have hd' : bs <+: (tape cfg (pre ++ (0x1e :: bs) ++ post)).data.drop (pre.length + 1) := by
    rw [← List.drop_drop, hd]
    exact ⟨post, rfl⟩
  rw [Rd.bind_of_err (Prod.ext (parse_reserved hd' hb hs rfl (by decide)) rfl)]

example : nibbles [0x12, 0xd0] = [1, 2] ++ 13 :: [0] ∧ spell [1, 2] = some ['1', '2'] := by decide

/-- **C05.**  Reading a number always ends with a number, the end of the tape or
the error "found a malformed number": it neither panics nor loops. -/
theorem C05_number_total (cfg : Config) (data : List UInt8) (p : Nat) :
    (∃ x q, Number.read (tape cfg data) p = (.ok x, q)) ∨
    (∃ q, Number.read (tape cfg data) p = (.err .eof, q)) ∨
    (∃ q, Number.read (tape cfg data) p = (.err (.raised .malformedNumber), q)) := by
  rcases h : Number.read (tape cfg data) p with ⟨x | e | x, q⟩
  · exact .inl ⟨x, q, rfl⟩
  · rcases errs_number _ _ _ _ h with rfl | rfl
    · exact .inr (.inl ⟨q, rfl⟩)
    · exact .inr (.inr ⟨q, rfl⟩)
  · exact absurd h (noPanic_number _ _ _ _)

/-- **C06.**  An offset of 1, 2, 3 or 4 bytes is read as the big-endian number
in exactly that many bytes, and as nothing else. -/
theorem C06_offset_big_endian (size : UInt8) (cfg : Config) (data : List UInt8) (p q : Nat) (v : UInt32) :
    readOffset size (tape cfg data) p = (.ok v, q) ↔
      1 ≤ size.toNat ∧ size.toNat ≤ 4 ∧ v.toNat < 256 ^ size.toNat ∧
      be size.toNat v.toNat <+: data.drop p ∧ q = p + size.toNat := by
  rw [exact_offset size (tape cfg data) p v q]
  constructor
  · rintro ⟨_, ⟨h1, h2, h3, rfl⟩, hp, rfl⟩
    exact ⟨h1, h2, h3, hp, by rw [be_length]⟩
  · rintro ⟨h1, h2, h3, hp, rfl⟩
    exact ⟨_, ⟨h1, h2, h3, rfl⟩, hp, by rw [be_length]⟩

/-- **C06.**  Any other size is rejected without touching the tape. -/
theorem C06_offset_bad_size {size : UInt8} (h : size.toNat = 0 ∨ 4 < size.toNat) (env : Env) (p : Nat) :
    readOffset size env p = (.err (.raised .malformedOffset), p) := by
  unfold readOffset
  have e (k : Nat) (hk : k < 256) (h' : size.toNat ≠ k) : size ≠ OfNat.ofNat k := by
    rintro rfl
    exact h' (UInt8.toNat_ofNat_of_lt' hk)
  rw [if_neg (e 1 (by omega) (by omega)), if_neg (e 2 (by omega) (by omega)), if_neg (e 3 (by omega) (by omega)),
    if_neg (e 4 (by omega) (by omega))]
  rfl

/-- **C06.**  Writing the value back gives the bytes read. -/
theorem C06_offset_write_back {size : UInt8} {cfg : Config} {data : List UInt8} {p q : Nat} {v : UInt32}
    (h : readOffset size (tape cfg data) p = (.ok v, q)) :
    be size.toNat v.toNat = (data.drop p).take size.toNat := by
  obtain ⟨-, -, -, hp, -⟩ := (C06_offset_big_endian _ _ _ _ _ _).mp h
  have := List.prefix_iff_eq_take.mp hp
  rwa [be_length] at this

example : readOffset 3 (tape ⟨true, true, 0, fun p _ => p⟩ [7, 1, 2, 3]) 1 = (.ok 0x010203, 4) :=
  (C06_offset_big_endian _ _ _ _ _ _).mpr ⟨by decide, by decide, by decide, ⟨[], by decide⟩, by decide⟩

end PS
