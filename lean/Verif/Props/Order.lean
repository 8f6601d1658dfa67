import Verif.Spec.Order
import Verif.Props.Dict
import Verif.Props.Type2Numbers
/-!
# Properties C69 and C70: order of operands, dictionaries that can be written
-/
namespace PS
open PS.Spec F32

/-! ## C69 -/

theorem val_signed (s : Bool) (m e : Nat) : val s m e = signed s (val false m e) := by
  cases s <;> simp [val, signed, neg_div]

theorem val_nonneg (m e : Nat) : 0 ≤ val false m e := by
  simp only [val, Bool.false_eq_true, if_false]
  positivity

theorem nearest_signed {s : Bool} {q : ℚ} (hq : 0 ≤ q) {m e : Nat} (h : Nearest s q (fin s m e)) {t : Bool} {n f : Nat}
    (hn : (fin t n f).WF) : |signed s q - val s m e| ≤ |signed s q - val t n f| := by
  have hsame : ∀ {n f}, (fin false n f).WF → |signed s q - val s m e| ≤ |signed s q - val s n f| := by
    intro n f hn
    have := (h.2.2.2 n f hn).1
    rw [val_signed s m e, val_signed s n f]
    cases s
    · simpa [signed] using this
    · simp only [signed, if_true]
      rw [← abs_neg, ← abs_neg (_ - _)]
      convert this using 2 <;> ring
  by_cases hst : s = t
  · subst hst
    exact hsame hn
  · have h0 := hsame (n := 0) (f := 0) (by decide)
    refine h0.trans ?_
    have hv := val_nonneg n f
    rw [val_signed s 0 0, val_signed t n f]
    have hz : val false 0 0 = 0 := by simp [val]
    rw [hz]
    obtain rfl : t = !s := by cases s <;> cases t <;> simp_all
    cases s
    · simp only [signed, Bool.not_false, if_true, Bool.false_eq_true, if_false]
      rw [abs_of_nonneg (by linarith), abs_of_nonneg (by linarith)]
      linarith
    · simp only [signed, Bool.not_true, if_true, Bool.false_eq_true, if_false]
      rw [abs_of_nonpos (by linarith), abs_of_nonpos (by linarith)]
      linarith

theorem nearest_mono {s t : Bool} {q r : ℚ} (hq : 0 ≤ q) (hr : 0 ≤ r) {x y : F32} (hx : Nearest s q x) (hy : Nearest t r y)
    (h : signed s q ≤ signed t r) : LessEqual x y := by
  have hT : (0 : ℚ) < (2 ^ 25 - 1) * 2 ^ 103 := by norm_num
  match x, y with
  | nan, _ => exact hx.elim
  | _, nan => exact hy.elim
  | inf a, inf b =>
    obtain ⟨rfl, hx⟩ := hx
    obtain ⟨rfl, hy⟩ := hy
    show a = true ∨ b = false
    cases a <;> cases b <;> simp_all [signed]
    linarith
  | inf a, fin b n f =>
    obtain ⟨rfl, hx⟩ := hx
    obtain ⟨rfl, hlt, _⟩ := hy
    show a = true
    cases a
    · cases b <;> simp only [signed, Bool.false_eq_true, if_true, if_false] at h <;> linarith
    · rfl
  | fin a m e, inf b =>
    obtain ⟨rfl, hlt, _⟩ := hx
    obtain ⟨rfl, hy⟩ := hy
    show b = false
    cases b
    · rfl
    · cases a <;> simp only [signed, Bool.false_eq_true, if_true, if_false] at h <;> linarith
  | fin a m e, fin b n f =>
    show val a m e ≤ val b n f
    obtain rfl := hx.1
    obtain rfl := hy.1
    have h1 := nearest_signed hq hx hy.2.2.1
    have h2 := nearest_signed hr hy hx.2.2.1
    by_contra hlt
    push Not at hlt
    have e1 : signed a q = signed b r ∧ 2 * signed a q = val a m e + val b n f := by
      have g1 : val a m e + val b n f ≤ 2 * signed a q := by
        rcases abs_cases (signed a q - val a m e) with ⟨k, _⟩ | ⟨k, _⟩ <;>
          rcases abs_cases (signed a q - val b n f) with ⟨k', _⟩ | ⟨k', _⟩ <;> linarith
      have g2 : 2 * signed b r ≤ val a m e + val b n f := by
        rcases abs_cases (signed b r - val a m e) with ⟨k, _⟩ | ⟨k, _⟩ <;>
          rcases abs_cases (signed b r - val b n f) with ⟨k', _⟩ | ⟨k', _⟩ <;> linarith
      constructor <;> linarith
    by_cases hab : a = b
    · subst hab
      have : q = r := by
        have := e1.1
        cases a <;> simpa [signed] using this
      subst this
      have := hx.unique hy
      simp only [fin.injEq, true_and] at this
      rw [this.1, this.2] at hlt
      exact lt_irrefl _ hlt
    · have hzero : signed a q = 0 ∧ signed b r = 0 := by
        have := e1.1
        cases a <;> cases b <;> first | exact absurd rfl hab | (simp only [signed, Bool.false_eq_true, if_true, if_false] at *; constructor <;> linarith)
      have z1 := nearest_signed hq hx (t := a) (n := 0) (f := 0) (by cases a <;> decide)
      have z2 := nearest_signed hr hy (t := b) (n := 0) (f := 0) (by cases b <;> decide)
      have hz : ∀ s, val s 0 0 = 0 := by simp [val]
      rw [hzero.1, hz, zero_sub, abs_neg, sub_self, abs_zero] at z1
      rw [hzero.2, hz, zero_sub, abs_neg, sub_self, abs_zero] at z2
      have k1 := abs_nonpos_iff.mp z1
      have k2 := abs_nonpos_iff.mp z2
      rw [k1, k2] at hlt
      exact lt_irrefl _ hlt

theorem magnitude_nonneg (d : Decimal) : 0 ≤ d.magnitude := by
  unfold Decimal.magnitude
  positivity

/-- **C69.**  Reading keeps the order of real operands: of two literals the greater one is
not read as a smaller number. -/
theorem C69_order {d d' : Decimal} (hd : d.Valid) (hd' : d'.Valid) (h : d.value ≤ d'.value) {bs bs' : List UInt8}
    (hb : Packed d.text bs) (hb' : Packed d'.text bs') (cfg cfg' : Config) (pre post pre' post' : List UInt8) :
    ∃ x x' q q', Number.read (tape cfg (pre ++ (0x1e :: bs) ++ post)) pre.length = (.ok (.real x), q) ∧
      Number.read (tape cfg' (pre' ++ (0x1e :: bs') ++ post')) pre'.length = (.ok (.real x'), q') ∧ LessEqual x x' := by
  obtain ⟨x, h1, h2⟩ := C04_real_correctly_rounded hd hb cfg pre post
  obtain ⟨x', h1', h2'⟩ := C04_real_correctly_rounded hd' hb' cfg' pre' post'
  exact ⟨x, x', _, _, h1, h1', nearest_mono (magnitude_nonneg d) (magnitude_nonneg d') h2 h2' h⟩

/-- **C69.**  Literals of the same value and sign are read as the same number, however they
are spelled and packed. -/
theorem C69_spelling {d d' : Decimal} (hd : d.Valid) (hd' : d'.Valid) (hn : d.neg = d'.neg) (h : d.value = d'.value)
    {bs bs' : List UInt8} (hb : Packed d.text bs) (hb' : Packed d'.text bs') (cfg cfg' : Config)
    (pre post pre' post' : List UInt8) :
    (Number.read (tape cfg (pre ++ (0x1e :: bs) ++ post)) pre.length).1 =
      (Number.read (tape cfg' (pre' ++ (0x1e :: bs') ++ post')) pre'.length).1 := by
  obtain ⟨x, h1, h2⟩ := C04_real_correctly_rounded hd hb cfg pre post
  obtain ⟨x', h1', h2'⟩ := C04_real_correctly_rounded hd' hb' cfg' pre' post'
  have hm : d.magnitude = d'.magnitude := by
    unfold Decimal.value at h
    rw [hn] at h
    cases hs : d'.neg <;> rw [hs] at h <;> simpa [signed] using h
  rw [hn, hm] at h2
  rw [h1, h1', h2.unique h2']

/-- **C69.**  The same for the fixed-point operands of Type 2 programs. -/
theorem C69_fixed {i j : Int} (h1 : -2147483648 ≤ i) (h : i ≤ j) (h2 : j ≤ 2147483647) (cfg cfg' : Config)
    (pre post pre' post' : List UInt8) :
    ∃ x y, Type2.readNumber (tape cfg (pre ++ (255 :: beSigned 4 i) ++ post)) pre.length = (.ok x, pre.length + 5) ∧
      Type2.readNumber (tape cfg' (pre' ++ (255 :: beSigned 4 j) ++ post')) pre'.length = (.ok y, pre'.length + 5) ∧
      LessEqual x y := by
  obtain ⟨x, n1, r1⟩ := Type2.C37_fixed_round_trip h1 (h.trans h2) cfg pre post
  obtain ⟨y, n2, r2⟩ := Type2.C37_fixed_round_trip (h1.trans h) h2 cfg' pre' post'
  have hs : ∀ i : Int, signed (decide (i < 0)) ((i.natAbs : ℚ) / 2 ^ 16) = (i : ℚ) / 2 ^ 16 := by
    intro i
    unfold signed
    by_cases hi : i < 0
    · have : (i.natAbs : ℚ) = -(i : ℚ) := by
        rw [Nat.cast_natAbs, abs_of_neg hi]
        push_cast
        rfl
      rw [if_pos (by simpa using hi), this]
      ring
    · have : (i.natAbs : ℚ) = (i : ℚ) := by
        rw [Nat.cast_natAbs, abs_of_nonneg (by omega)]
      rw [if_neg (by simpa using hi), this]
  refine ⟨x, y, r1, r2, nearest_mono (by positivity) (by positivity) n1 n2 ?_⟩
  rw [hs, hs]
  have : (i : ℚ) ≤ j := by exact_mod_cast h
  exact div_le_div_of_nonneg_right this (by positivity)

/-- `-0.5` and `-50e-2` have the same value, `-0.5` is less than `1`. -/
example : Decimal.value ⟨true, [0], some [5], none⟩ = Decimal.value ⟨true, [5, 0], none, some (true, [2])⟩ ∧
    Decimal.value ⟨true, [0], some [5], none⟩ ≤ Decimal.value ⟨false, [1], none, none⟩ := by
  constructor
  · norm_num [Decimal.value, signed, Decimal.magnitude, Decimal.mantissa, Decimal.number, Decimal.exponent, Decimal.expValue]
  · norm_num [Decimal.value, signed, Decimal.magnitude, Decimal.mantissa, Decimal.number, Decimal.exponent, Decimal.expValue]

/-! ## C70 -/

theorem number_append (as bs : List (Fin 10)) :
    Decimal.number (as ++ bs) = Decimal.number as * 10 ^ bs.length + Decimal.number bs := by
  induction as with
  | nil => simp [Decimal.number]
  | cons a as ih =>
    simp only [List.cons_append, Decimal.number, ih, List.length_append, Nat.pow_add]
    ring

theorem exists_number (n : Nat) : ∃ ds : List (Fin 10), ds ≠ [] ∧ Decimal.number ds = n := by
  induction n using Nat.strong_induction_on with
  | _ n ih =>
    by_cases h : n < 10
    · exact ⟨[⟨n, h⟩], by simp, by simp [Decimal.number]⟩
    · obtain ⟨ds, h1, h2⟩ := ih (n / 10) (by omega)
      refine ⟨ds ++ [⟨n % 10, by omega⟩], by simp, ?_⟩
      rw [number_append, h2]
      simp [Decimal.number]
      omega

/-- Every binary32 number but NaN is the value of a literal. -/
theorem exists_literal {x : F32} (hw : x.WF) (hn : x ≠ nan) : ∃ d : Decimal, d.Valid ∧ Nearest d.neg d.magnitude x := by
  match x with
  | nan => exact absurd rfl hn
  | inf s =>
    refine ⟨⟨s, [1], none, some (false, [3, 9])⟩, ⟨by simp, by simp⟩, rfl, ?_⟩
    norm_num [Decimal.magnitude, Decimal.mantissa, Decimal.number, Decimal.exponent, Decimal.expValue]
  | fin s m e =>
    obtain ⟨ds, h1, h2⟩ := exists_number (m * 2 ^ e * 5 ^ 149)
    refine ⟨⟨s, ds, none, some (true, [1, 4, 9])⟩, ⟨by simpa using h1, by simp⟩, ?_⟩
    have : Decimal.magnitude ⟨s, ds, none, some (true, [1, 4, 9])⟩ = val false m e := by
      have h3 : (10 : ℚ) ^ (149 : ℕ) = 2 ^ 149 * 5 ^ 149 := by rw [← mul_pow]; norm_num
      simp only [Decimal.magnitude, Decimal.mantissa, Option.getD_none, List.append_nil, h2]
      have h4 : Decimal.exponent ⟨s, ds, none, some (true, [1, 4, 9])⟩ = -((149 : ℕ) : ℤ) := by
        simp [Decimal.exponent, Decimal.expValue, Decimal.number]
      rw [h4, zpow_neg, zpow_natCast, h3]
      simp only [val, Bool.false_eq_true, if_false]
      push_cast
      field_simp
      norm_num
    rw [this]
    exact nearest_self hw

theorem exists_operand {n : Number} (h : Holdable n) : ∃ bs, Operand n bs := by
  match n with
  | .integer i => exact ⟨_, .long i h.1 h.2⟩
  | .real x =>
    obtain ⟨d, h1, h2⟩ := exists_literal h.1 h.2
    obtain ⟨bs, h3⟩ := packed_exists d
    exact ⟨_, d, bs, h1, h3, rfl, h2⟩

theorem operand_holdable {n : Number} {bs : List UInt8} (h : Operand n bs) : Holdable n := by
  match n with
  | .integer i =>
    cases h with
    | long h1 h2 => exact ⟨h1, h2⟩
    | short h =>
      cases h with
      | oneByte b h1 h2 => exact ⟨by omega, by omega⟩
      | positive b c h1 h2 => have := c.toNat_lt; exact ⟨by omega, by omega⟩
      | negative b c h1 h2 => have := c.toNat_lt; exact ⟨by omega, by omega⟩
      | word i h1 h2 => exact ⟨by omega, by omega⟩
  | .real x =>
    obtain ⟨d, _, _, _, _, hx⟩ := h
    exact ⟨hx.wf, by rintro rfl; exact hx⟩

/-- **C70.**  A number can be read from a dictionary if and only if it is a 32-bit integer
or a binary32 number other than NaN. -/
theorem C70_number_iff (n : Number) :
    (∃ cfg data p q, Number.read (tape cfg data) p = (.ok n, q)) ↔ Holdable n := by
  constructor
  · rintro ⟨cfg, data, p, q, h⟩
    obtain ⟨bs, hb, _⟩ := (exact_operand (tape cfg data) p n q).mp h
    exact operand_holdable hb
  · intro h
    obtain ⟨bs, hb⟩ := exists_operand h
    exact ⟨⟨true, true, 0, fun p _ => p⟩, bs, 0, _, (exact_operand _ _ _ _).mpr ⟨bs, hb, by simp [tape], rfl⟩⟩

theorem exists_seq {R : α → List UInt8 → Prop} {as : List α} (h : ∀ a ∈ as, ∃ b, R a b) : ∃ bs, Seq R as bs := by
  induction as with
  | nil => exact ⟨[], .nil⟩
  | cons a as ih =>
    obtain ⟨b, hb⟩ := h a List.mem_cons_self
    obtain ⟨bs, hbs⟩ := ih fun x hx => h x (List.mem_cons_of_mem _ hx)
    exact ⟨_, .cons hb hbs⟩

theorem seq_mem {R : α → List UInt8 → Prop} {as : List α} {bs : List UInt8} (h : Seq R as bs) {a : α} (ha : a ∈ as) :
    ∃ b, R a b := by
  induction h with
  | nil => simp at ha
  | cons h _ ih =>
    rcases List.mem_cons.mp ha with rfl | ha
    · exact ⟨_, h⟩
    · exact ih ha

/-- **C70.**  Every list of operations with such numbers can be written as a dictionary. -/
theorem C70_operations {ops : List (Operator × List Number)} (h : ∀ x ∈ ops, ∀ n ∈ x.2, Holdable n) : ∃ bs, Dict ops bs := by
  refine exists_seq fun x hx => ?_
  obtain ⟨bs, hb⟩ := exists_seq (R := Operand) (as := x.2) fun n hn => exists_operand (h x hx n hn)
  exact ⟨_, bs, hb, rfl⟩

example : ∃ bs, Dict [(.opBlueShift, [.real (.inf true), .integer (-2 ^ 31)]), (.opFontBBox, []), (.opBlueShift, [.integer 7])] bs := by
  refine C70_operations ?_
  have h1 : Holdable (.real (.inf true)) := ⟨by decide, by decide⟩
  have h2 : Holdable (.integer (-2 ^ 31)) := ⟨by decide, by decide⟩
  have h3 : Holdable (.integer 7) := ⟨by decide, by decide⟩
  simp only [List.mem_cons, List.not_mem_nil, or_false]
  rintro _ (rfl | rfl | rfl) n hn <;> simp only [List.mem_cons, List.not_mem_nil, or_false] at hn
  · rcases hn with rfl | rfl <;> assumption
  · exact hn ▸ h3

theorem last_mem {ops : List (Operator × List Number)} {op : Operator} {xs : List Number} (h : Last ops op xs) :
    (op, xs) ∈ ops := by
  obtain ⟨a, b, rfl, _⟩ := h
  simp

theorem exists_last {ops : List (Operator × List Number)} {op : Operator} {xs : List Number} (h : (op, xs) ∈ ops) :
    ∃ ys, Last ops op ys := by
  induction ops generalizing xs with
  | nil => simp at h
  | cons x ops ih =>
    by_cases hx : ∃ ys, (op, ys) ∈ ops
    · obtain ⟨zs, a, b, rfl, hb⟩ := ih hx.choose_spec
      exact ⟨zs, x :: a, b, rfl, hb⟩
    · rcases List.mem_cons.mp h with rfl | h
      · exact ⟨xs, [], ops, rfl, fun y hy he => hx ⟨y.2, by rw [← he]; exact hy⟩⟩
      · exact absurd ⟨xs, h⟩ hx

/-- All operators. -/
def everyOperator : List Operator := (List.range 65536).filterMap fun n =>
  match Operator.from (UInt16.ofNat n) with
  | .ok op => some op
  | _ => none

theorem mem_everyOperator (op : Operator) : op ∈ everyOperator := by
  obtain ⟨code, h⟩ := C15_operator_surjective op
  refine List.mem_filterMap.mpr ⟨code.toNat, List.mem_range.mpr code.toNat_lt, ?_⟩
  simp [h]

/-- **C70.**  A map from operators to operands can be read from a dictionary if and only if
all the operands are 32-bit integers or binary32 numbers other than NaN. -/
theorem C70_dictionary_iff (o : Operations) :
    (∃ cfg data p q, Operations.read (tape cfg data) p = (.ok o, q)) ↔
      ∀ op operands, o.map op = some operands → ∀ n ∈ operands, Holdable n := by
  constructor
  · rintro ⟨cfg, data, p, q, h⟩ op operands ho n hn
    obtain ⟨ops, bs, rest, h1, _, _, rfl⟩ := operations_ok.mp ⟨q, h⟩
    obtain ⟨_, b, hb, _⟩ := seq_mem h1 (last_mem ((insertAll_map ops op operands).mp ho))
    obtain ⟨_, hb⟩ := seq_mem hb hn
    exact operand_holdable hb
  · intro h
    let ops := everyOperator.filterMap fun op => (o.map op).map fun xs => (op, xs)
    have hmem : ∀ op xs, (op, xs) ∈ ops ↔ o.map op = some xs := by
      intro op xs
      simp only [ops, List.mem_filterMap, Option.map_eq_some_iff, Prod.mk.injEq]
      constructor
      · rintro ⟨_, _, _, h, rfl, rfl⟩
        exact h
      · intro h
        exact ⟨op, mem_everyOperator op, xs, h, rfl, rfl⟩
    obtain ⟨bs, hb⟩ := C70_operations (ops := ops) fun x hx n hn => h x.1 x.2 ((hmem _ _).mp hx) n hn
    obtain ⟨o', q, h1, h2⟩ := C10_dict_last_write_wins hb ⟨true, true, 0, fun p _ => p⟩ []
    refine ⟨_, _, _, q, h1.trans ?_⟩
    have : o'.map = o.map := by
      funext op
      apply Option.ext
      intro xs
      rw [h2]
      constructor
      · exact fun h => (hmem _ _).mp (last_mem h)
      · intro h
        obtain ⟨ys, hy⟩ := exists_last ((hmem _ _).mpr h)
        have := (hmem _ _).mp (last_mem hy)
        rw [h] at this
        cases this
        exact hy
    cases o
    cases o'
    simp only at this
    rw [this]

/-- A number that needs 108 digits: the least positive one, `2^-149`. -/
example : Holdable (.real (.fin false 1 0)) ∧ Holdable (.real (.inf true)) ∧ ¬ Holdable (.real .nan) ∧ ¬ Holdable (.integer (2 ^ 31)) := by
  refine ⟨⟨by decide, by decide⟩, ⟨by decide, by decide⟩, fun h => h.2 rfl, fun h => absurd h.2 (by decide)⟩

end PS
