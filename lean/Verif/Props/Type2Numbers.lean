import Verif.Lemmas.Type2Next
import Verif.Props.Numbers
/-!
# Properties C37, C38 and C53: operands, operators and integer arguments of Type 2 programs
-/
namespace PS.Type2
open PS.Spec hiding Operand Operation
open PS.Type2.Spec

theorem operand_byte (b : UInt8) (h : 32 ≤ b.toNat) (h' : b.toNat ≤ 246) :
    Operand (F32.ofInt (b.toNat - 139)) [b] := operand_iff.mpr (.inl ⟨_, .oneByte b h h', rfl⟩)

theorem isInt_of {x : F32} {i : Int} (hx : x.WF) (h : F32.beq (F32.ofInt x.toI32) x = true ∧ x.toI32 = i)
    (hi : i < 2 ^ 31 - 1) : IsInt x i := by
  rcases (intArg_iff hx).mp h with ⟨h, _⟩ | ⟨_, rfl⟩
  · exact h
  · omega

/-! ## C37 -/

/-- **C37.**  Reading an operand returns `x` and stops at `q` if and only if the
bytes between are a legal encoding of an operand whose nearest binary32 number is
`x`, on any tape and at any position. -/
theorem C37_operand_iff (cfg : Config) (data : List UInt8) (p q : Nat) (x : F32) :
    readNumber (PS.tape cfg data) p = (.ok x, q) ↔
      ∃ bs, Operand x bs ∧ bs <+: data.drop p ∧ q = p + bs.length :=
  exact_readNumber (PS.tape cfg data) p x q

theorem shortInt_bounds {i : Int} {bs : List UInt8} (h : ShortInt i bs) : -32768 ≤ i ∧ i ≤ 32767 := by
  cases h with
  | oneByte b h1 h2 => omega
  | positive b c h1 h2 => have := c.toNat_lt; omega
  | negative b c h1 h2 => have := c.toNat_lt; omega
  | word i h1 h2 => omega

theorem ofFixed_exact {m e : Nat} {i : Int} (h : (F32.fin false m e).WF) (hv : m * 2 ^ e = i.natAbs * 2 ^ 133) :
    F32.ofFixed i = F32.fin (decide (i < 0)) m e := by
  unfold F32.ofFixed
  exact round_exact Nat.one_pos h (by rw [hv, Nat.mul_one])

theorem signed_val {i : Int} {m e j : Nat} (hj : j ≤ 149) (hv : m * 2 ^ e = i.natAbs * 2 ^ (149 - j)) :
    val (decide (i < 0)) m e = (i : ℚ) / 2 ^ j := by
  have h1 : (m : ℚ) * 2 ^ e = (i.natAbs : ℚ) * 2 ^ (149 - j) := by exact_mod_cast hv
  have h2 : (2 : ℚ) ^ 149 = 2 ^ (149 - j) * 2 ^ j := by rw [← pow_add]; congr 1; omega
  have h3 : (if decide (i < 0) = true then (-1 : ℚ) else 1) * (i.natAbs : ℚ) = i := by
    by_cases hi : i < 0
    · rw [if_pos (by simpa using hi)]
      have : ((i.natAbs : ℤ) : ℚ) = ((-i : ℤ) : ℚ) := by congr 1; omega
      rw [Int.cast_natCast] at this
      rw [this]; push_cast; ring
    · rw [if_neg (by simpa using hi)]
      have : ((i.natAbs : ℤ) : ℚ) = (i : ℚ) := by congr 1; omega
      rw [Int.cast_natCast] at this
      rw [this, one_mul]
  unfold val
  rw [mul_assoc, h1, ← mul_assoc, h3, h2]
  have : (2 : ℚ) ^ (149 - j) ≠ 0 := by positivity
  field_simp

/-- **C37**, integers: in each of the forms of each integer the operand read is
exactly that integer, and exactly the encoding is consumed. -/
theorem C37_integers_round_trip {i : Int} {bs : List UInt8} (h : ShortInt i bs) (cfg : Config)
    (pre post : List UInt8) :
    ∃ s m e, val s m e = i ∧
      readNumber (PS.tape cfg (pre ++ bs ++ post)) pre.length = (.ok (.fin s m e), pre.length + bs.length) := by
  obtain ⟨h1, h2⟩ := shortInt_bounds h
  obtain ⟨m, e, hw, hv⟩ := exists_wf false (k := i.natAbs) (j := 149) (by omega) (by omega) (by omega)
  refine ⟨decide (i < 0), m, e, ?_, ?_⟩
  · have := signed_val (j := 0) (by omega) (i := i) (m := m) (e := e) hv
    rw [this]; norm_num
  · have := exact_readNumber.parse (a := F32.ofInt i) (bs := bs) (operand_iff.mpr (.inl ⟨i, h, rfl⟩)) cfg pre post
    rw [ofInt_exact hw hv] at this
    exact this

/-- **C37**, fixed-point numbers: the operand read is the nearest binary32 number
to `i / 2^16`, for each of the `2^32` values of `i`, and five bytes are consumed. -/
theorem C37_fixed_round_trip {i : Int} (h1 : -2147483648 ≤ i) (h2 : i ≤ 2147483647) (cfg : Config)
    (pre post : List UInt8) :
    ∃ x, Nearest (decide (i < 0)) ((i.natAbs : ℚ) / 2 ^ 16) x ∧
      readNumber (PS.tape cfg (pre ++ (255 :: beSigned 4 i) ++ post)) pre.length = (.ok x, pre.length + 5) := by
  refine ⟨F32.ofFixed i, ofFixed_nearest i, ?_⟩
  have := exact_readNumber.parse (operand_iff.mpr (.inr ⟨i, h1, h2, rfl, rfl⟩)) cfg pre post
  have hl : (255 :: beSigned 4 i).length = 5 := by simp [beSigned, be_length]
  rw [hl] at this
  exact this

/-- **C37**, fixed-point numbers with at most 24 significant bits: the operand is
exactly `i / 2^16`. -/
theorem C37_fixed_exact {i : Int} (h1 : -2147483648 ≤ i) (h2 : i ≤ 2147483647) {k j : Nat} (hk : k < 2 ^ 24)
    (hi : i.natAbs = k * 2 ^ j) (cfg : Config) (pre post : List UInt8) :
    ∃ s m e, val s m e = (i : ℚ) / 2 ^ 16 ∧
      readNumber (PS.tape cfg (pre ++ (255 :: beSigned 4 i) ++ post)) pre.length =
        (.ok (.fin s m e), pre.length + 5) := by
  obtain ⟨m, e, hw, hv⟩ : ∃ m e, (F32.fin false m e).WF ∧ m * 2 ^ e = i.natAbs * 2 ^ 133 := by
    by_cases hj : j ≤ 32
    · obtain ⟨m, e, hw, hv⟩ := exists_wf false (k := k) (j := j + 133) hk (by omega) (by omega)
      exact ⟨m, e, hw, by rw [hv, hi, Nat.pow_add]; ring⟩
    · have hk0 : k = 0 := by
        by_contra hne
        have h3 : 2 ^ 33 ≤ 2 ^ j := Nat.pow_le_pow_right (by norm_num) (by omega)
        have h4 : 1 * 2 ^ j ≤ k * 2 ^ j := Nat.mul_le_mul_right _ (by omega)
        omega
      subst hk0
      exact ⟨0, 0, wf_zero _, by rw [hi]; simp⟩
  refine ⟨decide (i < 0), m, e, signed_val (by omega) hv, ?_⟩
  obtain ⟨x, hn, hr⟩ := C37_fixed_round_trip h1 h2 cfg pre post
  rw [hr, hn.unique (ofFixed_nearest i), ofFixed_exact hw hv]

example : ShortInt (-1000) [254, 124] := .negative 254 124 (by decide) (by decide)
/-- 1.5 -/
example : ∃ k j : Nat, k < 2 ^ 24 ∧ (98304 : Int).natAbs = k * 2 ^ j := ⟨3, 15, by decide, by decide⟩
/-- A fixed-point number that is not a binary32 number: it has 31 significant bits. -/
example : F32.ofFixed 0x7fffffff = F32.ofInt 32768 := by decide +kernel

/-! ## C38 -/

/-- **C38.**  The accepted codes are those of the specification, each for its
operator; every other code is an error. -/
theorem C38_codes (code : UInt16) :
    (∀ op, Operator.from code = .ok op ↔ lookupCode (bytes op) = some code.toNat) ∧
    ((∀ op, lookupCode (bytes op) ≠ some code.toNat) → Operator.from code = .err (.raised .unknownOperator)) := by
  have key : ∀ op, lookupCode (bytes op) = some (codeOf op).toNat := by
    intro op; cases op <;> decide
  have h1 : ∀ op, Operator.from code = .ok op ↔ lookupCode (bytes op) = some code.toNat := by
    intro op
    rw [from_ok, key]
    constructor
    · rintro rfl; rfl
    · intro h; exact (UInt16.toNat_inj.mp (Option.some.inj h)).symm
  refine ⟨h1, fun hn => ?_⟩
  rcases from_total code with ⟨op, h⟩ | h
  · exact absurd ((h1 op).mp h) (hn op)
  · exact h

/-- **C38.**  Distinct codes stand for distinct operators. -/
theorem C38_injective {c d : UInt16} {op : Operator} (hc : Operator.from c = .ok op) (hd : Operator.from d = .ok op) :
    c = d := by
  rw [from_ok] at hc hd
  rw [hc, hd]

example : Operator.from 0x0c1e = .ok .opRoll ∧ ∀ d, Operator.from d = .ok .opRoll → 0x0c1e = d :=
  ⟨rfl, fun _ h => C38_injective rfl h⟩

/-- **C38.**  No operator starts with a byte that starts an operand. -/
theorem C38_disjoint {x : F32} {bs : List UInt8} (h : Operand x bs) (op : Operator) : bs.head? ≠ (bytes op).head? := by
  obtain ⟨b, l, rfl, hb⟩ := operand_head h
  obtain ⟨c, m, he, hc⟩ := bytes_head op
  rw [he]
  intro h
  simp only [List.head?_cons, Option.some.injEq] at h
  rw [h, hc] at hb
  simp at hb

example (op : Operator) : ([149] : List UInt8).head? ≠ (bytes op).head? :=
  C38_disjoint (operand_byte 149 (by decide) (by decide)) op

theorem reserved_unknown {tail : List UInt8}
    (h : (∃ b t, tail = b :: t ∧ b ≠ 12 ∧ b ≠ 28 ∧ b < 32 ∧ ∀ op, bytes op ≠ [b]) ∨
      (∃ b t, tail = 12 :: b :: t ∧ ∀ op, bytes op ≠ [12, b])) : Unknown tail := by
  have hnot : ∀ {c : UInt8}, c ≠ 28 → c < 32 → isOperandByte c = false := by
    intro c h1 h2
    rcases hb : isOperandByte c with _ | _
    · rfl
    · rw [isOperandByte_iff] at hb
      rw [UInt8.lt_iff_toNat_lt] at h2
      rcases hb with hb | hb
      · exact absurd (UInt8.toNat_inj.mp (by simpa using hb)) h1
      · simp at h2; omega
  rcases h with ⟨b, t, rfl, h1, h2, h3, h4⟩ | ⟨b, t, rfl, h4⟩
  · have hb := hnot h2 h3
    refine ⟨?_, ?_, ?_⟩
    · rintro x bs ho ⟨r, hr⟩
      obtain ⟨c, l, rfl, hc⟩ := operand_head ho
      simp only [List.cons_append, List.cons.injEq] at hr
      rw [hr.1, hb] at hc
      simp at hc
    · rintro op ⟨r, hr⟩
      rcases bytes_cases op with ⟨c, hc, _⟩ | ⟨c, hc, _⟩
      · rw [hc] at hr
        simp only [List.cons_append, List.nil_append, List.cons.injEq] at hr
        rw [hr.1] at hc
        exact h4 op hc
      · rw [hc] at hr
        simp only [List.cons_append, List.cons.injEq] at hr
        exact h1 hr.1.symm
    · rintro (⟨x, bs, ho, ⟨r, hr⟩, _⟩ | ⟨op, ⟨r, hr⟩, hne⟩)
      · obtain ⟨c, l, rfl, hc⟩ := operand_head ho
        simp only [List.cons_append, List.cons.injEq] at hr
        rw [← hr.1, hb] at hc
        simp at hc
      · rcases bytes_cases op with ⟨c, hc, _⟩ | ⟨c, hc, _⟩
        · rw [hc] at hr hne
          simp only [List.cons_append, List.cons.injEq, List.append_eq_nil_iff] at hr
          exact hne (by rw [hr.1, hr.2.1])
        · rw [hc] at hr
          simp only [List.cons_append, List.cons.injEq] at hr
          exact h1 hr.1
  · refine ⟨?_, ?_, ?_⟩
    · rintro x bs ho ⟨r, hr⟩
      obtain ⟨c, l, rfl, hc⟩ := operand_head ho
      simp only [List.cons_append, List.cons.injEq] at hr
      rw [hr.1] at hc
      exact absurd hc (by decide)
    · rintro op ⟨r, hr⟩
      rcases bytes_cases op with ⟨c, hc, hc', _⟩ | ⟨c, hc, _⟩
      · rw [hc] at hr
        simp only [List.cons_append, List.nil_append, List.cons.injEq] at hr
        exact hc' hr.1
      · rw [hc] at hr
        simp only [List.cons_append, List.nil_append, List.cons.injEq, true_and] at hr
        rw [hr.1] at hc
        exact h4 op hc
    · rintro (⟨x, bs, ho, ⟨r, hr⟩, _⟩ | ⟨op, ⟨r, hr⟩, hne⟩)
      · obtain ⟨c, l, rfl, hc⟩ := operand_head ho
        simp only [List.cons_append, List.cons.injEq] at hr
        rw [← hr.1] at hc
        exact absurd hc (by decide)
      · rcases bytes_cases op with ⟨c, hc, hc', _⟩ | ⟨c, hc, _⟩
        · rw [hc] at hr
          simp only [List.cons_append, List.cons.injEq] at hr
          exact hc' hr.1.symm
        · rw [hc] at hr hne
          simp only [List.cons_append, List.cons.injEq, List.append_eq_nil_iff, true_and] at hr
          exact hne (by rw [hr.1, hr.2.1])

/-- **C38.**  A reserved code after any operands makes `next` fail. -/
theorem C38_reserved_fail (cfg : Config) {s : Program} {xs : List F32} {bs tail : List UInt8} (hx : Seq Operand xs bs)
    (hl : left s.routine = bs ++ tail)
    (h : (∃ b t, tail = b :: t ∧ b ≠ 12 ∧ b ≠ 28 ∧ b < 32 ∧ ∀ op, bytes op ≠ [b]) ∨
      (∃ b t, tail = 12 :: b :: t ∧ ∀ op, bytes op ≠ [12, b])) :
    ∃ s', Next cfg s (.err (.raised .unknownOperator)) s' := by
  obtain ⟨s', he⟩ := step_unknown (cfg := cfg) hx hl (reserved_unknown h)
  exact ⟨s', (next_err he).mpr ⟨rfl, rfl⟩⟩

/-- **C38.**  The operators that are not implemented make `next` fail. -/
theorem C38_unsupported_fail (cfg : Config) {s : Program} {xs : List F32} {bs r : List UInt8} {op : Operator}
    (hx : Seq Operand xs bs) (hop : op = .opPut ∨ op = .opGet ∨ op = .opRandom)
    (hl : left s.routine = bs ++ bytes op ++ r) :
    ∃ s', Next cfg s (.err (.raised .unsupportedOperator)) s' := by
  have he := step_fetch (cfg := cfg) hx hl
  rcases hop with rfl | rfl | rfl <;> exact ⟨_, (next_err he).mpr ⟨rfl, rfl⟩⟩

/-- The reserved codes 0 and 12 0, after an operand. -/
example : ∀ op, bytes op ≠ [0] := by intro op; cases op <;> decide
example : ∀ op, bytes op ≠ [12, 0] := by intro op; cases op <;> decide
example : left (Program.new [139, 12, 0] [] []).routine = [139] ++ 12 :: 0 :: [] := rfl
example : left (Program.new [139, 12, 23] [] []).routine = [139] ++ bytes .opRandom ++ [] := rfl

/-! ## C53 -/

/-- **C53**, in part: an operand is taken as an integer argument if and only if it
is an integer of 32 bits, or `2^31`, which is taken as `2^31 - 1`.  Missing: `2^31`
should be rejected (see `C53_exact_false`). -/
theorem C53_integer_argument_partial (cfg : Config) {s : Program} {st : List F32} {x : F32} (hx : x.WF)
    (hs : s.stack = st ++ [x]) (i : Int) :
    popInt cfg s = (.ok i, { s with stack := st }) ↔
      (IsInt x i ∧ -2 ^ 31 ≤ i ∧ i < 2 ^ 31) ∨ (IsInt x (2 ^ 31) ∧ i = 2 ^ 31 - 1) := by
  constructor
  · intro h
    by_cases hi : ∃ j, IntArg x j
    · obtain ⟨j, hj⟩ := hi
      rw [popInt_ok hs hx hj] at h
      simp only [Prod.mk.injEq, Res.ok.injEq, and_true] at h
      rw [← h]
      exact hj
    · rw [popInt_err hs hx (fun j hj => hi ⟨j, hj⟩)] at h
      simp at h
  · intro h
    exact popInt_ok hs hx h

/-- `2^31` is taken for `2^31 - 1`; `-107` for itself. -/
example (cfg : Config) (s : Program) (h : s.stack = [F32.ofInt 5, F32.ofInt (-107)]) :
    popInt cfg s = (.ok (-107), { s with stack := [F32.ofInt 5] }) :=
  (C53_integer_argument_partial cfg (round_wf _ Nat.one_pos) h (-107)).mpr
    (.inl ⟨(isInt_of (by decide +kernel) (by decide +kernel) (by decide)), by decide, by decide⟩)

/-- **C53.**  Everything else is rejected: the numbers that are not finite, those
with a fraction, and those beyond 32 bits other than `2^31`. -/
theorem C53_rejected_partial (cfg : Config) {s : Program} {st : List F32} {x : F32} (hx : x.WF)
    (hs : s.stack = st ++ [x])
    (h : (∀ s m e, x ≠ .fin s m e) ∨ (∃ s m e, x = .fin s m e ∧ ∀ i : Int, val s m e ≠ i) ∨
      (∃ i : Int, IsInt x i ∧ (i < -2 ^ 31 ∨ 2 ^ 31 < i))) :
    popInt cfg s = (.err (.raised .expectedOtherOperand), { s with stack := st }) := by
  refine popInt_err hs hx ?_
  have hno : ∀ j, IsInt x j → (∃ i : Int, IsInt x i ∧ (i < -2 ^ 31 ∨ 2 ^ 31 < i)) := by
    intro j hj
    rcases h with h | ⟨s, m, e, rfl, h⟩ | h
    · obtain ⟨s, m, e, he, _⟩ := hj
      exact absurd he (h s m e)
    · obtain ⟨s', m', e', he, hv⟩ := hj
      cases he
      exact absurd hv (h j)
    · exact h
  rintro j (⟨hj, h1, h2⟩ | ⟨hj, rfl⟩)
  · obtain ⟨i, hi, hr⟩ := hno j hj
    have := isInt_unique hi hj
    omega
  · obtain ⟨i, hi, hr⟩ := hno _ hj
    have := isInt_unique hi hj
    omega

/-- The number `2^31`. -/
def two31 : F32 := .fin false (2 ^ 23) 157

/-- **C53** is false as stated: `2^31` is not a 32-bit integer, and yet it is
accepted, as `2^31 - 1`. -/
theorem C53_exact_false :
    ¬ ∀ (cfg : Config) (s : Program) (st : List F32) (x : F32), x.WF → s.stack = st ++ [x] →
      ∀ i, popInt cfg s = (.ok i, { s with stack := st }) → IsInt x i := by
  intro h
  have hw : two31.WF := by decide
  have hv : IsInt two31 (2 ^ 31) := ⟨false, 2 ^ 23, 157, rfl, by rw [val_false]; norm_num⟩
  have h1 := popInt_ok (cfg := ⟨false, false, 0, fun _ _ => 0⟩) (s := { Program.new [] [] [] with stack := [two31] })
    (st := []) rfl hw (.inr ⟨hv, rfl⟩)
  have h2 := isInt_unique (h _ _ _ _ hw rfl _ h1) hv
  omega

example : IntArg (F32.ofInt (-107)) (-107) := (intArg_iff (round_wf _ Nat.one_pos)).mp (by decide +kernel)
/-- A fraction is rejected. -/
example : ∀ i : Int, val false 3 148 ≠ i := by
  intro i h
  rw [val_false] at h
  have h2 : (3 : ℚ) = 2 * i := by rw [← h]; norm_num
  have h3 : (3 : ℤ) = 2 * i := by exact_mod_cast h2
  omega

end PS.Type2
