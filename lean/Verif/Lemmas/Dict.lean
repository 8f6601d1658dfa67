import Verif.Lemmas.Decimal
import Verif.Lemmas.F32
import Verif.Lemmas.Index
import Verif.Model.Operations
import Verif.Spec.Dict
/-!
# Lemmas about dictionaries
-/
namespace PS
open Spec

/-! ## The end of the tape -/

/-- `m` reports the end of the tape exactly when what is ahead satisfies `C`. -/
def Eof (m : Rd α) (C : List UInt8 → Prop) : Prop :=
  ∀ env p, (∃ q, m env p = (.err .eof, q)) ↔ C (env.data.drop p)

namespace Eof

theorem pure (a : α) : Eof (Pure.pure a : Rd α) (fun _ => False) := by
  intro env p
  simp [Rd.pure_eq]

theorem raise (r : Reason) : Eof (Rd.raise r : Rd α) (fun _ => False) := by
  intro env p
  simp [Rd.raise]

theorem congr {m : Rd α} {C D : List UInt8 → Prop} (h : Eof m C) (hCD : ∀ l, C l ↔ D l) : Eof m D :=
  fun env p => (h env p).trans (hCD _)

theorem readExact (n : Nat) : Eof (Rd.readExact n) (fun l => l.length < n) := by
  intro env p
  have := List.length_drop (i := p) (l := env.data)
  unfold Rd.readExact
  split
  · simp; omega
  · simp; omega

theorem bind {m : Rd α} {f : α → Rd β} {R : α → List UInt8 → Prop} {C : List UInt8 → Prop}
    {D : α → List UInt8 → Prop} (he : Exact m R) (hm : Eof m C) (hf : ∀ a, Eof (f a) (D a)) :
    Eof (m >>= f) (fun l => C l ∨ ∃ a bs l', R a bs ∧ l = bs ++ l' ∧ D a l') := by
  intro env p
  constructor
  · rintro ⟨q, h⟩
    rcases Rd.bind_err.mp h with h | ⟨a, p', h1, h2⟩
    · exact .inl ((hm env p).mp ⟨_, h⟩)
    · obtain ⟨bs, hR, ⟨l', hl⟩, rfl⟩ := (he _ _ _ _).mp h1
      refine .inr ⟨a, bs, l', hR, hl.symm, ?_⟩
      have := (hf a env (p + bs.length)).mp ⟨_, h2⟩
      rwa [← List.drop_drop, ← hl, List.drop_left] at this
  · rintro (h | ⟨a, bs, l', hR, hl, hD⟩)
    · obtain ⟨q, hq⟩ := (hm env p).mpr h
      exact ⟨q, Rd.bind_of_err hq⟩
    · have h1 := (he env p a (p + bs.length)).mpr ⟨bs, hR, ⟨l', hl.symm⟩, rfl⟩
      rw [Rd.bind_of_ok h1]
      apply (hf a _ _).mpr
      rwa [← List.drop_drop, hl, List.drop_left]

theorem bind_pure {m : Rd α} {f : α → β} {R : α → List UInt8 → Prop} {C : List UInt8 → Prop}
    (he : Exact m R) (hm : Eof m C) : Eof (m >>= fun a => Pure.pure (f a)) C :=
  (bind he hm (fun a => pure (f a))).congr (by simp)

theorem u8 : Eof Rd.u8 (fun l => l = []) :=
  (bind_pure (exact_readExact 1) (readExact 1)).congr (by simp)

theorem u16 : Eof Rd.u16 (fun l => l.length < 2) := bind_pure (exact_readExact 2) (readExact 2)
theorem u32 : Eof Rd.u32 (fun l => l.length < 4) := bind_pure (exact_readExact 4) (readExact 4)

end Eof

theorem parseLoop_eof_conv {fuel : Nat} {byte : UInt8} {high : Bool} {buffer : List Char} {env : Env}
    {p q : Nat} (h : Number.parseLoop fuel byte high buffer env p = (.err .eof, q)) :
    ∃ u, spell (pending byte high (env.data.drop p)) = some u := by
  induction fuel generalizing byte high buffer p with
  | zero => simp [Number.parseLoop, Rd.panic] at h
  | succ fuel ih =>
    cases high with
    | true =>
      rcases hd : env.data.drop p with _ | ⟨b, l⟩
      · exact ⟨[], rfl⟩
      · have hl : env.data.drop (p + 1) = l := by
          rw [← List.drop_drop, hd]; rfl
        rw [parseLoop_high hd] at h
        simp only [pending, if_true, List.nil_append, nibbles_cons]
        cases hn : nibbleText (b.toNat / 16) with
        | some t =>
          rw [hn] at h
          obtain ⟨u, hu⟩ := ih h
          rw [hl] at hu
          simp only [pending, Bool.false_eq_true, if_false, List.cons_append, List.nil_append] at hu
          exact ⟨t ++ u, spell_cons.mpr ⟨t, u, hn, hu, rfl⟩⟩
        | none =>
          rw [hn] at h
          simp only [] at h
          split at h <;> simp [Rd.raise, Rd.pure_eq] at h
    | false =>
      rw [parseLoop_low] at h
      simp only [pending, Bool.false_eq_true, if_false, List.cons_append, List.nil_append]
      cases hn : nibbleText (byte.toNat % 16) with
      | some t =>
        rw [hn] at h
        obtain ⟨u, hu⟩ := ih h
        simp only [pending, if_true, List.nil_append] at hu
        exact ⟨t ++ u, spell_cons.mpr ⟨t, u, hn, hu, rfl⟩⟩
      | none =>
        rw [hn] at h
        simp only [] at h
        split at h <;> simp [Rd.raise, Rd.pure_eq] at h

theorem eof_parse : Eof Number.parse (fun l => ∃ u, spell (nibbles l) = some u) := by
  intro env p
  constructor
  · rintro ⟨q, h⟩
    unfold Number.parse at h
    rw [Rd.bind_of_ok (a := env.data.length) (p' := p) rfl] at h
    rcases Rd.bind_err.mp h with h | ⟨t, p', h1, h2⟩
    · obtain ⟨u, hu⟩ := parseLoop_eof_conv h
      exact ⟨u, by simpa [pending] using hu⟩
    · cases hv : parseF32 t <;> rw [hv] at h2 <;> simp [Rd.raise, Rd.pure_eq] at h2
  · rintro ⟨u, hu⟩
    exact parse_eof hu

theorem eof_number : Eof Number.read (fun l => l = [] ∨ CutOperand l) := by
  unfold Number.read
  refine Eof.congr (Eof.bind exact_u8 Eof.u8 (D := fun b0 l => CutOperand (b0 :: l)) ?_) ?_
  · intro b0
    have hb := b0.toNat_lt
    have c1 : (0x20 ≤ b0 ∧ b0 ≤ 0xf6) ↔ 32 ≤ b0.toNat ∧ b0.toNat ≤ 246 := by
      simp only [UInt8.le_iff_toNat_le]; exact Iff.rfl
    have c2 : (0xf7 ≤ b0 ∧ b0 ≤ 0xfa) ↔ 247 ≤ b0.toNat ∧ b0.toNat ≤ 250 := by
      simp only [UInt8.le_iff_toNat_le]; exact Iff.rfl
    have c3 : (0xfb ≤ b0 ∧ b0 ≤ 0xfe) ↔ 251 ≤ b0.toNat ∧ b0.toNat ≤ 254 := by
      simp only [UInt8.le_iff_toNat_le]; exact Iff.rfl
    have e1c : b0 = 0x1c ↔ b0.toNat = 28 := by rw [← UInt8.toNat_inj]; rfl
    have e1d : b0 = 0x1d ↔ b0.toNat = 29 := by rw [← UInt8.toNat_inj]; rfl
    have e1e : b0 = 0x1e ↔ b0.toNat = 30 := by rw [← UInt8.toNat_inj]; rfl
    simp only [c1, c2, c3]
    split
    · rename_i hc
      rw [i32_of_mem (by omega), rd_pure_bind]
      refine Eof.congr (Eof.pure _) ?_
      intro l
      simp only [false_iff]
      intro h
      generalize hx : b0 :: l = x at h
      cases h with
      | twoByte b h1 h2 => obtain ⟨rfl, rfl⟩ := List.cons.inj hx; omega
      | word bs h => obtain ⟨rfl, rfl⟩ := List.cons.inj hx; simp at hc
      | long bs h => obtain ⟨rfl, rfl⟩ := List.cons.inj hx; simp at hc
      | real bs t h => obtain ⟨rfl, rfl⟩ := List.cons.inj hx; simp at hc
    have two : ∀ l, 247 ≤ b0.toNat → b0.toNat ≤ 254 → (l = [] ↔ CutOperand (b0 :: l)) := by
      intro l h3 h4
      constructor
      · rintro rfl; exact .twoByte _ h3 h4
      · intro h
        generalize hx : b0 :: l = x at h
        cases h with
        | twoByte b h1 h2 => exact (List.cons.inj hx).2
        | word bs h => obtain ⟨rfl, rfl⟩ := List.cons.inj hx; simp at h3
        | long bs h => obtain ⟨rfl, rfl⟩ := List.cons.inj hx; simp at h3
        | real bs t h => obtain ⟨rfl, rfl⟩ := List.cons.inj hx; simp at h3
    split
    · rename_i _ hc
      rw [positiveTwoByte_eq, rd_bind_assoc]
      simp only [rd_pure_bind]
      exact (Eof.bind_pure exact_u8 Eof.u8).congr (fun l => two l (by omega) (by omega))
    split
    · rename_i _ _ hc
      rw [negativeTwoByte_eq, rd_bind_assoc]
      simp only [rd_pure_bind]
      exact (Eof.bind_pure exact_u8 Eof.u8).congr (fun l => two l (by omega) (by omega))
    split
    · rename_i _ _ _ hc
      subst hc
      refine (Eof.bind_pure exact_u16 Eof.u16).congr (fun l => ⟨fun h => .word l h, fun h => ?_⟩)
      generalize hx : (0x1c : UInt8) :: l = x at h
      cases h with
      | twoByte b h1 h2 => obtain ⟨rfl, rfl⟩ := List.cons.inj hx; simp at h1
      | word bs h => obtain ⟨-, rfl⟩ := List.cons.inj hx; exact h
      | long bs h => have := (List.cons.inj hx).1; simp at this
      | real bs t h => have := (List.cons.inj hx).1; simp at this
    split
    · rename_i _ _ _ _ hc
      subst hc
      refine (Eof.bind_pure exact_u32 Eof.u32).congr (fun l => ⟨fun h => .long l h, fun h => ?_⟩)
      generalize hx : (0x1d : UInt8) :: l = x at h
      cases h with
      | twoByte b h1 h2 => obtain ⟨rfl, rfl⟩ := List.cons.inj hx; simp at h1
      | word bs h => have := (List.cons.inj hx).1; simp at this
      | long bs h => obtain ⟨-, rfl⟩ := List.cons.inj hx; exact h
      | real bs t h => have := (List.cons.inj hx).1; simp at this
    split
    · rename_i _ _ _ _ _ hc
      subst hc
      refine (Eof.bind_pure exact_parse eof_parse).congr (fun l => ⟨fun ⟨u, h⟩ => .real l u h, fun h => ?_⟩)
      generalize hx : (0x1e : UInt8) :: l = x at h
      cases h with
      | twoByte b h1 h2 => obtain ⟨rfl, rfl⟩ := List.cons.inj hx; simp at h1
      | word bs h => have := (List.cons.inj hx).1; simp at this
      | long bs h => have := (List.cons.inj hx).1; simp at this
      | real bs t h => obtain ⟨-, rfl⟩ := List.cons.inj hx; exact ⟨_, h⟩
    · refine Eof.congr (Eof.raise _) (fun l => ?_)
      simp only [false_iff]
      intro h
      generalize hx : b0 :: l = x at h
      cases h with
      | twoByte b h1 h2 => obtain ⟨rfl, rfl⟩ := List.cons.inj hx; omega
      | word bs h => obtain ⟨rfl, rfl⟩ := List.cons.inj hx; simp at *
      | long bs h => obtain ⟨rfl, rfl⟩ := List.cons.inj hx; simp at *
      | real bs t h => obtain ⟨rfl, rfl⟩ := List.cons.inj hx; simp at *
  · intro l
    constructor
    · rintro (h | ⟨a, bs, l', rfl, rfl, h⟩)
      · exact .inl h
      · exact .inr h
    · rintro (h | h)
      · exact .inl h
      · cases l with
        | nil => exact .inl rfl
        | cons b l => exact .inr ⟨b, [b], l, rfl, rfl, h⟩

/-! ## Operands -/

theorem operand_iff {n : Number} {bs : List UInt8} : Operand n bs ↔ NumberEnc n bs := by
  cases n with
  | integer i => exact Iff.rfl
  | real x =>
    constructor
    · rintro ⟨d, packed, hd, hp, rfl, hn⟩
      refine ⟨d.text, packed, rfl, hp, ?_⟩
      rw [parseF32_text d hd]
      exact congrArg some ((ofDecimal_nearest _ _ _).unique hn)
    · rintro ⟨t, packed, rfl, hp, hv⟩
      obtain ⟨d, hd, rfl, rfl⟩ := (packed_parse hp).mp hv
      exact ⟨d, packed, hd, hp, rfl, ofDecimal_nearest _ _ _⟩

theorem exact_operand : Exact Number.read Operand :=
  exact_number.congr (fun _ _ => operand_iff.symm)

theorem isOperandByte_iff {b : UInt8} :
    Operations.isOperandByte b = true ↔ b.toNat = 28 ∨ b.toNat = 29 ∨ b.toNat = 30 ∨ (32 ≤ b.toNat ∧ b.toNat ≤ 254) := by
  unfold Operations.isOperandByte
  simp only [Bool.or_eq_true, Bool.and_eq_true, beq_iff_eq, decide_eq_true_eq, UInt8.le_iff_toNat_le,
    ← UInt8.toNat_inj]
  have e (k : Nat) (hk : k < 256) : (OfNat.ofNat k : UInt8).toNat = k := UInt8.toNat_ofNat_of_lt' hk
  simp only [e 0x1c (by omega), e 0x1d (by omega), e 0x1e (by omega), e 0x20 (by omega), e 0xfe (by omega)]
  omega

/-- The first byte of an operand is recognised. -/
theorem operand_head {n : Number} {bs : List UInt8} (h : Operand n bs) :
    ∃ b l, bs = b :: l ∧ Operations.isOperandByte b = true := by
  cases n with
  | integer i =>
    change DictInt i bs at h
    cases h with
    | short h =>
      cases h with
      | oneByte b0 h1 h2 => exact ⟨_, _, rfl, isOperandByte_iff.mpr (by omega)⟩
      | positive b0 b1 h1 h2 => exact ⟨_, _, rfl, isOperandByte_iff.mpr (by omega)⟩
      | negative b0 b1 h1 h2 => exact ⟨_, _, rfl, isOperandByte_iff.mpr (by omega)⟩
      | word h1 h2 => exact ⟨_, _, rfl, by decide⟩
    | long h1 h2 => exact ⟨_, _, rfl, by decide⟩
  | real x =>
    obtain ⟨d, packed, -, -, rfl, -⟩ := h
    exact ⟨_, _, rfl, by decide⟩

theorem cutOperand_head {bs : List UInt8} (h : CutOperand bs) :
    ∃ b l, bs = b :: l ∧ Operations.isOperandByte b = true := by
  cases h with
  | twoByte b h1 h2 => exact ⟨_, _, rfl, isOperandByte_iff.mpr (by omega)⟩
  | word bs h => exact ⟨_, _, rfl, by decide⟩
  | long bs h => exact ⟨_, _, rfl, by decide⟩
  | real bs t h => exact ⟨_, _, rfl, by decide⟩

/-! ## Operators -/

/-- The 16-bit code of an operator. -/
def codeOf (op : Operator) : UInt16 := UInt16.ofNat (beNat (opCode op))

theorem from_codeOf (op : Operator) : Operator.from (codeOf op) = .ok op := by
  cases op <;> decide +kernel

theorem lookup_mem {l : List (Nat × α)} {k : Nat} {a : α} (h : l.lookup k = some a) : (k, a) ∈ l := by
  induction l with
  | nil => simp at h
  | cons x l ih =>
    rw [List.lookup_cons] at h
    split at h
    · rename_i hk
      simp at hk h
      subst hk h
      simp
    · exact List.mem_cons_of_mem _ (ih h)

theorem codes_codeOf : ∀ x ∈ Operator.codes, codeOf x.2 = UInt16.ofNat x.1 := by decide +kernel

theorem from_ok {code : UInt16} {op : Operator} : Operator.from code = .ok op ↔ code = codeOf op := by
  constructor
  · intro h
    unfold Operator.from at h
    split at h
    · rename_i o hl
      simp at h
      subst h
      have := codes_codeOf _ (lookup_mem hl)
      simp at this
      exact this.symm
    · simp at h
  · rintro rfl
    exact from_codeOf op

theorem from_err {code : UInt16} (h : ∀ op, code ≠ codeOf op) :
    Operator.from code = .err (.raised .unknownOperator) := by
  cases hr : Operator.from code with
  | ok op => exact absurd (from_ok.mp hr) (h op)
  | err e =>
    unfold Operator.from at hr
    split at hr <;> simp at hr
    rw [hr]
  | panic x =>
    unfold Operator.from at hr
    split at hr <;> simp at hr

theorem from_total (code : UInt16) :
    (∃ op, Operator.from code = .ok op) ∨ Operator.from code = .err (.raised .unknownOperator) := by
  by_cases h : ∃ op, code = codeOf op
  · obtain ⟨op, h⟩ := h
    exact .inl ⟨op, from_ok.mpr h⟩
  · push Not at h
    exact .inr (from_err h)

/-- The operator at the end of an operation, src/compact1/operation.rs:82-89. -/
def readOperator (code : UInt8) (operands : List Number) : Rd (Operator × List Number) := do
  let code ← (if code = 0x0c then Rd.u16 else do
    let b ← Rd.u8
    pure (UInt16.ofNat b.toNat) : Rd UInt16)
  let operator ← Rd.ofRes (Operator.from code)
  pure (operator, operands)

theorem readOperationLoop_succ (fuel : Nat) (operands : List Number) :
    Operations.readOperationLoop (fuel + 1) operands = (do
      let code ← Rd.peek Rd.u8
      if Operations.isOperandByte code then do
        let operand ← Number.read
        Operations.readOperationLoop fuel (operands ++ [operand])
      else readOperator code operands) := rfl

theorem opCode_head (op : Operator) : ∃ b l, opCode op = b :: l ∧ Operations.isOperandByte b = false ∧
    (b = 12 ↔ l ≠ []) ∧ l.length ≤ 1 := by
  cases op <;> exact ⟨_, _, rfl, by decide, by decide, by decide⟩

theorem opCode_codeOf (op : Operator) :
    (∃ b : UInt8, b ≠ 12 ∧ opCode op = [b] ∧ codeOf op = UInt16.ofNat b.toNat) ∨
    (∃ b : UInt8, opCode op = [12, b] ∧ opCode op = be 2 (codeOf op).toNat) := by
  cases op <;> first
    | exact .inl ⟨_, by decide, rfl, by decide⟩
    | exact .inr ⟨_, rfl, by decide⟩

theorem codeOf_one {b : UInt8} {op : Operator} (hb : b ≠ 12) (h : UInt16.ofNat b.toNat = codeOf op) :
    opCode op = [b] := by
  rcases opCode_codeOf op with ⟨c, hc, h1, h2⟩ | ⟨c, h1, h2⟩
  · rw [h2] at h
    have := congrArg UInt16.toNat h
    rw [UInt16.toNat_ofNat_of_lt' (by have := b.toNat_lt; simp [UInt16.size]; omega),
      UInt16.toNat_ofNat_of_lt' (by have := c.toNat_lt; simp [UInt16.size]; omega)] at this
    rw [h1, UInt8.toNat_inj.mp this]
  · exfalso
    rw [h1, ← h] at h2
    rw [UInt16.toNat_ofNat_of_lt' (by have := b.toNat_lt; simp [UInt16.size]; omega)] at h2
    have := congrArg beNat h2
    rw [beNat_be] at this
    simp [beNat] at this
    have := b.toNat_lt
    omega

theorem exact_readOperator (code : UInt8) (operands : List Number) :
    Exact (readOperator code operands) (fun x bs => ∃ op, x = (op, operands) ∧
      if code = 12 then bs = be 2 (codeOf op).toNat else bs.length = 1 ∧ ∃ b : UInt8, bs = [b] ∧ UInt16.ofNat b.toNat = codeOf op) := by
  unfold readOperator
  have hr : ∀ c : UInt16, Exact (Rd.ofRes (Operator.from c) >>= fun op => (pure (op, operands) : Rd (Operator × List Number)))
      (fun x bs => ∃ op, x = (op, operands) ∧ c = codeOf op ∧ bs = []) := by
    intro c
    rcases from_total c with ⟨op, h⟩ | h
    · rw [h]
      refine Exact.congr (Exact.pure (op, operands)) ?_
      intro x bs
      constructor
      · rintro ⟨rfl, rfl⟩
        exact ⟨op, rfl, from_ok.mp h, rfl⟩
      · rintro ⟨op', rfl, h', rfl⟩
        have := from_ok.mpr h'
        rw [h] at this
        injection this with this
        subst this
        exact ⟨rfl, rfl⟩
    · rw [h]
      refine Exact.congr (R := fun _ _ => False) (Exact.never ?_) ?_
      · intro env p a q h2
        simp [Rd.ofRes, Bind.bind, Rd.bind] at h2
      · intro x bs
        simp only [false_iff]
        rintro ⟨op, rfl, h', rfl⟩
        rw [from_ok.mpr h'] at h
        simp at h
  by_cases hc : code = 12
  · simp only [if_pos hc]
    refine Exact.congr (Exact.bind exact_u16 hr) ?_
    intro x bs
    constructor
    · rintro ⟨c, b1, b2, rfl, rfl, op, rfl, rfl, rfl⟩
      exact ⟨op, rfl, by simp⟩
    · rintro ⟨op, rfl, rfl⟩
      exact ⟨codeOf op, _, [], by simp, rfl, op, rfl, rfl, rfl⟩
  · simp only [if_neg hc]
    refine Exact.congr (Exact.bind (Exact.bind exact_u8 (fun b => Exact.pure _)) hr) ?_
    intro x bs
    constructor
    · rintro ⟨c, b1, b2, rfl, ⟨b, d1, d2, rfl, rfl, rfl, rfl⟩, op, rfl, h, rfl⟩
      exact ⟨op, rfl, by simp, b, by simp, h⟩
    · rintro ⟨op, rfl, -, b, rfl, h⟩
      exact ⟨_, [b], [], rfl, ⟨b, [b], [], rfl, rfl, rfl, rfl⟩, op, rfl, h, rfl⟩

/-- Reading the operator that stands on the tape. -/
theorem readOperator_ok {operands : List Number} {env : Env} {p q : Nat} {b : UInt8} {l : List UInt8}
    {x : Operator × List Number} (hd : env.data.drop p = b :: l) :
    readOperator b operands env p = (.ok x, q) ↔
      ∃ op, x = (op, operands) ∧ opCode op <+: env.data.drop p ∧ q = p + (opCode op).length := by
  rw [exact_readOperator b operands env p x q]
  constructor
  · rintro ⟨bs, ⟨op, rfl, h⟩, hp, rfl⟩
    refine ⟨op, rfl, ?_⟩
    have hbs : opCode op = bs := by
      split at h
      · rename_i hb
        subst hb h
        rcases opCode_codeOf op with ⟨c, hc, h1, h2⟩ | ⟨c, h1, h2⟩
        · exfalso
          rw [h2, UInt16.toNat_ofNat_of_lt' (by have := c.toNat_lt; simp [UInt16.size]; omega)] at hp
          rw [hd] at hp
          have hz : be 2 c.toNat = [0, c] := by
            have := c.toNat_lt
            simp [be, Nat.div_eq_of_lt this]
          rw [hz] at hp
          obtain ⟨t, ht⟩ := hp
          simp at ht
        · exact h2
      · rename_i hb
        obtain ⟨-, c, rfl, hc⟩ := h
        have : c = b := by
          rw [hd] at hp
          obtain ⟨t, ht⟩ := hp
          simp at ht
          exact ht.1
        subst this
        exact codeOf_one hb hc
    rw [hbs]
    exact ⟨hp, rfl⟩
  · rintro ⟨op, rfl, hp, rfl⟩
    refine ⟨opCode op, ⟨op, rfl, ?_⟩, hp, rfl⟩
    rcases opCode_codeOf op with ⟨c, hc, h1, h2⟩ | ⟨c, h1, h2⟩
    · have : c = b := by
        rw [hd, h1] at hp
        obtain ⟨t, ht⟩ := hp
        simp at ht
        exact ht.1
      subst this
      rw [if_neg hc, h1]
      exact ⟨rfl, c, rfl, h2.symm⟩
    · have : b = 12 := by
        rw [hd, h1] at hp
        obtain ⟨t, ht⟩ := hp
        simp at ht
        exact ht.1.symm
      rw [if_pos this]
      exact h2

/-- Running into the end of the tape inside an operator. -/
theorem readOperator_eof {operands : List Number} {env : Env} {p : Nat} {b : UInt8} {l : List UInt8}
    (hd : env.data.drop p = b :: l) :
    (∃ q, readOperator b operands env p = (.err .eof, q)) ↔ b = 12 ∧ l = [] := by
  have hr : ∀ c : UInt16, Eof (Rd.ofRes (Operator.from c) >>= fun op => (pure (op, operands) : Rd (Operator × List Number)))
      (fun _ => False) := by
    intro c env p
    rcases from_total c with ⟨op, h⟩ | h <;> rw [h] <;> simp [Rd.ofRes, Bind.bind, Rd.bind, Rd.pure_eq]
  unfold readOperator
  by_cases hc : b = 12
  · simp only [if_pos hc]
    rw [Eof.bind exact_u16 Eof.u16 hr env p, hd]
    cases l <;> simp [hc]
  · simp only [if_neg hc]
    rw [Eof.bind (Exact.bind exact_u8 (fun b => Exact.pure _)) (Eof.bind_pure exact_u8 Eof.u8) hr env p, hd]
    simp [hc]

theorem errs_from (c : UInt16) {E : Err → Prop} (h : E (.raised .unknownOperator)) : Errs (Rd.ofRes (Operator.from c)) E := by
  refine Errs.ofRes ?_
  intro e he
  rcases from_total c with ⟨op, h2⟩ | h2 <;> rw [h2] at he <;> simp at he
  subst he
  exact h

theorem noPanic_from (c : UInt16) : NoPanic (Rd.ofRes (Operator.from c)) := by
  refine NoPanic.ofRes ?_
  intro x h
  rcases from_total c with ⟨op, h2⟩ | h2 <;> rw [h2] at h <;> simp at h

/-- The errors of reading an operation. -/
def OperationErr (e : Err) : Prop :=
  e = .eof ∨ e = .raised .malformedNumber ∨ e = .raised .unknownOperator

theorem errs_readOperator (b : UInt8) (operands : List Number) : Errs (readOperator b operands) OperationErr := by
  have h : OperationErr .eof := .inl rfl
  have h2 : OperationErr (.raised .unknownOperator) := .inr (.inr rfl)
  unfold readOperator
  refine Errs.bind (Errs.ite (fun _ => Errs.u16 h) (fun _ => Errs.bind (Errs.u8 h) (fun _ => Errs.pure _ _)))
    (fun _ => Errs.bind (errs_from _ h2) (fun _ => Errs.pure _ _))

theorem noPanic_readOperator (b : UInt8) (operands : List Number) : NoPanic (readOperator b operands) := by
  unfold readOperator
  refine NoPanic.bind (NoPanic.ite (fun _ => NoPanic.u16) (fun _ => NoPanic.bind NoPanic.u8 (fun _ => NoPanic.pure _)))
    (fun _ => NoPanic.bind (noPanic_from _) (fun _ => NoPanic.pure _))

/-! ## Operations -/

theorem readOperationLoop_eof_step {fuel : Nat} {operands : List Number} {env : Env} {p : Nat}
    (hd : env.data.drop p = []) : Operations.readOperationLoop (fuel + 1) operands env p = (.err .eof, p) := by
  rw [readOperationLoop_succ]
  exact Rd.bind_of_err (peek_u8_eof env p hd)

theorem readOperationLoop_operand {fuel : Nat} {operands : List Number} {env : Env} {p : Nat} {b : UInt8} {l : List UInt8}
    (hd : env.data.drop p = b :: l) (hb : Operations.isOperandByte b = true) :
    Operations.readOperationLoop (fuel + 1) operands env p =
      (Number.read >>= fun operand => Operations.readOperationLoop fuel (operands ++ [operand])) env p := by
  rw [readOperationLoop_succ, Rd.bind_of_ok (peek_u8 env p b l hd), if_pos hb]

theorem readOperationLoop_operator {fuel : Nat} {operands : List Number} {env : Env} {p : Nat} {b : UInt8} {l : List UInt8}
    (hd : env.data.drop p = b :: l) (hb : ¬ Operations.isOperandByte b = true) :
    Operations.readOperationLoop (fuel + 1) operands env p = readOperator b operands env p := by
  rw [readOperationLoop_succ, Rd.bind_of_ok (peek_u8 env p b l hd), if_neg hb]

theorem readOperationLoop_ok {fuel : Nat} {operands : List Number} {env : Env} {p q : Nat}
    {x : Operator × List Number} (h : Operations.readOperationLoop fuel operands env p = (.ok x, q)) :
    ∃ ns bs op, Seq Operand ns bs ∧ x = (op, operands ++ ns) ∧ (bs ++ opCode op) <+: env.data.drop p ∧
      q = p + (bs ++ opCode op).length := by
  induction fuel generalizing operands p with
  | zero => simp [Operations.readOperationLoop, Rd.panic] at h
  | succ fuel ih =>
    rcases hd : env.data.drop p with _ | ⟨b, l⟩
    · rw [readOperationLoop_eof_step hd] at h
      simp at h
    · by_cases hb : Operations.isOperandByte b = true
      · rw [readOperationLoop_operand hd hb] at h
        obtain ⟨n, p', h1, h2⟩ := Rd.bind_ok.mp h
        obtain ⟨b1, hn, hp, rfl⟩ := (exact_operand _ _ _ _).mp h1
        obtain ⟨ns, bs, op, h3, rfl, h4, rfl⟩ := ih h2
        refine ⟨n :: ns, b1 ++ bs, op, .cons hn h3, by simp, ?_, by simp; omega⟩
        rw [← hd, List.append_assoc]
        refine prefix_append_iff.mpr ⟨hp, ?_⟩
        rw [List.drop_drop]
        exact h4
      · rw [readOperationLoop_operator hd hb, readOperator_ok hd] at h
        obtain ⟨op, rfl, hp, rfl⟩ := h
        exact ⟨[], [], op, .nil, by simp, by simpa [hd] using hp, by simp⟩

theorem readOperationLoop_complete {fuel : Nat} {operands : List Number} {env : Env} {p : Nat}
    {ns : List Number} {bs : List UInt8} {op : Operator} (hs : Seq Operand ns bs)
    (hp : (bs ++ opCode op) <+: env.data.drop p) (hf : ns.length < fuel) :
    Operations.readOperationLoop fuel operands env p = (.ok (op, operands ++ ns), p + (bs ++ opCode op).length) := by
  induction hs generalizing fuel operands p with
  | nil =>
    obtain ⟨fuel, rfl⟩ : ∃ k, fuel = k + 1 := ⟨fuel - 1, by omega⟩
    obtain ⟨b, l, h1, h2, -, -⟩ := opCode_head op
    rw [List.nil_append] at hp
    obtain ⟨t, ht⟩ := hp
    have hd : env.data.drop p = b :: (l ++ t) := by rw [← ht, h1]; rfl
    rw [readOperationLoop_operator hd (by simp [h2]), readOperator_ok hd]
    exact ⟨op, by simp, ⟨t, ht⟩, by simp⟩
  | cons hn hs ih =>
    rename_i n b1 ns bs
    obtain ⟨fuel, rfl⟩ : ∃ k, fuel = k + 1 := ⟨fuel - 1, by omega⟩
    rw [List.append_assoc] at hp
    obtain ⟨hp1, hp2⟩ := prefix_append_iff.mp hp
    rw [List.drop_drop] at hp2
    obtain ⟨b, l, rfl, hb⟩ := operand_head hn
    have hr := (exact_operand env p n _).mpr ⟨b :: l, hn, hp1, rfl⟩
    obtain ⟨t, ht⟩ := hp1
    rw [readOperationLoop_operand (l := l ++ t) (by rw [← ht]; rfl) hb, Rd.bind_of_ok hr,
      ih hp2 (by simp at hf; omega)]
    simp
    omega

theorem number_progress {env : Env} {p q : Nat} {n : Number} (h : Number.read env p = (.ok n, q)) :
    p < q ∧ q ≤ env.data.length := by
  obtain ⟨bs, hn, hp, rfl⟩ := (exact_operand _ _ _ _).mp h
  obtain ⟨b, l, rfl, -⟩ := operand_head hn
  have := hp.length_le
  simp at this ⊢
  omega

/-- The loop fails only at the end of the tape, a malformed number or an unknown
operator, and its fuel suffices. -/
theorem readOperationLoop_total {fuel : Nat} {operands : List Number} {env : Env} {p : Nat}
    (hf : env.data.length - p < fuel) :
    (∃ x q, Operations.readOperationLoop fuel operands env p = (.ok x, q)) ∨
    (∃ e q, OperationErr e ∧ Operations.readOperationLoop fuel operands env p = (.err e, q)) := by
  induction fuel generalizing operands p with
  | zero => omega
  | succ fuel ih =>
    rcases hd : env.data.drop p with _ | ⟨b, l⟩
    · rw [readOperationLoop_eof_step hd]
      exact .inr ⟨_, _, .inl rfl, rfl⟩
    · by_cases hb : Operations.isOperandByte b = true
      · rw [readOperationLoop_operand hd hb]
        rcases h : Number.read env p with ⟨n | e | x, q⟩
        · rw [Rd.bind_of_ok h]
          have := number_progress h
          exact ih (by omega)
        · rw [Rd.bind_of_err h]
          refine .inr ⟨e, q, ?_, rfl⟩
          rcases errs_number _ _ _ _ h with h | h
          · exact .inl h
          · exact .inr (.inl h)
        · exact absurd h (noPanic_number _ _ _ _)
      · rw [readOperationLoop_operator hd hb]
        rcases h : readOperator b operands env p with ⟨n | e | x, q⟩
        · exact .inl ⟨_, _, rfl⟩
        · exact .inr ⟨e, q, errs_readOperator _ _ _ _ _ _ h, rfl⟩
        · exact absurd h (noPanic_readOperator _ _ _ _ _ _)

/-- An operation runs into a failure of the kind `e` after its first operands. -/
def FailsAt : Err → List UInt8 → Prop
  | .eof, tail => tail = [] ∨ CutOperand tail ∨ tail = [12]
  | .raised .malformedNumber, tail => BadOperand tail
  | .raised .unknownOperator, tail => BadOperator tail
  | _, _ => False

theorem operandByte_iff {b : UInt8} : OperandByte b ↔ Operations.isOperandByte b = true := isOperandByte_iff.symm

theorem number_malformed {env : Env} {p : Nat} {b : UInt8} {l : List UInt8} (hd : env.data.drop p = b :: l)
    (hb : Operations.isOperandByte b = true) :
    (∃ q, Number.read env p = (.err (.raised .malformedNumber), q)) ↔ BadOperand (env.data.drop p) := by
  constructor
  · rintro ⟨q, h⟩
    refine ⟨⟨b, l, hd, operandByte_iff.mpr hb⟩, ?_, ?_⟩
    · intro n bs hn hp
      have := (exact_operand env p n _).mpr ⟨bs, hn, hp, rfl⟩
      rw [h] at this
      simp at this
    · intro hc
      obtain ⟨q', hq⟩ := (eof_number env p).mpr (.inr hc)
      rw [h] at hq
      simp at hq
  · rintro ⟨-, h1, h2⟩
    rcases h : Number.read env p with ⟨n | e | x, q⟩
    · obtain ⟨bs, hn, hp, -⟩ := (exact_operand _ _ _ _).mp h
      exact absurd hp (h1 n bs hn)
    · rcases errs_number _ _ _ _ h with rfl | rfl
      · rcases (eof_number env p).mp ⟨_, h⟩ with h | h
        · rw [hd] at h; simp at h
        · exact absurd h h2
      · exact ⟨_, rfl⟩
    · exact absurd h (noPanic_number _ _ _ _)

theorem readOperator_unknown {operands : List Number} {env : Env} {p : Nat} {b : UInt8} {l : List UInt8}
    (hd : env.data.drop p = b :: l) (hb : ¬ Operations.isOperandByte b = true) :
    (∃ q, readOperator b operands env p = (.err (.raised .unknownOperator), q)) ↔ BadOperator (env.data.drop p) := by
  constructor
  · rintro ⟨q, h⟩
    refine ⟨⟨b, l, hd, fun h => hb (operandByte_iff.mp h)⟩, ?_, ?_⟩
    · intro hc
      rw [hd] at hc
      obtain ⟨q', hq⟩ := (readOperator_eof (operands := operands) hd).mpr (by simpa using hc)
      rw [h] at hq
      simp at hq
    · intro op hp
      have := (readOperator_ok (operands := operands) hd).mpr ⟨op, rfl, hp, rfl⟩
      rw [h] at this
      simp at this
  · rintro ⟨-, h1, h2⟩
    rcases h : readOperator b operands env p with ⟨n | e | x, q⟩
    · obtain ⟨op, -, hp, -⟩ := (readOperator_ok hd).mp h
      exact absurd hp (h2 op)
    · rcases errs_readOperator _ _ _ _ _ _ h with rfl | rfl | rfl
      · have := (readOperator_eof hd).mp ⟨_, h⟩
        rw [hd] at h1
        exact absurd (by simpa using this) h1
      · exfalso
        unfold readOperator at h
        have : ∀ (m : Rd UInt16), Errs m (fun e => e = .eof) → ∀ q,
            ¬ (m >>= fun c => Rd.ofRes (Operator.from c) >>= fun op =>
              (pure (op, operands) : Rd (Operator × List Number))) env p = (.err (.raised .malformedNumber), q) := by
          intro m hm q h
          rcases Rd.bind_err.mp h with h | ⟨c, p', -, h⟩
          · have := hm _ _ _ _ h
            simp at this
          · rcases from_total c with ⟨op, h2⟩ | h2 <;> rw [h2] at h <;>
              simp [Rd.ofRes, Bind.bind, Rd.bind, Rd.pure_eq] at h
        exact this _ (Errs.ite (fun _ => Errs.u16 rfl) (fun _ => Errs.bind (Errs.u8 rfl) (fun _ => Errs.pure _ _))) _ h
      · exact ⟨_, rfl⟩
    · exact absurd h (noPanic_readOperator _ _ _ _ _ _)

theorem failsAt_operand {e : Err} {env : Env} {p : Nat} {b : UInt8} {l : List UInt8}
    (hd : env.data.drop p = b :: l) (hb : Operations.isOperandByte b = true) :
    (∃ q, Number.read env p = (.err e, q)) ↔ FailsAt e (env.data.drop p) := by
  have hno : ∀ e, e ≠ .eof → e ≠ .raised .malformedNumber → ¬ ∃ q, Number.read env p = (.err e, q) := by
    rintro e h1 h2 ⟨q, h⟩
    rcases errs_number _ _ _ _ h with h | h
    · exact h1 h
    · exact h2 h
  unfold FailsAt
  split
  · rw [eof_number env p, hd]
    constructor
    · rintro (h | h)
      · exact .inl h
      · exact .inr (.inl h)
    · rintro (h | h | h)
      · exact .inl h
      · exact .inr h
      · simp at h
        obtain ⟨rfl, -⟩ := h
        simp [Operations.isOperandByte] at hb
  · exact number_malformed hd hb
  · refine ⟨fun h => absurd h (hno _ (by simp) (by simp)), ?_⟩
    rintro ⟨⟨b', l', h1, h2⟩, -⟩
    rw [hd] at h1
    obtain ⟨rfl, -⟩ := List.cons.inj h1
    exact absurd (operandByte_iff.mpr hb) h2
  · rename_i h1 h2 h3
    exact ⟨fun h => absurd h (hno _ (by rintro rfl; exact h1 rfl) (by rintro rfl; exact h2 rfl)), False.elim⟩

theorem failsAt_operator {e : Err} {operands : List Number} {env : Env} {p : Nat} {b : UInt8} {l : List UInt8}
    (hd : env.data.drop p = b :: l) (hb : ¬ Operations.isOperandByte b = true) :
    (∃ q, readOperator b operands env p = (.err e, q)) ↔ FailsAt e (env.data.drop p) := by
  unfold FailsAt
  split
  · rw [readOperator_eof hd, hd]
    constructor
    · rintro ⟨rfl, rfl⟩
      exact .inr (.inr rfl)
    · rintro (h | h | h)
      · simp at h
      · obtain ⟨b', l', h1, h2⟩ := cutOperand_head h
        obtain ⟨rfl, -⟩ := List.cons.inj h1
        exact absurd h2 hb
      · simpa using h
  · constructor
    · rintro ⟨q, h⟩
      exfalso
      have h3 : ¬ BadOperator (env.data.drop p) := by
        intro h4
        obtain ⟨q', hq⟩ := (readOperator_unknown (operands := operands) hd hb).mpr h4
        rw [h] at hq
        simp at hq
      apply h3
      refine ⟨⟨b, l, hd, fun h => hb (operandByte_iff.mp h)⟩, ?_, ?_⟩
      · intro hc
        rw [hd] at hc
        obtain ⟨q', hq⟩ := (readOperator_eof (operands := operands) hd).mpr (by simpa using hc)
        rw [h] at hq
        simp at hq
      · intro op hp
        have := (readOperator_ok (operands := operands) hd).mpr ⟨op, rfl, hp, rfl⟩
        rw [h] at this
        simp at this
    · rintro ⟨⟨b', l', h1, h2⟩, -⟩
      rw [hd] at h1
      obtain ⟨rfl, -⟩ := List.cons.inj h1
      exact absurd (operandByte_iff.mp h2) hb
  · exact readOperator_unknown hd hb
  · rename_i h1 h2 h3
    constructor
    · rintro ⟨q, h⟩
      rcases errs_readOperator _ _ _ _ _ _ h with rfl | rfl | rfl
      · exact h1 rfl
      · exact h2 rfl
      · exact h3 rfl
    · exact False.elim

theorem failsAt_nil {e : Err} : FailsAt e [] ↔ e = .eof := by
  unfold FailsAt
  split
  · simp
  · simp [BadOperand]
  · simp [BadOperator]
  · rename_i h1 h2 h3
    simp only [false_iff]
    rintro rfl
    exact h1 rfl

theorem failsAt_head_operand {e : Err} {n : Number} {b1 l : List UInt8} (hn : Operand n b1) : ¬ FailsAt e (b1 ++ l) := by
  intro h
  obtain ⟨b, r, rfl, hb⟩ := operand_head hn
  have hr := (exact_operand ⟨⟨true, true, 0, fun p _ => p⟩, b :: r ++ l⟩ 0 n _).mpr ⟨b :: r, hn, by simp, rfl⟩
  obtain ⟨q, hq⟩ := (failsAt_operand (e := e) (env := ⟨⟨true, true, 0, fun p _ => p⟩, b :: r ++ l⟩) (p := 0)
    (b := b) (l := r ++ l) rfl hb).mpr h
  rw [hr] at hq
  simp at hq

theorem readOperationLoop_err {fuel : Nat} {operands : List Number} {env : Env} {p : Nat} {e : Err}
    (hf : env.data.length - p < fuel) :
    (∃ q, Operations.readOperationLoop fuel operands env p = (.err e, q)) ↔
      ∃ ns bs tail, Seq Operand ns bs ∧ env.data.drop p = bs ++ tail ∧ FailsAt e tail := by
  induction fuel generalizing operands p with
  | zero => omega
  | succ fuel ih =>
    rcases hd : env.data.drop p with _ | ⟨b, l⟩
    · rw [readOperationLoop_eof_step hd]
      constructor
      · rintro ⟨q, h⟩
        simp at h
        exact ⟨[], [], [], .nil, rfl, failsAt_nil.mpr h.1.symm⟩
      · rintro ⟨ns, bs, tail, -, h, h2⟩
        obtain ⟨rfl, rfl⟩ := List.append_eq_nil_iff.mp h.symm
        exact ⟨p, by rw [failsAt_nil.mp h2]⟩
    · by_cases hb : Operations.isOperandByte b = true
      · rw [readOperationLoop_operand hd hb]
        constructor
        · rintro ⟨q, h⟩
          rcases Rd.bind_err.mp h with h | ⟨n, p', h1, h2⟩
          · have := (failsAt_operand hd hb).mp ⟨_, h⟩
            rw [hd] at this
            exact ⟨[], [], _, .nil, rfl, this⟩
          · have hpr := number_progress h1
            obtain ⟨b1, hn, hp, rfl⟩ := (exact_operand _ _ _ _).mp h1
            obtain ⟨ns, operands, tail, h3, h4, h5⟩ := (ih (p := p + b1.length) (by omega)).mp ⟨_, h2⟩
            obtain ⟨t, ht⟩ := hp
            rw [← List.drop_drop, ← ht, List.drop_left] at h4
            refine ⟨n :: ns, b1 ++ operands, tail, .cons hn h3, ?_, h5⟩
            rw [← hd, ← ht, h4, List.append_assoc]
        · rintro ⟨ns, operands', tail, h3, h4, h5⟩
          cases h3 with
          | nil =>
            simp only [List.nil_append] at h4
            obtain ⟨q, hq⟩ := (failsAt_operand (e := e) hd hb).mpr (by rw [hd, h4]; exact h5)
            exact ⟨q, Rd.bind_of_err hq⟩
          | cons hn hs =>
            rename_i n b1 ns bs
            have hr := (exact_operand env p n (p + b1.length)).mpr ⟨b1, hn, ⟨bs ++ tail, by rw [hd, h4]; simp⟩, rfl⟩
            rw [Rd.bind_of_ok hr]
            have hpr := number_progress hr
            apply (ih (p := p + b1.length) (by omega)).mpr
            refine ⟨ns, bs, tail, hs, ?_, h5⟩
            rw [← List.drop_drop, hd, h4, List.append_assoc, List.drop_left]
      · rw [readOperationLoop_operator hd hb, failsAt_operator hd hb, hd]
        constructor
        · intro h
          exact ⟨[], [], _, .nil, rfl, h⟩
        · rintro ⟨ns, operands', tail, h3, h4, h5⟩
          cases h3 with
          | nil =>
            rw [h4]
            exact h5
          | cons hn hs =>
            obtain ⟨b', l', rfl, h2⟩ := operand_head hn
            simp only [List.cons_append, List.cons.injEq] at h4
            obtain ⟨rfl, -⟩ := h4
            exact absurd h2 hb

theorem seq_operand_length {ns : List Number} {bs : List UInt8} (h : Seq Operand ns bs) : ns.length ≤ bs.length := by
  induction h with
  | nil => simp
  | cons hn _ ih =>
    obtain ⟨b, l, rfl, -⟩ := operand_head hn
    simp
    omega

theorem exact_readOperation : Exact Operations.readOperation Operation := by
  intro env p x q
  unfold Operations.readOperation
  rw [Rd.bind_of_ok (a := env.data.length) (p' := p) rfl]
  constructor
  · intro h
    obtain ⟨ns, bs, op, h1, rfl, h2, rfl⟩ := readOperationLoop_ok h
    exact ⟨_, ⟨bs, by simpa using h1, rfl⟩, h2, rfl⟩
  · rintro ⟨_, ⟨bs, h1, rfl⟩, h2, rfl⟩
    have hl := seq_operand_length h1
    have hl2 := h2.length_le
    simp at hl2
    rw [readOperationLoop_complete h1 h2 (by omega)]
    simp

theorem operation_nonempty {x : Operator × List Number} {bs : List UInt8} (h : Operation x bs) : 0 < bs.length := by
  obtain ⟨o, -, rfl⟩ := h
  obtain ⟨b, l, h, -⟩ := opCode_head x.1
  simp [h]

theorem readOperation_err {env : Env} {p : Nat} {e : Err} :
    (∃ q, Operations.readOperation env p = (.err e, q)) ↔
      ∃ ns bs tail, Seq Operand ns bs ∧ env.data.drop p = bs ++ tail ∧ FailsAt e tail := by
  unfold Operations.readOperation
  rw [Rd.bind_of_ok (a := env.data.length) (p' := p) rfl]
  exact readOperationLoop_err (by omega)

theorem eof_readOperation : Eof Operations.readOperation CutOperation :=
  fun _ _ => readOperation_err

theorem readOperation_total (env : Env) (p : Nat) :
    (∃ x q, Operations.readOperation env p = (.ok x, q)) ∨
    (∃ e q, OperationErr e ∧ Operations.readOperation env p = (.err e, q)) := by
  unfold Operations.readOperation
  rw [Rd.bind_of_ok (a := env.data.length) (p' := p) rfl]
  exact readOperationLoop_total (by omega)

/-! ## Dictionaries -/

/-- Inserting operations one after another. -/
def insertAll (o : Operations) (ops : List (Operator × List Number)) : Operations :=
  ops.foldl (fun o x => o.insert x.1 x.2) o

theorem readLoop_succ (fuel : Nat) (o : Operations) (env : Env) (p : Nat) :
    Operations.readLoop (fuel + 1) o env p =
      (match Operations.readOperation env p with
      | (.ok (operator, operands), p') => Operations.readLoop fuel (o.insert operator operands) env p'
      | (.err .eof, p') => (.ok o, p')
      | (.err e, p') => (.err e, p')
      | (.panic x, p') => (.panic x, p')) := by
  rw [Operations.readLoop]
  rfl

/-- The loop succeeds exactly on operations followed by an operation cut short. -/
theorem readLoop_ok {fuel : Nat} {o o' : Operations} {env : Env} {p : Nat} (hf : env.data.length - p < fuel) :
    (∃ q, Operations.readLoop fuel o env p = (.ok o', q)) ↔
      ∃ ops bs rest, Dict ops bs ∧ env.data.drop p = bs ++ rest ∧ CutOperation rest ∧ o' = insertAll o ops := by
  induction fuel generalizing o p with
  | zero => omega
  | succ fuel ih =>
    constructor
    · rintro ⟨q, h⟩
      rw [readLoop_succ] at h
      rcases hr : Operations.readOperation env p with ⟨⟨op, ns⟩ | e | x, q'⟩
      · rw [hr] at h
        simp only [] at h
        obtain ⟨bs, hx, ⟨t, ht⟩, rfl⟩ := (exact_readOperation _ _ _ _).mp hr
        have hn := operation_nonempty hx
        have hl : env.data.length - (p + bs.length) < fuel := by
          have := congrArg List.length ht
          simp at this
          omega
        obtain ⟨ops, bs', rest, h1, h2, h3, h4⟩ := (ih hl).mp ⟨q, h⟩
        rw [← List.drop_drop, ← ht, List.drop_left] at h2
        exact ⟨(op, ns) :: ops, bs ++ bs', rest, .cons hx h1, by rw [← ht, h2, List.append_assoc], h3, h4⟩
      · rw [hr] at h
        by_cases he : e = .eof
        · subst he
          simp only [Prod.mk.injEq, Res.ok.injEq] at h
          obtain ⟨rfl, -⟩ := h
          exact ⟨[], [], _, .nil, rfl, (eof_readOperation env p).mp ⟨_, hr⟩, rfl⟩
        · cases e <;> simp at h he
      · rw [hr] at h
        simp at h
    · rintro ⟨ops, bs, rest, h1, h2, h3, rfl⟩
      rw [readLoop_succ]
      cases h1 with
      | nil =>
        rw [List.nil_append] at h2
        obtain ⟨q, hq⟩ := (eof_readOperation env p).mpr (by rw [h2]; exact h3)
        rw [hq]
        exact ⟨q, rfl⟩
      | cons hx hs =>
        rename_i x b1 ops bs
        obtain ⟨op, ns⟩ := x
        have hr := (exact_readOperation env p (op, ns) _).mpr ⟨b1, hx, ⟨bs ++ rest, by rw [h2]; simp⟩, rfl⟩
        rw [hr]
        have hn := operation_nonempty hx
        have hl : env.data.length - (p + b1.length) < fuel := by
          have := congrArg List.length h2
          simp at this
          omega
        refine (ih hl).mpr ⟨ops, bs, rest, hs, ?_, h3, rfl⟩
        rw [← List.drop_drop, h2, List.append_assoc, List.drop_left]

theorem readLoop_total {fuel : Nat} {o : Operations} {env : Env} {p : Nat} (hf : env.data.length - p < fuel) :
    (∃ o' q, Operations.readLoop fuel o env p = (.ok o', q)) ∨
    (∃ q, Operations.readLoop fuel o env p = (.err (.raised .malformedNumber), q)) ∨
    (∃ q, Operations.readLoop fuel o env p = (.err (.raised .unknownOperator), q)) := by
  induction fuel generalizing o p with
  | zero => omega
  | succ fuel ih =>
    rw [readLoop_succ]
    rcases readOperation_total env p with ⟨⟨op, ns⟩, q, hr⟩ | ⟨e, q, he, hr⟩
    · rw [hr]
      obtain ⟨bs, hx, ⟨t, ht⟩, rfl⟩ := (exact_readOperation _ _ _ _).mp hr
      have hn := operation_nonempty hx
      have hl : env.data.length - (p + bs.length) < fuel := by
        have := congrArg List.length ht
        simp at this
        omega
      exact ih hl
    · rw [hr]
      rcases he with rfl | rfl | rfl
      · exact .inl ⟨_, _, rfl⟩
      · exact .inr (.inl ⟨_, rfl⟩)
      · exact .inr (.inr ⟨_, rfl⟩)

theorem readLoop_err {fuel : Nat} {o : Operations} {env : Env} {p : Nat} {e : Err} (he : e ≠ .eof)
    (hf : env.data.length - p < fuel) :
    (∃ q, Operations.readLoop fuel o env p = (.err e, q)) ↔
      ∃ ops bs ns os tail, Dict ops bs ∧ Seq Operand ns os ∧ env.data.drop p = bs ++ os ++ tail ∧ FailsAt e tail := by
  induction fuel generalizing o p with
  | zero => omega
  | succ fuel ih =>
    constructor
    · rintro ⟨q, h⟩
      rw [readLoop_succ] at h
      rcases hr : Operations.readOperation env p with ⟨⟨op, ns⟩ | e' | x, q'⟩
      · rw [hr] at h
        simp only [] at h
        obtain ⟨bs, hx, ⟨t, ht⟩, rfl⟩ := (exact_readOperation _ _ _ _).mp hr
        have hn := operation_nonempty hx
        have hl : env.data.length - (p + bs.length) < fuel := by
          have := congrArg List.length ht
          simp at this
          omega
        obtain ⟨ops, bs', ns', os, tail, h1, h2, h3, h4⟩ := (ih hl).mp ⟨q, h⟩
        rw [← List.drop_drop, ← ht, List.drop_left] at h3
        exact ⟨(op, ns) :: ops, bs ++ bs', ns', os, tail, .cons hx h1, h2, by rw [← ht, h3]; simp, h4⟩
      · rw [hr] at h
        have : e' = e := by
          cases e' <;> simp at h <;> exact h.1
        subst this
        obtain ⟨ns, os, tail, h1, h2, h3⟩ := readOperation_err.mp ⟨_, hr⟩
        exact ⟨[], [], ns, os, tail, .nil, h1, h2, h3⟩
      · rw [hr] at h
        simp at h
    · rintro ⟨ops, bs, ns, os, tail, h1, h2, h3, h4⟩
      rw [readLoop_succ]
      cases h1 with
      | nil =>
        obtain ⟨q, hq⟩ := readOperation_err.mpr ⟨ns, os, tail, h2, h3, h4⟩
        rw [hq]
        cases e
        · exact absurd rfl he
        all_goals exact ⟨q, rfl⟩
      | cons hx hs =>
        rename_i x b1 ops bs
        obtain ⟨op, ns'⟩ := x
        have hr := (exact_readOperation env p (op, ns') _).mpr ⟨b1, hx, ⟨bs ++ os ++ tail, by rw [h3]; simp⟩, rfl⟩
        rw [hr]
        have hn := operation_nonempty hx
        have hl : env.data.length - (p + b1.length) < fuel := by
          have := congrArg List.length h3
          simp at this
          omega
        refine (ih hl).mpr ⟨ops, bs, ns, os, tail, hs, h2, ?_, h4⟩
        rw [← List.drop_drop, h3]
        simp

theorem operations_err {env : Env} {p : Nat} {e : Err} (he : e ≠ .eof) :
    (∃ q, Operations.read env p = (.err e, q)) ↔
      ∃ ops bs ns os tail, Dict ops bs ∧ Seq Operand ns os ∧ env.data.drop p = bs ++ os ++ tail ∧ FailsAt e tail := by
  unfold Operations.read
  rw [Rd.bind_of_ok (a := env.data.length) (p' := p) rfl]
  exact readLoop_err he (by omega)

theorem operations_ok {o : Operations} {env : Env} {p : Nat} :
    (∃ q, Operations.read env p = (.ok o, q)) ↔
      ∃ ops bs rest, Dict ops bs ∧ env.data.drop p = bs ++ rest ∧ CutOperation rest ∧ o = insertAll .empty ops := by
  unfold Operations.read
  rw [Rd.bind_of_ok (a := env.data.length) (p' := p) rfl]
  exact readLoop_ok (by omega)

theorem operations_total (env : Env) (p : Nat) :
    (∃ o q, Operations.read env p = (.ok o, q)) ∨
    (∃ q, Operations.read env p = (.err (.raised .malformedNumber), q)) ∨
    (∃ q, Operations.read env p = (.err (.raised .unknownOperator), q)) := by
  unfold Operations.read
  rw [Rd.bind_of_ok (a := env.data.length) (p' := p) rfl]
  exact readLoop_total (by omega)

theorem insertAll_map (ops : List (Operator × List Number)) (op : Operator) (operands : List Number) :
    (insertAll .empty ops).map op = some operands ↔ Last ops op operands := by
  induction ops using List.reverseRecOn with
  | nil =>
    constructor
    · intro h; simp [insertAll, Operations.empty] at h
    · rintro ⟨b, a, h, -⟩
      simp at h
  | append_singleton ops x ih =>
    have : insertAll .empty (ops ++ [x]) = (insertAll .empty ops).insert x.1 x.2 := by
      simp [insertAll]
    rw [this]
    simp only [Operations.insert]
    split
    · rename_i hx
      subst hx
      constructor
      · intro h
        simp at h
        subst h
        exact ⟨ops, [], rfl, by simp⟩
      · rintro ⟨b, a, h, ha⟩
        rcases List.eq_nil_or_concat a with rfl | ⟨a, y, rfl⟩
        · have := (List.append_inj' h rfl).2
          simp at this
          rw [this]
        · exfalso
          have h' : ops ++ [x] = (b ++ (x.1, operands) :: a) ++ [y] := by simpa using h
          have := (List.append_inj' h' rfl).2
          simp at this
          exact ha y (by simp) (by rw [this])
    · rename_i hx
      rw [ih]
      constructor
      · rintro ⟨b, a, rfl, ha⟩
        refine ⟨b, a ++ [x], by simp, ?_⟩
        intro y hy
        rcases List.mem_append.mp hy with hy | hy
        · exact ha y hy
        · simp at hy
          subst hy
          exact fun h => hx h.symm
      · rintro ⟨b, a, h, ha⟩
        rcases List.eq_nil_or_concat a with rfl | ⟨a, y, rfl⟩
        · exfalso
          have := (List.append_inj' h rfl).2
          simp at this
          exact hx (by rw [this])
        · have h' : ops ++ [x] = (b ++ (op, operands) :: a) ++ [y] := by simpa using h
          exact ⟨b, a, (List.append_inj' h' rfl).1, fun z hz => ha z (by simp [hz])⟩

theorem cutOperation_nil : CutOperation [] := ⟨[], [], [], .nil, rfl, .inl rfl⟩

theorem cut_operand {n : Number} {bs : List UInt8} (h : Operand n bs) {k : Nat} (hk : k < bs.length) :
    bs.take k = [] ∨ CutOperand (bs.take k) := by
  have h1 := (exact_operand ⟨⟨true, true, 0, fun p _ => p⟩, bs⟩ 0 n _).mpr ⟨bs, h, by simp, rfl⟩
  exact (eof_number _ 0).mp (trunc_number _ _ _ _ _ k h1 (by omega) (by omega))

theorem cut_operation {x : Operator × List Number} {bs : List UInt8} (h : Operation x bs) {k : Nat} (hk : k < bs.length) :
    CutOperation (bs.take k) := by
  obtain ⟨op, ns⟩ := x
  obtain ⟨os, hs, rfl⟩ := h
  simp only at hs hk ⊢
  induction hs generalizing k with
  | nil =>
    refine ⟨[], [], _, .nil, rfl, ?_⟩
    rcases opCode_codeOf op with ⟨b, -, h, -⟩ | ⟨b, h, -⟩
    · simp [h] at hk ⊢
      simp [hk]
    · simp [h] at hk ⊢
      obtain rfl | rfl : k = 0 ∨ k = 1 := by omega
      · simp
      · simp
  | cons hn hs ih =>
    rename_i n b1 ns os
    rw [List.append_assoc] at hk ⊢
    by_cases hk1 : k < b1.length
    · rw [List.take_append_of_le_length hk1.le]
      refine ⟨[], [], _, .nil, rfl, ?_⟩
      rcases cut_operand hn hk1 with h | h
      · exact .inl h
      · exact .inr (.inl h)
    · obtain ⟨ns', os', tail, h1, h2, h3⟩ := ih (k := k - b1.length) (by simp at hk ⊢; omega)
      refine ⟨n :: ns', b1 ++ os', tail, .cons hn h1, ?_, h3⟩
      rw [List.take_append, List.take_of_length_le (by omega), h2, List.append_assoc]

/-- A cut of a dictionary falls into one operation. -/
theorem cut_dict {ops : List (Operator × List Number)} {bs : List UInt8} (h : Dict ops bs) {k : Nat} (hk : k < bs.length) :
    ∃ done next rest b1 b2 b3, ops = done ++ next :: rest ∧ bs = b1 ++ b2 ++ b3 ∧ Dict done b1 ∧
      Operation next b2 ∧ Dict rest b3 ∧ b1.length ≤ k ∧ k < b1.length + b2.length := by
  induction h generalizing k with
  | nil => simp at hk
  | cons hx hs ih =>
    rename_i x b ops bs
    by_cases hk1 : k < b.length
    · exact ⟨[], x, ops, [], b, bs, rfl, rfl, .nil, hx, hs, by simp, by simpa using hk1⟩
    · obtain ⟨done, next, rest, b1, b2, b3, rfl, rfl, h1, h2, h3, h4, h5⟩ :=
        ih (k := k - b.length) (by simp at hk ⊢; omega)
      exact ⟨x :: done, next, rest, b ++ b1, b2, b3, rfl, by simp, .cons hx h1, h2, h3, by simp; omega, by simp; omega⟩

end PS
