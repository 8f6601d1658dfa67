import Verif.Lemmas.Type2Number
/-!
# Lemmas: one activation of `next`
-/
namespace PS.Type2
open PS.Spec hiding Operand Operation
open PS.Type2.Spec

/-! ## The monad -/

namespace PM

theorem pure_eq (a : α) (c : Config) (s : Program) : (Pure.pure a : PM α) c s = (.ok a, s) := rfl

theorem bind_of_ok {m : PM α} {f : α → PM β} {c s a s'} (h : m c s = (.ok a, s')) :
    (m >>= f) c s = f a c s' := by
  show PM.bind m f c s = _
  unfold PM.bind
  rw [h]

theorem bind_of_err {m : PM α} {f : α → PM β} {c s e s'} (h : m c s = (.err e, s')) :
    (m >>= f) c s = (.err e, s') := by
  show PM.bind m f c s = _
  unfold PM.bind
  rw [h]

theorem bind_of_panic {m : PM α} {f : α → PM β} {c s e s'} (h : m c s = (.panic e, s')) :
    (m >>= f) c s = (.panic e, s') := by
  show PM.bind m f c s = _
  unfold PM.bind
  rw [h]

end PM

/-- The program after its next bytes, `n` of them, have been read and `xs` pushed. -/
def adv (s : Program) (xs : List F32) (n : Nat) : Program :=
  { s with stack := s.stack ++ xs, routine := { s.routine with pos := s.routine.pos + n } }

theorem adv_nil_zero (s : Program) : adv s [] 0 = s := by simp [adv]

theorem adv_adv (s : Program) (xs ys : List F32) (n k : Nat) :
    adv (adv s xs n) ys k = adv s (xs ++ ys) (n + k) := by
  simp [adv, Nat.add_assoc]

theorem left_adv {s : Program} {bs r : List UInt8} (h : left s.routine = bs ++ r) (xs : List F32) :
    left (adv s xs bs.length).routine = r := by
  unfold left adv
  simp only
  rw [← List.drop_drop]
  unfold left at h
  rw [h]
  simp

/-- Reading from the tape of the current routine. -/
theorem tape_of_exact {m : Rd α} {R : α → List UInt8 → Prop} (hm : Exact m R) {a : α} {bs r : List UInt8}
    (hR : R a bs) (cfg : Config) {s : Program} (h : left s.routine = bs ++ r) :
    PM.tape m cfg s = (.ok a, adv s [] bs.length) := by
  have : m { cfg, data := s.routine.code } s.routine.pos = (.ok a, s.routine.pos + bs.length) := by
    rw [hm]
    exact ⟨bs, hR, ⟨r, h.symm⟩, rfl⟩
  unfold PM.tape
  rw [this]
  simp [adv]

theorem tape_of_err {m : Rd α} {cfg : Config} {s : Program} {e : Err} {q : Nat}
    (h : m { cfg, data := s.routine.code } s.routine.pos = (.err e, q)) :
    PM.tape m cfg s = (.err e, { s with routine := { s.routine with pos := q } }) := by
  unfold PM.tape
  rw [h]

theorem tape_peek {cfg : Config} {s : Program} {b : UInt8} {l : List UInt8} (h : left s.routine = b :: l) :
    PM.tape (Rd.peek Rd.u8) cfg s = (.ok b, s) := by
  have := peek_u8 { cfg, data := s.routine.code } s.routine.pos b l h
  unfold PM.tape
  rw [this]

/-! ## Operands -/

theorem seq_operand_length {xs : List F32} {bs : List UInt8} (h : Seq Operand xs bs) : xs.length ≤ bs.length := by
  induction h with
  | nil => simp
  | cons h _ ih =>
    have := List.length_pos_of_ne_nil (operand_ne_nil h)
    simp only [List.length_cons, List.length_append]
    omega

theorem seq_append {R : α → List UInt8 → Prop} {as as' : List α} {bs bs' : List UInt8} (h : Seq R as bs)
    (h' : Seq R as' bs') : Seq R (as ++ as') (bs ++ bs') := by
  induction h with
  | nil => exact h'
  | cons h _ ih => rw [List.append_assoc]; exact Seq.cons h ih

theorem left_length (r : Routine) : (left r).length = r.code.length - r.pos := by simp [left]

theorem takeOperands_of {cfg : Config} {xs : List F32} {bs : List UInt8} (hs : Seq Operand xs bs) {c : UInt8}
    {l : List UInt8} (hc : isOperandByte c = false) {fuel : Nat} {s : Program}
    (h : left s.routine = bs ++ c :: l) (hf : xs.length < fuel) :
    takeOperands fuel cfg s = (.ok c, adv s xs bs.length) := by
  induction hs generalizing fuel s with
  | nil =>
    obtain ⟨fuel, rfl⟩ : ∃ k, fuel = k + 1 := ⟨fuel - 1, by omega⟩
    unfold takeOperands
    rw [PM.bind_of_ok (tape_peek h), hc]
    simp [adv_nil_zero]; rfl
  | cons hx hs ih =>
    rename_i x b xs bs
    obtain ⟨fuel, rfl⟩ : ∃ k, fuel = k + 1 := ⟨fuel - 1, by omega⟩
    obtain ⟨b0, l0, rfl, hb⟩ := operand_head hx
    unfold takeOperands
    rw [PM.bind_of_ok (tape_peek (b := b0) (l := l0 ++ bs ++ c :: l) (by simp [h])), if_pos hb]
    have hh : left s.routine = (b0 :: l0) ++ (bs ++ c :: l) := by simp [h]
    rw [PM.bind_of_ok (tape_of_exact exact_readNumber hx cfg hh)]
    rw [PM.bind_of_ok (show push x cfg (adv s [] (b0 :: l0).length) = (.ok (), adv s [x] (b0 :: l0).length) by
      simp [push, PM.modify, adv])]
    rw [ih (left_adv hh [x]) (by simpa using hf), adv_adv]
    simp [Nat.add_right_comm]

theorem takeOperands_nil {cfg : Config} {xs : List F32} {bs : List UInt8} (hs : Seq Operand xs bs) {tail : List UInt8}
    (ht : tail = [] ∨ ∃ x b, Operand x b ∧ tail <+: b ∧ tail ≠ b) {fuel : Nat} {s : Program}
    (hp : s.routine.pos ≤ s.routine.code.length)
    (h : left s.routine = bs ++ tail) (hf : xs.length < fuel) :
    ∃ s', takeOperands fuel cfg s = (.err .eof, s') := by
  induction hs generalizing fuel s with
  | nil =>
    obtain ⟨fuel, rfl⟩ : ∃ k, fuel = k + 1 := ⟨fuel - 1, by omega⟩
    unfold takeOperands
    rcases tail with _ | ⟨b, tail⟩
    · refine ⟨_, PM.bind_of_err (tape_of_err (q := s.routine.pos) ?_)⟩
      exact peek_u8_eof _ _ h
    · rcases ht with ht | ⟨x, bs, hx, h1, h2⟩
      · simp at ht
      · have hb : isOperandByte b = true := by
          obtain ⟨b', l', rfl, hb⟩ := operand_head hx
          obtain ⟨t, ht⟩ := h1
          simp only [List.cons_append, List.cons.injEq] at ht
          rw [ht.1]; exact hb
        rw [PM.bind_of_ok (tape_peek h), if_pos hb]
        obtain ⟨q, hq⟩ := readNumber_cut (env := { cfg, data := s.routine.code }) (p := s.routine.pos) hx h1 h2 hp h
        exact ⟨_, PM.bind_of_err (tape_of_err hq)⟩
  | cons hx hs ih =>
    rename_i x b xs bs
    obtain ⟨fuel, rfl⟩ : ∃ k, fuel = k + 1 := ⟨fuel - 1, by omega⟩
    obtain ⟨b0, l0, rfl, hb⟩ := operand_head hx
    unfold takeOperands
    rw [PM.bind_of_ok (tape_peek (b := b0) (l := l0 ++ bs ++ tail) (by simp [h])), if_pos hb]
    have hh : left s.routine = (b0 :: l0) ++ (bs ++ tail) := by simp [h]
    rw [PM.bind_of_ok (tape_of_exact exact_readNumber hx cfg hh)]
    rw [PM.bind_of_ok (show push x cfg (adv s [] (b0 :: l0).length) = (.ok (), adv s [x] (b0 :: l0).length) by
      simp [push, PM.modify, adv])]
    refine ih ?_ (left_adv hh [x]) (by simpa using hf)
    have := congrArg List.length hh
    rw [left_length, List.length_append] at this
    simp only [adv]
    omega

/-- Code splits into operands and something that is not an operand. -/
theorem split_operands (l : List UInt8) : ∃ xs bs tail, Seq Operand xs bs ∧ l = bs ++ tail ∧
    (tail = [] ∨ (∃ x b, Operand x b ∧ tail <+: b ∧ tail ≠ b) ∨ ∃ c t, tail = c :: t ∧ isOperandByte c = false) := by
  induction hn : l.length using Nat.strong_induction_on generalizing l with
  | _ n ih =>
    rcases l with _ | ⟨b, l⟩
    · exact ⟨[], [], [], .nil, rfl, .inl rfl⟩
    · rcases hb : isOperandByte b with _ | _
      · exact ⟨[], [], b :: l, .nil, rfl, .inr (.inr ⟨b, l, rfl, hb⟩)⟩
      · rcases operand_cases hb l with ⟨x, bs, hx, r, hr⟩ | h
        · have := List.length_pos_of_ne_nil (operand_ne_nil hx)
          have hlen := congrArg List.length hr
          rw [List.length_append] at hlen
          obtain ⟨xs, bs', tail, h1, h2, h3⟩ := ih r.length (by omega) r rfl
          exact ⟨x :: xs, bs ++ bs', tail, .cons hx h1, by rw [← hr, h2, List.append_assoc], h3⟩
        · exact ⟨[], [], b :: l, .nil, rfl, .inr (.inl h)⟩

/-! ## One activation -/

theorem takeOperator_of {cfg : Config} {op : Operator} {r : List UInt8} {s : Program} (h : left s.routine = bytes op ++ r) :
    ∃ c l, bytes op = c :: l ∧ isOperandByte c = false ∧
      takeOperator c cfg s = (.ok op, adv s [] (bytes op).length) := by
  rcases bytes_cases op with ⟨b, h1, h2, h3, h4⟩ | ⟨b, h1, h2⟩
  · refine ⟨b, [], h1, h3, ?_⟩
    unfold takeOperator
    rw [if_neg h2]
    rw [PM.bind_of_ok (tape_of_exact exact_u8 (a := b) (bs := [b]) (r := r) rfl cfg (by rw [h, h1]))]
    unfold PM.ofRes
    rw [← h4, from_codeOf, h1]
  · refine ⟨12, [b], h1, by decide, ?_⟩
    unfold takeOperator
    have hb := b.toNat_lt
    have e : beNat [12, b] = 12 * 256 + b.toNat := by simp [beNat]
    have e' : (UInt16.ofNat (beNat [12, b])).toNat = beNat [12, b] := by
      rw [UInt16.toNat_ofNat_of_lt']
      rw [e]; simp [UInt16.size]; omega
    have hbe : [12, b] = be 2 (UInt16.ofNat (beNat [12, b])).toNat := by
      rw [e']; exact (be_beNat [12, b]).symm
    rw [if_pos rfl]
    rw [PM.bind_of_ok (tape_of_exact exact_u16 (a := UInt16.ofNat (beNat [12, b])) (bs := [12, b]) (r := r) hbe cfg (by rw [h, h1]))]
    unfold PM.ofRes
    rw [← h2, from_codeOf, h1]

theorem step_done {cfg : Config} {s : Program} (hp : s.routine.pos ≤ s.routine.code.length)
    (h : left s.routine = []) : step cfg s = (.ok (.ret none), s) := by
  have : s.routine.done = true := by
    have := congrArg List.length h
    rw [left_length] at this
    simp only [List.length_nil] at this
    simp only [Routine.done, beq_iff_eq]
    omega
  unfold step
  rw [PM.bind_of_ok (a := s) (s' := s) rfl, this]
  rfl

theorem not_done {s : Program} (h : left s.routine ≠ []) : s.routine.done = false := by
  have := List.length_pos_of_ne_nil h
  rw [left_length] at this
  simp only [Routine.done, beq_eq_false_iff_ne]
  omega

theorem step_fetch {cfg : Config} {s : Program} {xs : List F32} {bs r : List UInt8} {op : Operator}
    (hs : Seq Operand xs bs) (h : left s.routine = bs ++ bytes op ++ r) :
    step cfg s = dispatch op cfg (adv s xs (bs ++ bytes op).length) := by
  obtain ⟨c, l, hc, hco, ht⟩ := takeOperator_of (cfg := cfg) (s := adv s xs bs.length)
    (left_adv (by rw [h, List.append_assoc]) xs)
  have hd : s.routine.done = false := not_done (by rw [h]; simp [bytes_ne_nil])
  have hlen := seq_operand_length hs
  have hl := congrArg List.length h
  rw [left_length] at hl
  simp only [List.length_append] at hl
  unfold step
  rw [PM.bind_of_ok (a := s) (s' := s) rfl, hd]
  simp only [Bool.false_eq_true, if_false]
  rw [PM.bind_of_ok (takeOperands_of hs hco (l := l ++ r) (by rw [h, hc]; simp) (by omega)), PM.bind_of_ok ht]
  rw [adv_adv]
  simp

theorem step_eof {cfg : Config} {s : Program} {xs : List F32} {bs tail : List UInt8} (hs : Seq Operand xs bs)
    (hp : s.routine.pos ≤ s.routine.code.length) (h : left s.routine = bs ++ tail) (hne : bs ++ tail ≠ [])
    (ht : Cut tail) : ∃ s', step cfg s = (.err .eof, s') := by
  have hd : s.routine.done = false := not_done (by rw [h]; exact hne)
  have hlen := seq_operand_length hs
  have hl := congrArg List.length h
  rw [left_length] at hl
  simp only [List.length_append] at hl
  unfold step
  rw [PM.bind_of_ok (a := s) (s' := s) rfl, hd]
  simp only [Bool.false_eq_true, if_false]
  by_cases h12 : tail = [12]
  · subst h12
    rw [PM.bind_of_ok (takeOperands_of hs (c := 12) (by decide) h (by omega))]
    have hl' := left_adv h xs
    have : (Rd.u16 { cfg, data := (adv s xs bs.length).routine.code } (adv s xs bs.length).routine.pos).1 = .err .eof := by
      unfold Rd.u16
      rw [Rd.bind_of_err (e := .eof)]
      unfold Rd.readExact
      rw [if_neg]
      have := congrArg List.length hl'
      rw [left_length] at this
      simp only [List.length_cons, List.length_nil] at this
      show ¬ 2 ≤ (adv s xs bs.length).routine.code.length - _
      omega
    rcases hu : Rd.u16 { cfg, data := (adv s xs bs.length).routine.code } (adv s xs bs.length).routine.pos with ⟨r, q⟩
    rw [hu] at this
    simp only at this
    subst this
    refine ⟨_, PM.bind_of_err (s' := { adv s xs bs.length with routine := { (adv s xs bs.length).routine with pos := q } }) ?_⟩
    unfold takeOperator
    rw [if_pos rfl, PM.bind_of_err (tape_of_err hu)]
  · have ht' : tail = [] ∨ ∃ x b, Operand x b ∧ tail <+: b ∧ tail ≠ b := by
      rcases ht with ht | ⟨op, ⟨t, ht⟩, hne⟩
      · exact .inr ht
      · left
        rcases bytes_cases op with ⟨b, h1, _⟩ | ⟨b, h1, _⟩
        · rw [h1] at ht hne
          rcases tail with _ | ⟨c, tail⟩
          · rfl
          · simp at ht hne
            exact absurd ht.2.1 (hne ht.1)
        · rw [h1] at ht hne
          rcases tail with _ | ⟨c, _ | ⟨d, tail⟩⟩
          · rfl
          · simp at ht; exact absurd (by rw [ht.1]) h12
          · simp at ht hne
            exact absurd ht.2.2.1 (hne ht.1 ht.2.1)
    obtain ⟨s', hs'⟩ := takeOperands_nil (cfg := cfg) hs ht' hp h (fuel := s.routine.code.length + 1) (by omega)
    exact ⟨s', PM.bind_of_err hs'⟩

theorem step_unknown {cfg : Config} {s : Program} {xs : List F32} {bs tail : List UInt8} (hs : Seq Operand xs bs)
    (h : left s.routine = bs ++ tail) (ht : Unknown tail) :
    ∃ s', step cfg s = (.err (.raised .unknownOperator), s') := by
  have hne : tail ≠ [] := by
    rintro rfl
    exact ht.2.2 (.inr ⟨.opHStem, by simp, by simp [bytes]⟩)
  have hd : s.routine.done = false := not_done (by rw [h]; simp [hne])
  have hlen := seq_operand_length hs
  have hl := congrArg List.length h
  rw [left_length] at hl
  simp only [List.length_append] at hl
  unfold step
  rw [PM.bind_of_ok (a := s) (s' := s) rfl, hd]
  simp only [Bool.false_eq_true, if_false]
  rcases tail with _ | ⟨c, tail⟩
  · simp at hne
  have hc : isOperandByte c = false := by
    rcases hc : isOperandByte c with _ | _
    · rfl
    · rcases operand_cases hc tail with ⟨x, b, hx, hp⟩ | h'
      · exact absurd hp (ht.1 x b hx)
      · exact absurd (.inl h') ht.2.2
  rw [PM.bind_of_ok (takeOperands_of hs hc h (by omega))]
  have hl' := left_adv h xs
  by_cases h12 : c = 12
  · subst h12
    rcases tail with _ | ⟨b, tail⟩
    · exact absurd (.inr ⟨.opAnd, ⟨[3], rfl⟩, by simp [bytes]⟩) ht.2.2
    · have hb := b.toNat_lt
      have e : beNat [12, b] = 12 * 256 + b.toNat := by simp [beNat]
      have e' : (UInt16.ofNat (beNat [12, b])).toNat = beNat [12, b] := by
        rw [UInt16.toNat_ofNat_of_lt']
        rw [e]; simp [UInt16.size]; omega
      have hbe : [12, b] = be 2 (UInt16.ofNat (beNat [12, b])).toNat := by
        rw [e']; exact (be_beNat [12, b]).symm
      refine ⟨_, PM.bind_of_err (s' := adv (adv s xs bs.length) [] 2) ?_⟩
      unfold takeOperator
      rw [if_pos rfl]
      rw [PM.bind_of_ok (tape_of_exact exact_u16 (a := UInt16.ofNat (beNat [12, b])) (bs := [12, b]) (r := tail) hbe cfg hl')]
      unfold PM.ofRes
      rcases from_total (UInt16.ofNat (beNat [12, b])) with ⟨op, ho⟩ | ho
      · exact absurd ⟨tail, by rw [codeOf_two (from_ok.mp ho)]; rfl⟩ (ht.2.1 op)
      · rw [ho]; rfl
  · refine ⟨_, PM.bind_of_err (s' := adv (adv s xs bs.length) [] 1) ?_⟩
    unfold takeOperator
    rw [if_neg h12]
    rw [PM.bind_of_ok (tape_of_exact exact_u8 (a := c) (bs := [c]) (r := tail) rfl cfg hl')]
    unfold PM.ofRes
    rcases from_total (UInt16.ofNat c.toNat) with ⟨op, ho⟩ | ho
    · exact absurd ⟨tail, by rw [codeOf_one h12 (from_ok.mp ho)]; rfl⟩ (ht.2.1 op)
    · rw [ho]; rfl

/-- The ways an activation can begin. -/
theorem fetch_cases (l : List UInt8) : l = [] ∨
    (∃ xs bs op r, Seq Operand xs bs ∧ l = bs ++ bytes op ++ r) ∨
    (∃ xs bs tail, Seq Operand xs bs ∧ l = bs ++ tail ∧ l ≠ [] ∧ Cut tail) ∨
    (∃ xs bs tail, Seq Operand xs bs ∧ l = bs ++ tail ∧ Unknown tail) := by
  by_cases hl : l = []
  · exact .inl hl
  right
  obtain ⟨xs, bs, tail, hs, h, ht⟩ := split_operands l
  by_cases hc : Cut tail
  · exact .inr (.inl ⟨xs, bs, tail, hs, h, hl, hc⟩)
  rcases ht with rfl | ht | ⟨c, t, rfl, hc'⟩
  · exact absurd (.inr ⟨.opHStem, by simp, by simp [bytes]⟩) hc
  · exact absurd (.inl ht) hc
  · by_cases ho : ∃ op, bytes op <+: c :: t
    · obtain ⟨op, r, hr⟩ := ho
      exact .inl ⟨xs, bs, op, r, hs, by rw [h, ← hr, List.append_assoc]⟩
    · refine .inr (.inr ⟨xs, bs, c :: t, hs, h, ?_, fun op hop => ho ⟨op, hop⟩, hc⟩)
      rintro x b hx ⟨r, hr⟩
      obtain ⟨b', l', rfl, hb⟩ := operand_head hx
      simp only [List.cons_append, List.cons.injEq] at hr
      rw [hr.1, hc'] at hb
      simp at hb

end PS.Type2
