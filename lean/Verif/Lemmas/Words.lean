import Verif.Spec.Words
import Verif.Lemmas.Type2Next
/-!
# Lemmas: programs and the width of words
-/
namespace PS.Type2
open PS.Spec hiding Operand Operation
open PS.Type2.Spec

namespace Words

variable {bits : Nat} {cfg : Config}

/-! ## Operands -/

/-- No operand ahead finds the stack full. -/
def Room (bits : Nat) (σ : State) : Prop := ∀ υ x bs rest, Pushes σ υ → Operand x bs → υ.code = bs ++ rest →
  υ.stack.length < 2 ^ (bits - 4)

theorem push_room {s : Program} {x : F32} (h : s.stack.length < 2 ^ (bits - 4)) : push bits x cfg s = Type2.push x cfg s := by
  unfold push
  rw [PM.bind_of_ok (a := s) (s' := s) rfl, if_neg (by omega)]

theorem push_full {s : Program} {x : F32} (h : 2 ^ (bits - 4) ≤ s.stack.length) : push bits x cfg s = (.panic .capacity, s) := by
  unfold push
  rw [PM.bind_of_ok (a := s) (s' := s) rfl, if_pos h]
  rfl

theorem takeOperands_same : ∀ (fuel : Nat) {s : Program}, Room bits (view s) →
    takeOperands bits fuel cfg s = Type2.takeOperands fuel cfg s := by
  intro fuel
  induction fuel with
  | zero => intro s _; rfl
  | succ fuel ih =>
    intro s h
    unfold takeOperands Type2.takeOperands
    rcases hp : PM.tape (Rd.peek Rd.u8) cfg s with ⟨code | e | x, s1⟩
    · rw [PM.bind_of_ok hp, PM.bind_of_ok hp]
      have e1 : s1 = s := by
        have := congrArg Prod.snd hp
        exact this.symm
      subst e1
      rcases hb : isOperandByte code with _ | _
      · rfl
      · simp only [if_true]
        rcases hn : PM.tape readNumber cfg s1 with ⟨x | e | x, s2⟩
        · rw [PM.bind_of_ok hn, PM.bind_of_ok hn]
          have hr : readNumber { cfg, data := s1.routine.code } s1.routine.pos = (.ok x, s2.routine.pos) := by
            have h1 := congrArg Prod.fst hn
            have h2 := congrArg (fun v => v.2.routine.pos) hn
            exact Prod.ext h1 h2
          obtain ⟨bs, hx, ⟨rest, hl⟩, hq⟩ := (exact_readNumber _ _ _ _).mp hr
          have hl' : left s1.routine = bs ++ rest := hl.symm
          have ht := tape_of_exact exact_readNumber hx cfg hl'
          rw [hn] at ht
          simp only [Prod.mk.injEq, Res.ok.injEq] at ht
          have e2 : s2 = adv s1 [] bs.length := ht.2
          subst e2
          have hroom := h _ x bs rest .refl hx hl'
          rw [PM.bind_of_ok (a := ()) (s' := adv s1 [x] bs.length) (by
            rw [push_room (by simpa [adv, view] using hroom)]; simp [Type2.push, PM.modify, adv])]
          rw [PM.bind_of_ok (m := Type2.push x) (a := ()) (s' := adv s1 [x] bs.length) (by simp [Type2.push, PM.modify, adv])]
          refine ih fun υ y cs rest' hp hy hc => h υ y cs rest' (.head ⟨x, bs, rest, hx, hl', ?_⟩ hp) hy hc
          rw [view_adv hl']
          rfl
        · rw [PM.bind_of_err hn, PM.bind_of_err hn]
        · rw [PM.bind_of_panic hn, PM.bind_of_panic hn]
    · rw [PM.bind_of_err hp, PM.bind_of_err hp]
    · rw [PM.bind_of_panic hp, PM.bind_of_panic hp]

theorem takeOperands_full {xs : List F32} {bs : List UInt8} (hs : Seq Operand xs bs) {x : F32} {b r : List UInt8}
    (hx : Operand x b) {fuel : Nat} {s : Program} (h : left s.routine = bs ++ (b ++ r)) (hf : xs.length < fuel)
    (hfull : 2 ^ (bits - 4) ≤ s.stack.length + xs.length) : ∃ s', takeOperands bits fuel cfg s = (.panic .capacity, s') := by
  have once : ∀ {y : F32} {c rest : List UInt8} {fuel : Nat} {s : Program}, Operand y c → left s.routine = c ++ rest →
      takeOperands bits (fuel + 1) cfg s = (do push bits y; takeOperands bits fuel) cfg (adv s [] c.length) := by
    intro y c rest fuel s hy hl
    obtain ⟨b0, l0, rfl, hb⟩ := operand_head hy
    conv_lhs => unfold takeOperands
    rw [PM.bind_of_ok (tape_peek (b := b0) (l := l0 ++ rest) (by simp [hl])), if_pos hb]
    rw [PM.bind_of_ok (tape_of_exact exact_readNumber hy cfg hl)]
  induction hs generalizing fuel s with
  | nil =>
    obtain ⟨fuel, rfl⟩ : ∃ k, fuel = k + 1 := ⟨fuel - 1, by omega⟩
    rw [once hx h]
    exact ⟨_, PM.bind_of_panic (push_full (by simpa [adv] using hfull))⟩
  | @cons y c xs bs hy hs ih =>
    obtain ⟨fuel, rfl⟩ : ∃ k, fuel = k + 1 := ⟨fuel - 1, by omega⟩
    have hl : left s.routine = c ++ (bs ++ (b ++ r)) := by rw [h, List.append_assoc]
    rw [once hy hl]
    by_cases hr : 2 ^ (bits - 4) ≤ s.stack.length
    · exact ⟨_, PM.bind_of_panic (push_full (by simpa [adv] using hr))⟩
    · rw [PM.bind_of_ok (a := ()) (s' := adv s [y] c.length) (by
        rw [push_room (by simp [adv]; omega)]; simp [Type2.push, PM.modify, adv])]
      exact ih (left_adv hl [y]) (by simpa using hf) (by simp [adv] at hfull ⊢; omega)

/-! ## Operators -/

theorem countStems_room {s : Program} (h : s.stems + s.stack.length / 2 < 2 ^ bits) :
    countStems bits cfg s = Type2.countStems cfg s := by
  unfold countStems
  rw [PM.bind_of_ok (a := cfg) (s' := s) rfl, PM.bind_of_ok (a := s) (s' := s) rfl]
  rw [PM.bind_of_ok (a := s.stems + s.stack.length / 2) (s' := s) (by simp [PM.ofRes, addWord, h])]
  rfl

theorem countStems_full {s : Program} (hc : cfg.checks = true) (h : 2 ^ bits ≤ s.stems + s.stack.length / 2) :
    countStems bits cfg s = (.panic .overflow, s) := by
  unfold countStems
  rw [PM.bind_of_ok (a := cfg) (s' := s) rfl, PM.bind_of_ok (a := s) (s' := s) rfl]
  exact PM.bind_of_panic (by simp [PM.ofRes, addWord, hc, Nat.not_lt.mpr h])

theorem mask_room {s : Program} {op : Operator} (hb : bits ≤ 64) (hm : Mask op) (h : s.stems + s.stack.length / 2 + 7 < 2 ^ bits) :
    dispatch bits op cfg s = Type2.dispatch op cfg s := by
  have key : (do
      countStems bits
      let c ← PM.cfg
      let s ← PM.get
      let n ← PM.ofRes (addWord bits c.checks s.stems 7)
      let _ ← PM.tape (Rd.replicate (n / 8) Rd.u8)
      clear op [[.equal 0]] : PM Flow) cfg s = (do
      Type2.countStems
      let s ← PM.get
      let _ ← PM.tape (Rd.bytes ((s.stems + 7) / 8))
      clear op [[.equal 0]] : PM Flow) cfg s := by
    let s1 : Program := { s with stems := s.stems + s.stack.length / 2 }
    have h0 : Type2.countStems cfg s = (.ok (), s1) := rfl
    rw [PM.bind_of_ok ((countStems_room (by omega)).trans h0), PM.bind_of_ok h0]
    rw [PM.bind_of_ok (a := cfg) (s' := s1) rfl, PM.bind_of_ok (a := s1) (s' := s1) rfl]
    rw [PM.bind_of_ok (m := PM.get) (a := s1) (s' := s1) rfl]
    rw [PM.bind_of_ok (a := s1.stems + 7) (s' := s1) (by simp [PM.ofRes, addWord, s1, h])]
    have hle : 2 ^ bits ≤ 2 ^ 64 := Nat.pow_le_pow_right (by omega) hb
    have : PM.tape (Rd.bytes ((s1.stems + 7) / 8)) cfg s1 = PM.tape (Rd.replicate ((s1.stems + 7) / 8) Rd.u8) cfg s1 := by
      unfold PM.tape Rd.bytes Rd.vec
      rw [Rd.bind_of_ok (a := cfg) (p' := s1.routine.pos) rfl, if_neg]
      rintro ⟨-, h'⟩
      have : s1.stems + 7 < 2 ^ bits := h
      omega
    rcases hr : PM.tape (Rd.replicate ((s1.stems + 7) / 8) Rd.u8) cfg s1 with ⟨x | e | x, s2⟩
    · rw [PM.bind_of_ok hr, PM.bind_of_ok (this.trans hr)]
    · rw [PM.bind_of_err hr, PM.bind_of_err (this.trans hr)]
    · rw [PM.bind_of_panic hr, PM.bind_of_panic (this.trans hr)]
  simp only [Mask, List.mem_cons, List.not_mem_nil, or_false] at hm
  rcases hm with rfl | rfl <;> exact key

theorem mask_full {s : Program} {op : Operator} (hc : cfg.checks = true) (hm : Mask op)
    (h : 2 ^ bits ≤ s.stems + s.stack.length / 2 + 7) : ∃ s', dispatch bits op cfg s = (.panic .overflow, s') := by
  have key : ∃ s', (do
      countStems bits
      let c ← PM.cfg
      let s ← PM.get
      let n ← PM.ofRes (addWord bits c.checks s.stems 7)
      let _ ← PM.tape (Rd.replicate (n / 8) Rd.u8)
      clear op [[.equal 0]] : PM Flow) cfg s = (.panic .overflow, s') := by
    by_cases hlt : s.stems + s.stack.length / 2 < 2 ^ bits
    · let s1 : Program := { s with stems := s.stems + s.stack.length / 2 }
      have h0 : Type2.countStems cfg s = (.ok (), s1) := rfl
      refine ⟨s1, ?_⟩
      rw [PM.bind_of_ok ((countStems_room hlt).trans h0)]
      rw [PM.bind_of_ok (a := cfg) (s' := s1) rfl, PM.bind_of_ok (a := s1) (s' := s1) rfl]
      exact PM.bind_of_panic (by simp [PM.ofRes, addWord, s1, Nat.not_lt.mpr h, hc])
    · exact ⟨_, PM.bind_of_panic (countStems_full hc (by omega))⟩
  simp only [Mask, List.mem_cons, List.not_mem_nil, or_false] at hm
  rcases hm with rfl | rfl <;> exact key

theorem stem_room {s : Program} {op : Operator} (hm : Stem op) (h : s.stems + s.stack.length / 2 < 2 ^ bits) :
    dispatch bits op cfg s = Type2.dispatch op cfg s := by
  have key : (do countStems bits; clear op [[.equal 2, .maybeModulo 2]] : PM Flow) cfg s =
      (do Type2.countStems; clear op [[.equal 2, .maybeModulo 2]] : PM Flow) cfg s := by
    have h0 : Type2.countStems cfg s = (.ok (), { s with stems := s.stems + s.stack.length / 2 }) := rfl
    rw [PM.bind_of_ok ((countStems_room h).trans h0), PM.bind_of_ok h0]
  simp only [Stem, List.mem_cons, List.not_mem_nil, or_false] at hm
  rcases hm with rfl | rfl | rfl | rfl <;> exact key

theorem stem_full {s : Program} {op : Operator} (hc : cfg.checks = true) (hm : Stem op)
    (h : 2 ^ bits ≤ s.stems + s.stack.length / 2) : ∃ s', dispatch bits op cfg s = (.panic .overflow, s') := by
  simp only [Stem, List.mem_cons, List.not_mem_nil, or_false] at hm
  rcases hm with rfl | rfl | rfl | rfl <;> exact ⟨_, PM.bind_of_panic (countStems_full hc h)⟩

theorem readStack_top {s : Program} (h : s.stack ≠ []) : ∃ x, readStack 0 cfg s = (.ok x, s) := by
  have hl := List.length_pos_of_ne_nil h
  refine ⟨s.stack[s.stack.length - 1 - 0], ?_⟩
  unfold readStack
  rw [PM.bind_of_ok (a := s) (s' := s) rfl, if_neg (by omega)]
  rw [List.getElem?_eq_getElem (by omega)]
  rfl

theorem dup_room {s : Program} (h : s.stack.length < 2 ^ (bits - 4)) :
    dispatch bits .opDup cfg s = Type2.dispatch .opDup cfg s := by
  show (do let x ← readStack 0; push bits x; PM.pure .again : PM Flow) cfg s =
    (do let x ← readStack 0; Type2.push x; PM.pure .again : PM Flow) cfg s
  by_cases hs : s.stack = []
  · have : ∃ e, readStack 0 cfg s = (.err e, s) := by
      unfold readStack
      rw [PM.bind_of_ok (a := s) (s' := s) rfl, if_pos (by simp [hs])]
      exact ⟨_, rfl⟩
    obtain ⟨e, he⟩ := this
    rw [PM.bind_of_err he, PM.bind_of_err he]
  · obtain ⟨x, hx⟩ := readStack_top (cfg := cfg) hs
    rw [PM.bind_of_ok hx, PM.bind_of_ok hx]
    rw [PM.bind_of_ok (a := ()) (s' := { s with stack := s.stack ++ [x] }) (by rw [push_room h]; rfl)]
    rw [PM.bind_of_ok (m := Type2.push x) (a := ()) (s' := { s with stack := s.stack ++ [x] }) rfl]

theorem dup_full {s : Program} (h : 2 ^ (bits - 4) ≤ s.stack.length) :
    ∃ s', dispatch bits .opDup cfg s = (.panic .capacity, s') := by
  have hpos : 0 < 2 ^ (bits - 4) := Nat.pow_pos (by omega)
  obtain ⟨x, hx⟩ := readStack_top (cfg := cfg) (s := s) (by rintro e; rw [e] at h; simp at h)
  refine ⟨s, ?_⟩
  show (do let x ← readStack 0; push bits x; PM.pure .again : PM Flow) cfg s = _
  rw [PM.bind_of_ok hx]
  exact PM.bind_of_panic (push_full h)

theorem dispatch_same {op : Operator} {t : Program} (hb : bits ≤ 64) (h : ∀ x, ¬ Exceeds bits (before op t) x) :
    dispatch bits op cfg t = Type2.dispatch op cfg t := by
  by_cases h1 : Stem op
  · exact stem_room h1 (by by_contra hn; exact h _ (.stems h1 rfl (Nat.not_lt.mp hn)))
  by_cases h2 : Mask op
  · exact mask_room hb h2 (by by_contra hn; exact h _ (.mask h2 rfl (Nat.not_lt.mp hn)))
  by_cases h3 : op = .opDup
  · subst h3
    exact dup_room (by by_contra hn; exact h _ (.dup rfl (Nat.not_lt.mp hn)))
  · cases op <;> first | rfl | exact absurd (by decide) h1 | exact absurd (by decide) h2 | exact absurd rfl h3

theorem dispatch_full {op : Operator} {t : Program} {x : Panic} (hc : x = .overflow → cfg.checks = true)
    (h : Exceeds bits (before op t) x) (hr : Room bits (before op t)) : ∃ s', dispatch bits op cfg t = (.panic x, s') := by
  cases h with
  | operand h1 h2 h3 => exact absurd (hr _ _ _ _ .refl h1 h2) (by omega)
  | dup h1 h2 =>
    obtain rfl := (before_code h1).1
    exact dup_full h2
  | stems h1 h2 h3 =>
    obtain rfl := (before_code h2).1
    exact stem_full (hc rfl) h1 h3
  | mask h1 h2 h3 =>
    obtain rfl := (before_code h2).1
    exact mask_full (hc rfl) h1 h3

/-! ## Steps -/

theorem step_room {s : Program} (hd : s.routine.done = false) (h : Room bits (view s)) :
    step bits cfg s = (do
      let code ← Type2.takeOperands (s.routine.code.length + 1)
      let operator ← takeOperator code
      dispatch bits operator : PM Flow) cfg s := by
  unfold step
  rw [PM.bind_of_ok (a := s) (s' := s) rfl, hd]
  simp only [Bool.false_eq_true, if_false]
  have := takeOperands_same (cfg := cfg) (s.routine.code.length + 1) h
  rcases hr : Type2.takeOperands (s.routine.code.length + 1) cfg s with ⟨x | e | x, s2⟩
  · rw [PM.bind_of_ok hr, PM.bind_of_ok (this.trans hr)]
  · rw [PM.bind_of_err hr, PM.bind_of_err (this.trans hr)]
  · rw [PM.bind_of_panic hr, PM.bind_of_panic (this.trans hr)]

theorem peek_ok {s t : Program} {c : UInt8} (h : PM.tape (Rd.peek Rd.u8) cfg s = (.ok c, t)) :
    t = s ∧ ∃ l, left s.routine = c :: l := by
  refine ⟨(congrArg Prod.snd h).symm, ?_⟩
  have h1 : (Rd.u8 { cfg, data := s.routine.code } s.routine.pos).1 = .ok c := congrArg Prod.fst h
  obtain ⟨bs, rfl, ⟨l, hl⟩, -⟩ := (exact_u8 _ _ c (Rd.u8 { cfg, data := s.routine.code } s.routine.pos).2).mp (Prod.ext h1 rfl)
  exact ⟨l, hl.symm⟩

theorem tape_ok {m : Rd α} {R : α → List UInt8 → Prop} (hm : Exact m R) {a : α} {s t : Program}
    (h : PM.tape m cfg s = (.ok a, t)) : ∃ bs rest, R a bs ∧ left s.routine = bs ++ rest ∧ t = adv s [] bs.length := by
  have e1 := congrArg Prod.fst h
  have e2 := congrArg (fun v => v.2.routine.pos) h
  have h1 : m { cfg, data := s.routine.code } s.routine.pos = (.ok a, t.routine.pos) := Prod.ext e1 e2
  obtain ⟨bs, hx, ⟨rest, hl⟩, -⟩ := (hm _ _ _ _).mp h1
  have hl' : left s.routine = bs ++ rest := hl.symm
  have ht := tape_of_exact hm hx cfg hl'
  rw [h] at ht
  simp only [Prod.mk.injEq, Res.ok.injEq] at ht
  exact ⟨bs, rest, hx, hl', ht.2⟩

theorem takeOperands_ok : ∀ (fuel : Nat) {s t : Program} {c : UInt8}, Type2.takeOperands fuel cfg s = (.ok c, t) →
    ∃ xs bs l, Seq Operand xs bs ∧ left s.routine = bs ++ c :: l ∧ t = adv s xs bs.length := by
  intro fuel
  induction fuel with
  | zero => intro s t c h; simp [Type2.takeOperands, PM.panic] at h
  | succ fuel ih =>
    intro s t c h
    unfold Type2.takeOperands at h
    rcases hp : PM.tape (Rd.peek Rd.u8) cfg s with ⟨code | e | x, s1⟩
    · rw [PM.bind_of_ok hp] at h
      obtain ⟨rfl, l, hl⟩ := peek_ok hp
      rcases hb : isOperandByte code with _ | _
      · rw [hb] at h
        simp only [Bool.false_eq_true, if_false, PM.pure, Prod.mk.injEq, Res.ok.injEq] at h
        obtain ⟨rfl, rfl⟩ := h
        exact ⟨[], [], l, .nil, hl, (adv_nil_zero _).symm⟩
      · rw [hb] at h
        simp only [if_true] at h
        rcases hn : PM.tape readNumber cfg s1 with ⟨x | e | x, s2⟩
        · rw [PM.bind_of_ok hn] at h
          obtain ⟨bs, rest, hx, hl', rfl⟩ := tape_ok exact_readNumber hn
          rw [PM.bind_of_ok (a := ()) (s' := adv s1 [x] bs.length) (by simp [Type2.push, PM.modify, adv])] at h
          obtain ⟨xs, bs', l', h1, h2, h3⟩ := ih h
          rw [left_adv hl'] at h2
          refine ⟨x :: xs, bs ++ bs', l', .cons hx h1, by rw [hl', h2, List.append_assoc], ?_⟩
          rw [h3, adv_adv]
          simp
        · rw [PM.bind_of_err hn] at h; simp at h
        · rw [PM.bind_of_panic hn] at h; simp at h
    · rw [PM.bind_of_err hp] at h; simp at h
    · rw [PM.bind_of_panic hp] at h; simp at h

theorem takeOperator_ok {s t : Program} {c : UInt8} {l : List UInt8} {op : Operator} (hl : left s.routine = c :: l)
    (h : takeOperator c cfg s = (.ok op, t)) : ∃ rest, left s.routine = bytes op ++ rest ∧ t = adv s [] (bytes op).length := by
  unfold takeOperator at h
  by_cases h12 : c = 12
  · subst h12
    rw [if_pos rfl] at h
    rcases hn : PM.tape Rd.u16 cfg s with ⟨v | e | x, s2⟩
    · rw [PM.bind_of_ok hn] at h
      obtain ⟨bs, rest, hx, hl', rfl⟩ := tape_ok exact_u16 hn
      have hlen : bs.length = 2 := by rw [hx]; simp [be]
      obtain ⟨b0, b1, rfl⟩ : ∃ a b, bs = [a, b] := by
        match bs, hlen with
        | [a, b], _ => exact ⟨a, b, rfl⟩
      have hb0 : b0 = 12 := by rw [hl'] at hl; simpa using (List.cons.inj hl).1
      subst hb0
      have hv : v = UInt16.ofNat (beNat [12, b1]) := by
        have := congrArg beNat hx
        rw [beNat_be, Nat.mod_eq_of_lt v.toNat_lt] at this
        rw [this]
        simp
      simp only [PM.ofRes, Prod.mk.injEq] at h
      obtain ⟨h1, rfl⟩ := h
      rw [hv] at h1
      rw [codeOf_two (from_ok.mp h1)]
      exact ⟨rest, hl', rfl⟩
    · rw [PM.bind_of_err hn] at h; simp at h
    · rw [PM.bind_of_panic hn] at h; simp at h
  · rw [if_neg h12] at h
    rcases hn : PM.tape Rd.u8 cfg s with ⟨v | e | x, s2⟩
    · rw [PM.bind_of_ok hn] at h
      obtain ⟨bs, rest, rfl, hl', rfl⟩ := tape_ok exact_u8 hn
      have hb0 : v = c := by rw [hl'] at hl; simpa using (List.cons.inj hl).1
      subst hb0
      simp only [PM.ofRes, Prod.mk.injEq] at h
      obtain ⟨h1, rfl⟩ := h
      rw [codeOf_one h12 (from_ok.mp h1)]
      exact ⟨rest, hl', rfl⟩
    · rw [PM.bind_of_err hn] at h; simp at h
    · rw [PM.bind_of_panic hn] at h; simp at h

/-- Without anything in excess a step is the same. -/
theorem step_same {s : Program} (hs : Sound s) (hb : bits ≤ 64) (h : ∀ υ x, Pushes (view s) υ → ¬ Exceeds bits υ x) :
    step bits cfg s = Type2.step cfg s := by
  rcases hd : s.routine.done with _ | _
  · rw [step_room hd fun υ x bs rest hp hx hc => by
      by_contra hn
      exact h υ _ hp (.operand hx hc (Nat.not_lt.mp hn))]
    unfold Type2.step
    rw [PM.bind_of_ok (m := PM.get) (a := s) (s' := s) rfl, hd]
    simp only [Bool.false_eq_true, if_false]
    rcases hr : Type2.takeOperands (s.routine.code.length + 1) cfg s with ⟨c | e | x, s2⟩
    · rw [PM.bind_of_ok hr, PM.bind_of_ok hr]
      obtain ⟨xs, bs, l, h1, h2, rfl⟩ := takeOperands_ok _ hr
      rcases ho : takeOperator c cfg (adv s xs bs.length) with ⟨op | e | x, s3⟩
      · rw [PM.bind_of_ok ho, PM.bind_of_ok ho]
        obtain ⟨rest, h3, rfl⟩ := takeOperator_ok (left_adv h2 xs) ho
        have h4 : left s.routine = bs ++ bytes op ++ rest := by
          rw [left_adv h2] at h3
          rw [h2, h3, List.append_assoc]
        rw [adv_adv, List.append_nil, ← List.length_append]
        refine dispatch_same hb fun x hx => h _ x ?_ hx
        rw [(fetched hs h1 h4).2]
        exact pushes_iff.mpr ⟨xs, bs, h1, by simp [view, h4], rfl⟩
      · rw [PM.bind_of_err ho, PM.bind_of_err ho]
      · rw [PM.bind_of_panic ho, PM.bind_of_panic ho]
    · rw [PM.bind_of_err hr, PM.bind_of_err hr]
    · rw [PM.bind_of_panic hr, PM.bind_of_panic hr]
  · unfold step Type2.step
    rw [PM.bind_of_ok (a := s) (s' := s) rfl, hd]
    rw [PM.bind_of_ok (m := PM.get) (a := s) (s' := s) rfl, hd]
    rfl

/-- A step with something in excess panics, if stem hints with overflow checks. -/
theorem step_full {s : Program} (hs : Sound s) {υ : State} {x : Panic} (hc : x = .overflow → cfg.checks = true)
    (hp : Pushes (view s) υ) (hx : Exceeds bits υ x) : ∃ y s', step bits cfg s = (.panic y, s') := by
  have hne : left s.routine ≠ [] := by
    obtain ⟨xs, bs, h1, h2, -⟩ := pushes_iff.mp hp
    have h2 : left s.routine = bs ++ υ.code := h2
    have : υ.code ≠ [] := by
      cases hx with
      | operand h1 h2 => rw [h2]; simp [operand_ne_nil h1]
      | dup h1 => rw [h1]; simp [bytes_ne_nil]
      | stems _ h1 => rw [h1]; simp [bytes_ne_nil]
      | mask _ h1 => rw [h1]; simp [bytes_ne_nil]
    rw [h2]
    simp [this]
  have hd := not_done hne
  by_cases hr : Room bits (view s)
  · rw [step_room hd hr]
    have key : ∃ op rest, υ.code = bytes op ++ rest := by
      cases hx with
      | operand h1 h2 h3 => exact absurd (hr _ _ _ _ hp h1 h2) (by omega)
      | dup h1 => exact ⟨_, _, h1⟩
      | stems _ h1 => exact ⟨_, _, h1⟩
      | mask _ h1 => exact ⟨_, _, h1⟩
    obtain ⟨op, rest, hcode⟩ := key
    obtain ⟨xs, bs, h1, h2, h3⟩ := pushes_iff.mp hp
    have hl : left s.routine = bs ++ bytes op ++ rest := by
      have h2 : left s.routine = bs ++ υ.code := h2
      rw [h2, hcode, List.append_assoc]
    obtain ⟨c, l, hb1, hb2, hb3⟩ := takeOperator_of (cfg := cfg) (s := adv s xs bs.length)
      (left_adv (by rw [hl, List.append_assoc]) xs)
    have hlen := seq_operand_length h1
    have hlen' := congrArg List.length hl
    rw [left_length] at hlen'
    simp only [List.length_append] at hlen'
    rw [PM.bind_of_ok (takeOperands_of h1 hb2 (l := l ++ rest) (by rw [hl, hb1]; simp) (by omega)), PM.bind_of_ok hb3]
    rw [adv_adv, List.append_nil, ← List.length_append]
    have hbe : before op (adv s xs (bs ++ bytes op).length) = υ := by
      rw [(fetched hs h1 hl).2, h3, hcode]
      rfl
    obtain ⟨s', h'⟩ := dispatch_full (t := adv s xs (bs ++ bytes op).length) (op := op) hc (by rw [hbe]; exact hx)
      (by rw [hbe]; exact fun υ' y cs r hp' => hr υ' y cs r (hp.trans hp'))
    exact ⟨_, s', h'⟩
  · unfold Room at hr
    push Not at hr
    obtain ⟨υ', y, cs, r, hp', hy, hcy, hful⟩ := hr
    obtain ⟨xs, bs, h1, h2, h3⟩ := pushes_iff.mp hp'
    unfold step
    rw [PM.bind_of_ok (a := s) (s' := s) rfl, hd]
    simp only [Bool.false_eq_true, if_false]
    have h2 : left s.routine = bs ++ υ'.code := h2
    have hst : υ'.stack.length = s.stack.length + xs.length := by rw [h3]; simp [view]
    have hlen := seq_operand_length h1
    have hlen' := congrArg List.length h2
    rw [left_length] at hlen'
    simp only [List.length_append] at hlen'
    obtain ⟨s', hs'⟩ := takeOperands_full (bits := bits) (cfg := cfg) h1 hy (by rw [h2, hcy]) (fuel := s.routine.code.length + 1)
      (by omega) (by omega)
    exact ⟨_, s', PM.bind_of_panic hs'⟩

/-! ## `next` -/

theorem nextFuel_mono {fuel : Nat} {s : Program} {q : Res (Option Operation) × Program}
    (h : nextFuel bits fuel cfg s = some q) (k : Nat) : nextFuel bits (fuel + k) cfg s = some q := by
  induction fuel generalizing s with
  | zero => simp [nextFuel] at h
  | succ fuel ih =>
    rw [show fuel + 1 + k = (fuel + k) + 1 by omega, nextFuel]
    rw [nextFuel] at h
    split at h <;> simp_all

theorem next_unique {s : Program} {r r' : Res (Option Operation)} {t t' : Program} (h : Next bits cfg s r t)
    (h' : Next bits cfg s r' t') : r = r' ∧ t = t' := by
  obtain ⟨f, h⟩ := h
  obtain ⟨f', h'⟩ := h'
  have h1 := nextFuel_mono h f'
  have h2 := nextFuel_mono h' f
  rw [Nat.add_comm, h1] at h2
  simpa using h2

/-- Nothing that a call of `next` comes to is in excess. -/
def Fits (bits : Nat) (c : Bool) (σ : State) : Prop := ∀ τ υ x, Turns c σ τ → Pushes τ υ → ¬ Exceeds bits υ x

theorem nextFuel_same (hb : bits ≤ 64) : ∀ (fuel : Nat) {s : Program}, Sound s → Fits bits cfg.checks (view s) →
    nextFuel bits fuel cfg s = Type2.nextFuel fuel cfg s := by
  intro fuel
  induction fuel with
  | zero => intro s _ _; rfl
  | succ fuel ih =>
    intro s hs h
    rw [nextFuel, Type2.nextFuel, step_same hs hb (fun υ x => h _ υ x .refl)]
    rcases hst : Type2.step cfg s with ⟨(o | _) | e | x, s1⟩
    · rfl
    · obtain ⟨ht, hs1⟩ := step_again_turn hs hst
      exact ih hs1 fun τ υ x hτ => h τ υ x (.head ht hτ)
    · rfl
    · rfl

theorem next_same (hb : bits ≤ 64) {s : Program} (hs : Sound s) (h : Fits bits cfg.checks (view s)) (r : Res (Option Operation))
    (t : Program) : Next bits cfg s r t ↔ Type2.Next cfg s r t := by
  unfold Next Type2.Next
  simp only [nextFuel_same hb _ hs h]

theorem next_full (hb : bits ≤ 64) {σ τ υ : State} {x : Panic} (hτ : Turns cfg.checks σ τ)
    (hp : Pushes τ υ) (hx : Exceeds bits υ x) : (cfg.checks = false → ∀ τ υ, Turns cfg.checks σ τ → Pushes τ υ → ¬ Exceeds bits υ .overflow) →
    ∀ {s : Program}, Sound s → view s = σ → ∃ y t, Next bits cfg s (.panic y) t := by
  have checked : ∀ {σ τ υ : State} {x : Panic}, Turns cfg.checks σ τ → Pushes τ υ → Exceeds bits υ x →
      (cfg.checks = false → ∀ τ υ, Turns cfg.checks σ τ → Pushes τ υ → ¬ Exceeds bits υ .overflow) →
      x = .overflow → cfg.checks = true := by
    rintro σ τ υ x h1 h2 h3 h4 rfl
    by_contra hn
    exact h4 (by simpa using hn) τ υ h1 h2 h3
  induction hτ using Relation.ReflTransGen.head_induction_on with
  | refl =>
    rintro hc s hs rfl
    obtain ⟨y, s', h⟩ := step_full hs (checked .refl hp hx hc) hp hx
    exact ⟨y, s', 1, by rw [nextFuel, h]⟩
  | head h1 _ ih =>
    rintro hc s hs rfl
    by_cases he : ∃ υ' x', Pushes (view s) υ' ∧ Exceeds bits υ' x'
    · obtain ⟨υ', x', hp', hx'⟩ := he
      obtain ⟨y, s', h⟩ := step_full hs (checked .refl hp' hx' hc) hp' hx'
      exact ⟨y, s', 1, by rw [nextFuel, h]⟩
    · push Not at he
      obtain ⟨s1, h2, h3, h4⟩ := step_of_turn cfg hs h1
      obtain ⟨y, t, fuel, h5⟩ := ih (fun hf τ υ ht => hc hf τ υ (.head h1 ht)) h4 h3
      exact ⟨y, t, fuel + 1, by rw [nextFuel, step_same hs hb he, h2]; exact h5⟩

end Words
end PS.Type2
