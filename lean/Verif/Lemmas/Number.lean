import Verif.Model.Number
import Verif.Spec.Number
import Verif.Lemmas.Reader
import Mathlib.Tactic.NormNum
/-!
# Lemmas about numbers and offsets
-/
namespace PS
open Spec

/-! ## Integers -/

theorem wrapI32_of_mem {c : Bool} {z : Int} (h : -2147483648 ≤ z ∧ z ≤ 2147483647) :
    wrapI32 c z = .ok z := by
  unfold wrapI32
  rw [if_pos (by omega)]

theorem i32_of_mem {z : Int} (h : -2147483648 ≤ z ∧ z ≤ 2147483647) : Rd.i32 z = pure z := by
  funext env p
  show Rd.bind Rd.cfg (fun c => Rd.ofRes (wrapI32 c.checks z)) env p = _
  simp only [Rd.bind, Rd.cfg, Rd.ofRes, wrapI32_of_mem h]
  rfl

theorem rd_pure_bind (a : α) (f : α → Rd β) : (pure a >>= f) = f a := rfl

theorem rd_bind_assoc (m : Rd α) (f : α → Rd β) (g : β → Rd γ) :
    (m >>= f) >>= g = m >>= fun a => f a >>= g := by
  funext env p
  show Rd.bind (Rd.bind m f) g env p = Rd.bind m (fun a => Rd.bind (f a) g) env p
  unfold Rd.bind
  rcases m env p with ⟨r, q⟩
  cases r <;> rfl

theorem positiveTwoByte_eq (first : UInt8) :
    Rd.positiveTwoByte first = (do
      let b ← Rd.u8
      pure (((first.toNat : Int) - 247) * 256 + b.toNat + 108)) := by
  have h0 := first.toNat_lt
  unfold Rd.positiveTwoByte
  rw [i32_of_mem (by omega), rd_pure_bind, i32_of_mem (by omega), rd_pure_bind]
  congr 1
  funext b
  have h1 := b.toNat_lt
  rw [i32_of_mem (by omega), rd_pure_bind, i32_of_mem (by omega)]

theorem negativeTwoByte_eq (first : UInt8) :
    Rd.negativeTwoByte first = (do
      let b ← Rd.u8
      pure (-((first.toNat : Int) - 251) * 256 - b.toNat - 108)) := by
  have h0 := first.toNat_lt
  unfold Rd.negativeTwoByte
  rw [i32_of_mem (by omega), rd_pure_bind, i32_of_mem (by omega), rd_pure_bind,
    i32_of_mem (by omega), rd_pure_bind]
  congr 1
  funext b
  have h1 := b.toNat_lt
  rw [i32_of_mem (by omega), rd_pure_bind, i32_of_mem (by omega)]

theorem beSigned_toS (k : Nat) (hk : 0 < k) (n : Nat) (hn : n < 256 ^ k) :
    beSigned k (toS (8 * k) n) = be k n := by
  have hp : (256 : Nat) ^ k = 2 ^ (8 * k) := by rw [Nat.pow_mul]
  have h := toU_toS (8 * k) n (by omega) (by rw [← hp]; exact hn)
  unfold toU at h
  unfold beSigned
  have e : ((256 : Int) ^ k) = 2 ^ (8 * k) := by
    rw [Int.pow_mul]; rfl
  rw [e, h]

theorem beSigned_length (k : Nat) (i : Int) : (beSigned k i).length = k := be_length _ _

/-! ## Texts of decimal literals -/

theorem nibble_high (b : UInt8) : (b >>> 4).toNat = b.toNat / 16 := by
  rw [UInt8.toNat_shiftRight]
  show b.toNat >>> 4 = _
  rw [Nat.shiftRight_eq_div_pow]

theorem nibble_low (b : UInt8) : (b &&& 0x0f).toNat = b.toNat % 16 := by
  rw [UInt8.toNat_and]
  show b.toNat &&& (2 ^ 4 - 1) = _
  rw [Nat.and_two_pow_sub_one_eq_mod]

/-- The text a nibble adds. -/
theorem nibbleText_digit {n : Nat} (h : n ≤ 9) : nibbleText n = some [Char.ofNat (48 + n)] := by
  have : n = 0 ∨ n = 1 ∨ n = 2 ∨ n = 3 ∨ n = 4 ∨ n = 5 ∨ n = 6 ∨ n = 7 ∨ n = 8 ∨ n = 9 := by omega
  rcases this with rfl | rfl | rfl | rfl | rfl | rfl | rfl | rfl | rfl | rfl <;> rfl

/-- A reformulation of an iteration of `parseLoop` through `nibbleText`. -/
theorem parseLoop_succ (fuel : Nat) (byte : UInt8) (high : Bool) (buffer : List Char) :
    Number.parseLoop (fuel + 1) byte high buffer = (do
      let byte ← (if high then Rd.u8 else pure byte : Rd UInt8)
      let n := if high then byte.toNat / 16 else byte.toNat % 16
      match nibbleText n with
      | some t => Number.parseLoop fuel byte (!high) (buffer ++ t)
      | none => if n = 15 then pure buffer else Rd.raise .malformedNumber) := by
  rw [Number.parseLoop]
  congr 1
  funext byte
  have h : (if high = true then byte >>> 4 else byte &&& 15).toNat =
      (if high = true then byte.toNat / 16 else byte.toNat % 16) := by
    cases high
    · simpa using nibble_low byte
    · simpa using nibble_high byte
  simp only [h]
  generalize hn : (if high = true then byte.toNat / 16 else byte.toNat % 16) = n
  have hlt : n < 16 := by
    have := byte.toNat_lt
    rw [← hn]
    split <;> omega
  by_cases h9 : n ≤ 9
  · rw [if_pos h9, nibbleText_digit h9]
  · have : n = 10 ∨ n = 11 ∨ n = 12 ∨ n = 13 ∨ n = 14 ∨ n = 15 := by omega
    rcases this with rfl | rfl | rfl | rfl | rfl | rfl <;> simp [nibbleText]

theorem parseLoop_eof_step {fuel byte buffer} {env : Env} {p : Nat} (hd : env.data.drop p = []) :
    ∃ q, Number.parseLoop (fuel + 1) byte true buffer env p = (.err .eof, q) := by
  obtain ⟨q, hq⟩ := u8_eof env p hd
  rw [parseLoop_succ]
  exact ⟨q, Rd.bind_of_err hq⟩

theorem parseLoop_high {fuel byte buffer} {env : Env} {p : Nat} {b : UInt8} {l : List UInt8}
    (hd : env.data.drop p = b :: l) :
    Number.parseLoop (fuel + 1) byte true buffer env p =
      (match nibbleText (b.toNat / 16) with
      | some t => Number.parseLoop fuel b false (buffer ++ t) env (p + 1)
      | none => (if b.toNat / 16 = 15 then pure buffer else Rd.raise .malformedNumber : Rd (List Char)) env (p + 1)) := by
  rw [parseLoop_succ]
  refine (Rd.bind_of_ok ((exact_u8 env p b (p + 1)).mpr ⟨[b], rfl, ⟨l, by simp [hd]⟩, rfl⟩)).trans ?_
  simp only [if_true, Bool.not_true]
  cases nibbleText (b.toNat / 16) <;> rfl

theorem parseLoop_low {fuel byte buffer} {env : Env} {p : Nat} :
    Number.parseLoop (fuel + 1) byte false buffer env p =
      (match nibbleText (byte.toNat % 16) with
      | some t => Number.parseLoop fuel byte true (buffer ++ t) env p
      | none => (if byte.toNat % 16 = 15 then pure buffer else Rd.raise .malformedNumber : Rd (List Char)) env p) := by
  rw [parseLoop_succ]
  simp only [Bool.false_eq_true, if_false, rd_pure_bind, Bool.not_false]
  cases nibbleText (byte.toNat % 16) <;> rfl

/-- The nibbles that are pending: of the bytes ahead and perhaps of the last one. -/
def pending (byte : UInt8) (high : Bool) (bs : List UInt8) : List Nat :=
  (if high then [] else [byte.toNat % 16]) ++ nibbles bs

theorem nibbles_cons (b : UInt8) (bs : List UInt8) :
    nibbles (b :: bs) = b.toNat / 16 :: b.toNat % 16 :: nibbles bs := by
  simp [nibbles]

theorem nibbles_length (bs : List UInt8) : (nibbles bs).length = 2 * bs.length := by
  induction bs with
  | nil => rfl
  | cons b bs ih => rw [nibbles_cons]; simp [ih]; omega

theorem spell_cons {n : Nat} {ns : List Nat} {t : List Char} :
    spell (n :: ns) = some t ↔ ∃ u v, nibbleText n = some u ∧ spell ns = some v ∧ t = u ++ v := by
  rw [spell]
  cases nibbleText n <;> cases spell ns <;> simp [eq_comm]

theorem parseLoop_ok {fuel : Nat} {byte : UInt8} {high : Bool} {buffer t : List Char} {env : Env}
    {p q : Nat} (h : Number.parseLoop fuel byte high buffer env p = (.ok t, q)) :
    ∃ bs ns pad u, bs <+: env.data.drop p ∧ q = p + bs.length ∧
      pending byte high bs = ns ++ 15 :: pad ∧ pad.length ≤ 1 ∧ spell ns = some u ∧ t = buffer ++ u := by
  induction fuel generalizing byte high buffer p with
  | zero => simp [Number.parseLoop, Rd.panic] at h
  | succ fuel ih =>
    cases high with
    | true =>
      obtain ⟨b, l, hd⟩ : ∃ b l, env.data.drop p = b :: l := by
        rcases hd : env.data.drop p with _ | ⟨b, l⟩
        · obtain ⟨q', hq⟩ := parseLoop_eof_step (fuel := fuel) (byte := byte) (buffer := buffer) hd
          rw [hq] at h
          simp at h
        · exact ⟨b, l, rfl⟩
      have hpre : [b] <+: env.data.drop p := ⟨l, by simp [hd]⟩
      have h2 := h
      rw [parseLoop_high hd] at h2
      split at h2
      · rename_i v hv
        obtain ⟨bs, ns, pad, u, ha, rfl, hb, hc, hd, rfl⟩ := ih h2
        refine ⟨b :: bs, b.toNat / 16 :: ns, pad, v ++ u, ?_, ?_, ?_, hc, ?_, ?_⟩
        · have := (prefix_append_iff (b1 := [b]) (b2 := bs) (l := env.data.drop p)).mpr
            ⟨hpre, by rw [List.drop_drop]; exact ha⟩
          simpa using this
        · simp; omega
        · simp only [pending, if_true, nibbles_cons, List.nil_append, List.cons_append]
          simpa [pending] using hb
        · exact spell_cons.mpr ⟨_, _, hv, hd, rfl⟩
        · simp
      · split at h2
        · rename_i h15
          simp only [Rd.pure_eq, Prod.mk.injEq, Res.ok.injEq] at h2
          obtain ⟨rfl, rfl⟩ := h2
          refine ⟨[b], [], [b.toNat % 16], [], hpre, rfl, ?_, by simp, rfl, by simp⟩
          simp [pending, nibbles, h15]
        · simp [Rd.raise] at h2
    | false =>
      rw [parseLoop_low] at h
      split at h
      · rename_i v hv
        obtain ⟨bs, ns, pad, u, ha, rfl, hb, hc, hd, rfl⟩ := ih h
        refine ⟨bs, byte.toNat % 16 :: ns, pad, v ++ u, ha, rfl, ?_, hc, ?_, ?_⟩
        · simp only [pending, if_true, List.nil_append] at hb
          simp [pending, hb]
        · exact spell_cons.mpr ⟨_, _, hv, hd, rfl⟩
        · simp
      · split at h
        · rename_i h15
          simp only [Rd.pure_eq, Prod.mk.injEq, Res.ok.injEq] at h
          obtain ⟨rfl, rfl⟩ := h
          refine ⟨[], [], [], [], by simp, rfl, ?_, by simp, rfl, by simp⟩
          simp [pending, nibbles, h15]
        · simp [Rd.raise] at h

theorem parseLoop_complete {fuel : Nat} {byte : UInt8} {high : Bool} {buffer u : List Char} {env : Env}
    {p : Nat} {bs : List UInt8} {ns pad : List Nat} (hpre : bs <+: env.data.drop p)
    (hn : pending byte high bs = ns ++ 15 :: pad) (hpad : pad.length ≤ 1) (hs : spell ns = some u)
    (hf : ns.length < fuel) :
    Number.parseLoop fuel byte high buffer env p = (.ok (buffer ++ u), p + bs.length) := by
  induction fuel generalizing byte high buffer p u ns bs with
  | zero => omega
  | succ fuel ih =>
    cases high with
    | true =>
      match bs, hpre, hn with
      | [], _, hn => simp [pending, nibbles] at hn
      | b :: bs, hpre, hn =>
        have hp := (prefix_append_iff (b1 := [b]) (b2 := bs) (l := env.data.drop p)).mp (by simpa using hpre)
        rw [List.drop_drop, List.length_singleton] at hp
        obtain ⟨l, hl⟩ := hpre
        rw [parseLoop_high (l := bs ++ l) (by simpa using hl.symm)]
        simp only [pending, if_true, List.nil_append, nibbles_cons] at hn
        match ns, hn, hs, hf with
        | [], hn, hs, hf =>
          simp only [List.nil_append, List.cons.injEq] at hn
          rw [hn.1]
          have hb : bs = [] := by
            have hl := congrArg List.length hn.2
            rw [List.length_cons, nibbles_length] at hl
            exact List.length_eq_zero_iff.mp (by omega)
          subst hb
          simp [spell] at hs
          subst hs
          simp [nibbleText, Rd.pure_eq]
        | n :: ns, hn, hs, hf =>
          obtain ⟨v, w, hv, hw, rfl⟩ := spell_cons.mp hs
          simp only [List.cons_append, List.cons.injEq] at hn
          obtain ⟨h1, h2⟩ := hn
          rw [h1, hv]
          simp only []
          rw [ih (u := w) (ns := ns) (bs := bs) hp.2 _ hw (by simp at hf; omega)]
          · simp; omega
          · simpa [pending] using h2
    | false =>
      rw [parseLoop_low]
      simp only [pending, Bool.false_eq_true, if_false, List.cons_append, List.nil_append] at hn
      match ns, hn, hs, hf with
      | [], hn, hs, hf =>
        simp only [List.nil_append, List.cons.injEq] at hn
        rw [hn.1]
        have hb : bs = [] := by
          have hl := congrArg List.length hn.2
          rw [nibbles_length] at hl
          exact List.length_eq_zero_iff.mp (by omega)
        subst hb
        simp [spell] at hs
        subst hs
        simp [nibbleText, Rd.pure_eq]
      | n :: ns, hn, hs, hf =>
        obtain ⟨v, w, hv, hw, rfl⟩ := spell_cons.mp hs
        simp only [List.cons_append, List.cons.injEq] at hn
        obtain ⟨h1, h2⟩ := hn
        rw [h1, hv]
        simp only []
        rw [ih (u := w) (ns := ns) (bs := bs) hpre _ hw (by simp at hf; omega)]
        · simp
        · simpa [pending] using h2

theorem parseLoop_reserved {fuel : Nat} {byte : UInt8} {high : Bool} {buffer u : List Char} {env : Env}
    {p n : Nat} {bs : List UInt8} {ns pad : List Nat} (hpre : bs <+: env.data.drop p)
    (hn : pending byte high bs = ns ++ n :: pad) (hs : spell ns = some u)
    (hx : nibbleText n = none) (h15 : n ≠ 15) (hf : ns.length < fuel) :
    (Number.parseLoop fuel byte high buffer env p).1 = .err (.raised .malformedNumber) := by
  induction fuel generalizing byte high buffer p u ns bs with
  | zero => omega
  | succ fuel ih =>
    cases high with
    | true =>
      match bs, hpre, hn with
      | [], _, hn => simp [pending, nibbles] at hn
      | b :: bs, hpre, hn =>
        have hp := (prefix_append_iff (b1 := [b]) (b2 := bs) (l := env.data.drop p)).mp (by simpa using hpre)
        rw [List.drop_drop, List.length_singleton] at hp
        obtain ⟨l, hl⟩ := hpre
        rw [parseLoop_high (l := bs ++ l) (by simpa using hl.symm)]
        simp only [pending, if_true, List.nil_append, nibbles_cons] at hn
        match ns, hn, hs, hf with
        | [], hn, hs, hf =>
          simp only [List.nil_append, List.cons.injEq] at hn
          rw [hn.1, hx]
          simp [h15, Rd.raise]
        | m :: ns, hn, hs, hf =>
          obtain ⟨v, w, hv, hw, rfl⟩ := spell_cons.mp hs
          simp only [List.cons_append, List.cons.injEq] at hn
          obtain ⟨h1, h2⟩ := hn
          rw [h1, hv]
          simp only []
          rw [ih (u := w) (ns := ns) (bs := bs) hp.2 _ hw (by simp at hf; omega)]
          simpa [pending] using h2
    | false =>
      rw [parseLoop_low]
      simp only [pending, Bool.false_eq_true, if_false, List.cons_append, List.nil_append] at hn
      match ns, hn, hs, hf with
      | [], hn, hs, hf =>
        simp only [List.nil_append, List.cons.injEq] at hn
        rw [hn.1, hx]
        simp [h15, Rd.raise]
      | m :: ns, hn, hs, hf =>
        obtain ⟨v, w, hv, hw, rfl⟩ := spell_cons.mp hs
        simp only [List.cons_append, List.cons.injEq] at hn
        obtain ⟨h1, h2⟩ := hn
        rw [h1, hv]
        simp only []
        rw [ih (u := w) (ns := ns) (bs := bs) hpre _ hw (by simp at hf; omega)]
        simpa [pending] using h2

/-- The loop fails only at the end of the tape or at a reserved nibble, and its
fuel suffices. -/
theorem parseLoop_total {fuel : Nat} {byte : UInt8} {high : Bool} {buffer : List Char} {env : Env}
    {p : Nat} (hf : 2 * (env.data.length - p) + (if high then 0 else 1) < fuel) :
    (∃ t q, Number.parseLoop fuel byte high buffer env p = (.ok t, q)) ∨
    (∃ q, Number.parseLoop fuel byte high buffer env p = (.err .eof, q)) ∨
    (∃ q, Number.parseLoop fuel byte high buffer env p = (.err (.raised .malformedNumber), q)) := by
  induction fuel generalizing byte high buffer p with
  | zero => omega
  | succ fuel ih =>
    cases high with
    | true =>
      rcases hd : env.data.drop p with _ | ⟨b, l⟩
      · right; left
        exact parseLoop_eof_step hd
      · have hl : env.data.length - p = l.length + 1 := by
          have := congrArg List.length hd
          simpa using this
        rw [parseLoop_high hd]
        split
        · apply ih
          simp only [if_true] at hf
          simp
          omega
        · split
          · exact .inl ⟨_, _, rfl⟩
          · exact .inr (.inr ⟨_, rfl⟩)
    | false =>
      rw [parseLoop_low]
      simp only [Bool.false_eq_true, if_false] at hf
      split
      · apply ih
        simp
        omega
      · split
        · exact .inl ⟨_, _, rfl⟩
        · exact .inr (.inr ⟨_, rfl⟩)

/-- Nothing but meaningful nibbles up to the end of the tape: the end of file is reported. -/
theorem parseLoop_eof {fuel : Nat} {byte : UInt8} {high : Bool} {buffer u : List Char} {env : Env}
    {p : Nat} (hs : spell (pending byte high (env.data.drop p)) = some u)
    (hf : (pending byte high (env.data.drop p)).length < fuel) :
    ∃ q, Number.parseLoop fuel byte high buffer env p = (.err .eof, q) := by
  induction fuel generalizing byte high buffer p u with
  | zero => omega
  | succ fuel ih =>
    cases high with
    | true =>
      rcases hd : env.data.drop p with _ | ⟨b, l⟩
      · exact parseLoop_eof_step hd
      · have hl : env.data.drop (p + 1) = l := by
          rw [← List.drop_drop, hd]; rfl
        rw [hd] at hs hf
        simp only [pending, if_true, List.nil_append, nibbles_cons] at hs hf
        obtain ⟨v, w, hv, hw, rfl⟩ := spell_cons.mp hs
        rw [parseLoop_high hd, hv]
        simp only []
        refine ih (u := w) ?_ ?_
        · rw [hl]; simpa [pending] using hw
        · rw [hl]; simp [pending] at hf ⊢; omega
    | false =>
      rw [parseLoop_low]
      simp only [pending, Bool.false_eq_true, if_false, List.cons_append, List.nil_append] at hs hf
      obtain ⟨v, w, hv, hw, rfl⟩ := spell_cons.mp hs
      rw [hv]
      refine ih (u := w) ?_ ?_
      · simpa [pending] using hw
      · simp [pending] at hf ⊢; omega

/-- What `parse` reads: the packed text and its value. -/
theorem exact_parse : Exact Number.parse (fun x bs => ∃ t, Packed t bs ∧ parseF32 t = some x) := by
  intro env p x q
  unfold Number.parse
  rw [Rd.bind_of_ok (a := env.data.length) (p' := p) rfl]
  constructor
  · intro h
    obtain ⟨t, p', h1, h2⟩ := Rd.bind_ok.mp h
    obtain ⟨bs, ns, pad, u, ha, rfl, hb, hc, hd, ht⟩ := parseLoop_ok h1
    simp only [List.nil_append] at ht
    subst ht
    rcases hv : parseF32 t with _ | v
    · rw [hv] at h2
      simp [Rd.raise] at h2
    · rw [hv] at h2
      simp only [Rd.pure_eq, Prod.mk.injEq, Res.ok.injEq] at h2
      obtain ⟨rfl, rfl⟩ := h2
      exact ⟨bs, ⟨_, ⟨ns, pad, by simpa [pending] using hb, hc, hd⟩, hv⟩, ha, rfl⟩
  · rintro ⟨bs, ⟨t, ⟨ns, pad, hb, hc, hd⟩, hv⟩, ha, rfl⟩
    have hf : ns.length < 2 * env.data.length + 2 := by
      have h1 := congrArg List.length hb
      rw [nibbles_length] at h1
      have h2 := ha.length_le
      simp at h1 h2
      omega
    rw [Rd.bind_of_ok (parseLoop_complete (byte := 0) (high := true) (buffer := []) ha (by simpa [pending] using hb) hc hd hf)]
    simp [hv, Rd.pure_eq]

theorem parse_total (env : Env) (p : Nat) :
    (∃ x q, Number.parse env p = (.ok x, q)) ∨ (∃ q, Number.parse env p = (.err .eof, q)) ∨
    (∃ q, Number.parse env p = (.err (.raised .malformedNumber), q)) := by
  unfold Number.parse
  rw [Rd.bind_of_ok (a := env.data.length) (p' := p) rfl]
  rcases parseLoop_total (fuel := 2 * env.data.length + 2) (byte := 0) (high := true) (buffer := [])
    (env := env) (p := p) (by simp; omega) with ⟨t, q, h⟩ | ⟨q, h⟩ | ⟨q, h⟩
  · rw [Rd.bind_of_ok h]
    cases hv : parseF32 t
    · exact .inr (.inr ⟨_, rfl⟩)
    · exact .inl ⟨_, _, rfl⟩
  · exact .inr (.inl ⟨q, Rd.bind_of_err h⟩)
  · exact .inr (.inr ⟨q, Rd.bind_of_err h⟩)

theorem parse_eof {env : Env} {p : Nat} {u : List Char}
    (hs : spell (nibbles (env.data.drop p)) = some u) :
    ∃ q, Number.parse env p = (.err .eof, q) := by
  unfold Number.parse
  rw [Rd.bind_of_ok (a := env.data.length) (p' := p) rfl]
  obtain ⟨q, h⟩ := parseLoop_eof (fuel := 2 * env.data.length + 2) (byte := 0) (high := true) (buffer := [])
    (env := env) (p := p) (u := u) (by simpa [pending] using hs) (by simp [pending, nibbles_length]; omega)
  exact ⟨q, Rd.bind_of_err h⟩

/-- A packed text that is not a number is rejected. -/
theorem parse_malformed {env : Env} {p : Nat} {t : List Char} {bs : List UInt8} (ha : bs <+: env.data.drop p)
    (hp : Packed t bs) (hv : parseF32 t = none) :
    Number.parse env p = (.err (.raised .malformedNumber), p + bs.length) := by
  unfold Number.parse
  rw [Rd.bind_of_ok (a := env.data.length) (p' := p) rfl]
  obtain ⟨ns, pad, hb, hc, hd⟩ := hp
  have hf : ns.length < 2 * env.data.length + 2 := by
    have h1 := congrArg List.length hb
    rw [nibbles_length] at h1
    have h2 := ha.length_le
    simp at h1 h2
    omega
  rw [Rd.bind_of_ok (parseLoop_complete (byte := 0) (high := true) (buffer := []) ha (by simpa [pending] using hb) hc hd hf)]
  simp [hv, Rd.raise]

/-- A reserved nibble is rejected. -/
theorem parse_reserved {env : Env} {p n : Nat} {u : List Char} {bs : List UInt8} {ns pad : List Nat}
    (ha : bs <+: env.data.drop p) (hb : nibbles bs = ns ++ n :: pad) (hs : spell ns = some u)
    (hx : nibbleText n = none) (h15 : n ≠ 15) :
    (Number.parse env p).1 = .err (.raised .malformedNumber) := by
  unfold Number.parse
  rw [Rd.bind_of_ok (a := env.data.length) (p' := p) rfl]
  have hf : ns.length < 2 * env.data.length + 2 := by
    have h1 := congrArg List.length hb
    rw [nibbles_length] at h1
    have h2 := ha.length_le
    simp at h1 h2
    omega
  have h := parseLoop_reserved (byte := 0) (high := true) (buffer := []) ha (by simpa [pending] using hb) hs hx h15 hf
  rw [Rd.bind_of_err (Prod.ext h rfl)]

/-- The lead byte of a real operand. -/
theorem number_real {env : Env} {p : Nat} {l : List UInt8} (h : env.data.drop p = 0x1e :: l) :
    Number.read env p = (Number.parse >>= fun x => (pure (Number.real x) : Rd Number)) env (p + 1) := by
  unfold Number.read
  have h8 : Rd.u8 env p = (.ok 0x1e, p + 1) :=
    (exact_u8 env p 0x1e (p + 1)).mpr ⟨[0x1e], rfl, ⟨l, by simp [h]⟩, rfl⟩
  rw [Rd.bind_of_ok h8]
  rw [if_neg (by decide), if_neg (by decide), if_neg (by decide), if_neg (by decide), if_neg (by decide),
    if_pos (by decide)]

/-! ## Numbers -/

/-- The encodings of a number as `Number.read` understands them. -/
def NumberEnc : Number → List UInt8 → Prop
  | .integer i, bs => DictInt i bs
  | .real x, bs => ∃ t bs', bs = 0x1e :: bs' ∧ Packed t bs' ∧ parseF32 t = some x

theorem exact_number : Exact Number.read NumberEnc := by
  have h : Exact Number.read (fun v bs => ∃ (b0 : UInt8) (b1 b2 : List UInt8), bs = b1 ++ b2 ∧ b1 = [b0] ∧
      ((32 ≤ b0.toNat ∧ b0.toNat ≤ 246 ∧ v = .integer (b0.toNat - 139) ∧ b2 = []) ∨
       (247 ≤ b0.toNat ∧ b0.toNat ≤ 250 ∧ ∃ c : UInt8, v = .integer (((b0.toNat : Int) - 247) * 256 + c.toNat + 108) ∧ b2 = [c]) ∨
       (251 ≤ b0.toNat ∧ b0.toNat ≤ 254 ∧ ∃ c : UInt8, v = .integer (-((b0.toNat : Int) - 251) * 256 - c.toNat - 108) ∧ b2 = [c]) ∨
       (b0 = 0x1c ∧ ∃ w : UInt16, v = .integer (toS 16 w.toNat) ∧ b2 = be 2 w.toNat) ∨
       (b0 = 0x1d ∧ ∃ w : UInt32, v = .integer (toS 32 w.toNat) ∧ b2 = be 4 w.toNat) ∨
       (b0 = 0x1e ∧ ∃ x t, v = .real x ∧ Packed t b2 ∧ parseF32 t = some x))) := by
    unfold Number.read
    refine Exact.bind (R := fun b bs => bs = [b]) (S := fun (b0 : UInt8) (v : Number) (b2 : List UInt8) =>
      ((32 ≤ b0.toNat ∧ b0.toNat ≤ 246 ∧ v = .integer (b0.toNat - 139) ∧ b2 = []) ∨
       (247 ≤ b0.toNat ∧ b0.toNat ≤ 250 ∧ ∃ c : UInt8, v = .integer (((b0.toNat : Int) - 247) * 256 + c.toNat + 108) ∧ b2 = [c]) ∨
       (251 ≤ b0.toNat ∧ b0.toNat ≤ 254 ∧ ∃ c : UInt8, v = .integer (-((b0.toNat : Int) - 251) * 256 - c.toNat - 108) ∧ b2 = [c]) ∨
       (b0 = 0x1c ∧ ∃ w : UInt16, v = .integer (toS 16 w.toNat) ∧ b2 = be 2 w.toNat) ∨
       (b0 = 0x1d ∧ ∃ w : UInt32, v = .integer (toS 32 w.toNat) ∧ b2 = be 4 w.toNat) ∨
       (b0 = 0x1e ∧ ∃ x t, v = .real x ∧ Packed t b2 ∧ parseF32 t = some x))) exact_u8 ?_
    intro b0
    have hb := b0.toNat_lt
    have e1c : b0 = 0x1c ↔ b0.toNat = 28 := by rw [← UInt8.toNat_inj]; rfl
    have e1d : b0 = 0x1d ↔ b0.toNat = 29 := by rw [← UInt8.toNat_inj]; rfl
    have e1e : b0 = 0x1e ↔ b0.toNat = 30 := by rw [← UInt8.toNat_inj]; rfl
    have c1 : (0x20 ≤ b0 ∧ b0 ≤ 0xf6) ↔ 32 ≤ b0.toNat ∧ b0.toNat ≤ 246 := by
      simp only [UInt8.le_iff_toNat_le]; exact Iff.rfl
    have c2 : (0xf7 ≤ b0 ∧ b0 ≤ 0xfa) ↔ 247 ≤ b0.toNat ∧ b0.toNat ≤ 250 := by
      simp only [UInt8.le_iff_toNat_le]; exact Iff.rfl
    have c3 : (0xfb ≤ b0 ∧ b0 ≤ 0xfe) ↔ 251 ≤ b0.toNat ∧ b0.toNat ≤ 254 := by
      simp only [UInt8.le_iff_toNat_le]; exact Iff.rfl
    simp only [c1, c2, c3]
    split
    · rename_i hc
      rw [i32_of_mem (by omega), rd_pure_bind]
      refine Exact.congr (Exact.pure _) ?_
      intro v bs
      constructor
      · rintro ⟨rfl, rfl⟩; exact .inl ⟨hc.1, hc.2, rfl, rfl⟩
      · rintro (⟨_, _, rfl, rfl⟩ | ⟨_, _, _⟩ | ⟨_, _, _⟩ | ⟨rfl, _⟩ | ⟨rfl, _⟩ | ⟨rfl, _⟩)
        · exact ⟨rfl, rfl⟩
        all_goals first | omega | (simp at hc)
    split
    · rename_i _ hc
      rw [positiveTwoByte_eq, rd_bind_assoc]
      refine Exact.congr (Exact.bind exact_u8 (fun c => Exact.pure _)) ?_
      intro v bs
      constructor
      · rintro ⟨c, b1, b2, rfl, rfl, rfl, rfl⟩
        exact .inr (.inl ⟨hc.1, hc.2, c, rfl, rfl⟩)
      · rintro (⟨_, _, _⟩ | ⟨_, _, c, rfl, rfl⟩ | ⟨_, _, _⟩ | ⟨rfl, _⟩ | ⟨rfl, _⟩ | ⟨rfl, _⟩)
        · omega
        · exact ⟨c, [c], [], rfl, rfl, rfl, rfl⟩
        all_goals first | omega | (simp at hc)
    split
    · rename_i _ _ hc
      rw [negativeTwoByte_eq, rd_bind_assoc]
      refine Exact.congr (Exact.bind exact_u8 (fun c => Exact.pure _)) ?_
      intro v bs
      constructor
      · rintro ⟨c, b1, b2, rfl, rfl, rfl, rfl⟩
        exact .inr (.inr (.inl ⟨hc.1, hc.2, c, rfl, rfl⟩))
      · rintro (⟨_, _, _⟩ | ⟨_, _, _⟩ | ⟨_, _, c, rfl, rfl⟩ | ⟨rfl, _⟩ | ⟨rfl, _⟩ | ⟨rfl, _⟩)
        · omega
        · omega
        · exact ⟨c, [c], [], rfl, rfl, rfl, rfl⟩
        all_goals first | omega | (simp at hc)
    split
    · rename_i hc
      refine Exact.congr (Exact.bind exact_u16 (fun c => Exact.pure _)) ?_
      intro v bs
      constructor
      · rintro ⟨w, b1, b2, rfl, rfl, rfl, rfl⟩
        exact .inr (.inr (.inr (.inl ⟨hc, w, rfl, by simp⟩)))
      · rintro (⟨_, _, _⟩ | ⟨_, _, _⟩ | ⟨_, _, _⟩ | ⟨_, w, rfl, rfl⟩ | ⟨h', _⟩ | ⟨h', _⟩)
        · omega
        · omega
        · omega
        · exact ⟨w, _, [], (List.append_nil _).symm, rfl, rfl, rfl⟩
        · rw [hc] at h'; exact absurd h' (by decide)
        · rw [hc] at h'; exact absurd h' (by decide)
    split
    · rename_i hc
      refine Exact.congr (Exact.bind exact_u32 (fun c => Exact.pure _)) ?_
      intro v bs
      constructor
      · rintro ⟨w, b1, b2, rfl, rfl, rfl, rfl⟩
        exact .inr (.inr (.inr (.inr (.inl ⟨hc, w, rfl, by simp⟩))))
      · rintro (⟨_, _, _⟩ | ⟨_, _, _⟩ | ⟨_, _, _⟩ | ⟨h', _⟩ | ⟨_, w, rfl, rfl⟩ | ⟨h', _⟩)
        · omega
        · omega
        · omega
        · rw [hc] at h'; exact absurd h' (by decide)
        · exact ⟨w, _, [], (List.append_nil _).symm, rfl, rfl, rfl⟩
        · rw [hc] at h'; exact absurd h' (by decide)
    split
    · rename_i hc
      refine Exact.congr (Exact.bind exact_parse (fun c => Exact.pure _)) ?_
      intro v bs
      constructor
      · rintro ⟨x, b1, b2, rfl, ⟨t, h1, h2⟩, rfl, rfl⟩
        exact .inr (.inr (.inr (.inr (.inr ⟨hc, x, t, rfl, by simpa using h1, h2⟩))))
      · rintro (⟨_, _, _⟩ | ⟨_, _, _⟩ | ⟨_, _, _⟩ | ⟨h', _⟩ | ⟨h', _⟩ | ⟨_, x, t, rfl, h1, h2⟩)
        · omega
        · omega
        · omega
        · rw [hc] at h'; exact absurd h' (by decide)
        · rw [hc] at h'; exact absurd h' (by decide)
        · exact ⟨x, _, [], (List.append_nil _).symm, ⟨t, h1, h2⟩, rfl, rfl⟩
    · refine Exact.congr (Exact.raise _) ?_
      intro v bs
      constructor
      · intro h; exact h.elim
      · rintro (⟨_, _, _⟩ | ⟨_, _, _⟩ | ⟨_, _, _⟩ | ⟨h', _⟩ | ⟨h', _⟩ | ⟨h', _⟩) <;> first | omega | contradiction
  refine h.congr ?_
  intro v bs
  constructor
  · rintro ⟨b0, _, b2, rfl, rfl, h⟩
    rcases h with ⟨h1, h2, rfl, rfl⟩ | ⟨h1, h2, c, rfl, rfl⟩ | ⟨h1, h2, c, rfl, rfl⟩ | ⟨rfl, w, rfl, rfl⟩ |
      ⟨rfl, w, rfl, rfl⟩ | ⟨rfl, x, t, rfl, h1, h2⟩
    · exact .short (.oneByte b0 h1 h2)
    · exact .short (.positive b0 c h1 h2)
    · have := ShortInt.negative b0 c h1 h2
      rw [show -(((b0.toNat : Int) - 251) * 256) = -((b0.toNat : Int) - 251) * 256 by omega] at this
      exact .short this
    · have hw := w.toNat_lt
      have hb := toS_bounds 16 w.toNat (by decide)
      have := ShortInt.word (toS 16 w.toNat) (by simpa using hb.1) (by have := hb.2; norm_num at this; omega)
      rw [beSigned_toS 2 (by decide) w.toNat (by simpa using hw)] at this
      exact .short this
    · have hw := w.toNat_lt
      have hb := toS_bounds 32 w.toNat (by decide)
      have := DictInt.long (toS 32 w.toNat) (by simpa using hb.1) (by have := hb.2; norm_num at this; omega)
      rw [beSigned_toS 4 (by decide) w.toNat (by simpa using hw)] at this
      exact this
    · exact ⟨t, b2, rfl, h1, h2⟩
  · intro h
    cases v with
    | integer i =>
      cases h with
      | short h =>
        cases h with
        | oneByte b0 h1 h2 => exact ⟨b0, [b0], [], rfl, rfl, .inl ⟨h1, h2, rfl, rfl⟩⟩
        | positive b0 b1 h1 h2 => exact ⟨b0, [b0], [b1], rfl, rfl, .inr (.inl ⟨h1, h2, b1, rfl, rfl⟩)⟩
        | negative b0 b1 h1 h2 =>
          refine ⟨b0, [b0], [b1], rfl, rfl, .inr (.inr (.inl ⟨h1, h2, b1, ?_, rfl⟩))⟩
          rw [show -(((b0.toNat : Int) - 251) * 256) = -((b0.toNat : Int) - 251) * 256 by omega]
        | word i h1 h2 =>
          have hu : toU 16 i < 2 ^ 16 := toU_lt 16 i
          refine ⟨28, [28], beSigned 2 i, rfl, rfl, .inr (.inr (.inr (.inl ⟨rfl, UInt16.ofNat (toU 16 i), ?_, ?_⟩)))⟩
          · rw [UInt16.toNat_ofNat', Nat.mod_eq_of_lt hu, toS_toU 16 i (by decide) (by norm_num; omega) (by norm_num; omega)]
          · rw [UInt16.toNat_ofNat', Nat.mod_eq_of_lt hu]; rfl
      | long h1 h2 =>
        have hu : toU 32 i < 2 ^ 32 := toU_lt 32 i
        refine ⟨29, [29], beSigned 4 i, rfl, rfl, .inr (.inr (.inr (.inr (.inl ⟨rfl, UInt32.ofNat (toU 32 i), ?_, ?_⟩))))⟩
        · rw [UInt32.toNat_ofNat', Nat.mod_eq_of_lt hu, toS_toU 32 i (by decide) (by norm_num; omega) (by norm_num; omega)]
        · rw [UInt32.toNat_ofNat', Nat.mod_eq_of_lt hu]; rfl
    | real x =>
      obtain ⟨t, bs', rfl, h1, h2⟩ := h
      exact ⟨0x1e, [0x1e], bs', rfl, rfl, .inr (.inr (.inr (.inr (.inr ⟨rfl, x, t, rfl, h1, h2⟩))))⟩

/-- The errors of reading a number. -/
def NumberErr (e : Err) : Prop := e = .eof ∨ e = .raised .malformedNumber

theorem errs_parse : Errs Number.parse NumberErr := by
  intro env p e q h
  rcases parse_total env p with ⟨x, q', h'⟩ | ⟨q', h'⟩ | ⟨q', h'⟩ <;> rw [h] at h' <;> simp at h'
  · exact .inl h'.1
  · exact .inr h'.1

theorem noPanic_parse : NoPanic Number.parse := by
  intro env p e q h
  rcases parse_total env p with ⟨x, q', h'⟩ | ⟨q', h'⟩ | ⟨q', h'⟩ <;> rw [h] at h' <;> simp at h'

theorem errs_i32 (z : Int) (E : Err → Prop) : Errs (Rd.i32 z) E := by
  refine Errs.bind (Errs.cfg E) (fun c => Errs.ofRes ?_)
  intro e h
  unfold wrapI32 at h
  split at h <;> (try split at h) <;> simp at h

theorem errs_number : Errs Number.read NumberErr := by
  have h1 : NumberErr .eof := .inl rfl
  have h2 : NumberErr (.raised .malformedNumber) := .inr rfl
  unfold Number.read Rd.positiveTwoByte Rd.negativeTwoByte
  errs [errs_parse, errs_i32]

theorem noPanic_i32 {z : Int} (h : -2147483648 ≤ z ∧ z ≤ 2147483647) : NoPanic (Rd.i32 z) := by
  rw [i32_of_mem h]; exact NoPanic.pure _

theorem noPanic_number : NoPanic Number.read := by
  unfold Number.read
  refine NoPanic.bind NoPanic.u8 (fun first => ?_)
  have h0 := first.toNat_lt
  rw [positiveTwoByte_eq, negativeTwoByte_eq, i32_of_mem (by omega)]
  nopanic [noPanic_parse]

/-! ## Offsets -/

/-- The encodings of offsets. -/
def OffsetEnc (size : UInt8) (v : UInt32) (bs : List UInt8) : Prop :=
  1 ≤ size.toNat ∧ size.toNat ≤ 4 ∧ v.toNat < 256 ^ size.toNat ∧ bs = be size.toNat v.toNat

theorem exact_offset (size : UInt8) : Exact (readOffset size) (OffsetEnc size) := by
  unfold readOffset
  split
  · subst size
    refine Exact.congr (Exact.bind exact_u8 (fun _ => Exact.pure _)) ?_
    intro v bs
    constructor
    · rintro ⟨b, _, _, rfl, rfl, rfl, rfl⟩
      have := b.toNat_lt
      refine ⟨by decide, by decide, ?_, ?_⟩
      · rw [UInt32.toNat_ofNat']
        show b.toNat % 2 ^ 32 < 256
        omega
      · rw [UInt32.toNat_ofNat', Nat.mod_eq_of_lt (by omega)]
        show [b] = [UInt8.ofNat b.toNat]
        simp
    · rintro ⟨_, _, h1, rfl⟩
      have h1 : v.toNat < 256 := h1
      refine ⟨UInt8.ofNat v.toNat, _, [], rfl, rfl, ?_, rfl⟩
      apply UInt32.toNat_inj.mp
      rw [UInt32.toNat_ofNat', UInt8.toNat_ofNat']
      omega
  split
  · subst size
    refine Exact.congr (Exact.bind exact_u16 (fun _ => Exact.pure _)) ?_
    intro v bs
    constructor
    · rintro ⟨b, _, _, rfl, rfl, rfl, rfl⟩
      have := b.toNat_lt
      refine ⟨by decide, by decide, ?_, ?_⟩
      · rw [UInt32.toNat_ofNat']
        show b.toNat % 2 ^ 32 < 65536
        omega
      · rw [UInt32.toNat_ofNat', Nat.mod_eq_of_lt (by omega), List.append_nil]
        rfl
    · rintro ⟨_, _, h1, rfl⟩
      have h1 : v.toNat < 65536 := h1
      refine ⟨UInt16.ofNat v.toNat, _, [], (List.append_nil _).symm, ?_, ?_, rfl⟩
      · rw [UInt16.toNat_ofNat', Nat.mod_eq_of_lt (by omega)]; rfl
      · apply UInt32.toNat_inj.mp
        rw [UInt32.toNat_ofNat', UInt16.toNat_ofNat']
        omega
  split
  · subst size
    refine Exact.congr (Exact.bind (exact_readExact 3) (fun _ => Exact.pure _)) ?_
    have hz : ∀ bs : List UInt8, beNat (0 :: bs) = beNat bs := fun bs => by simp [beNat]
    intro v bs
    constructor
    · rintro ⟨a, _, _, rfl, ⟨rfl, hl⟩, rfl, rfl⟩
      have h := beNat_lt a
      rw [hl] at h
      norm_num at h
      rw [hz]
      refine ⟨by decide, by decide, ?_, ?_⟩
      · rw [UInt32.toNat_ofNat']
        show beNat a % 2 ^ 32 < 16777216
        omega
      · rw [UInt32.toNat_ofNat', Nat.mod_eq_of_lt (by omega), List.append_nil]
        have := be_beNat a
        rw [hl] at this
        exact this.symm
    · rintro ⟨_, _, h1, rfl⟩
      have h1 : v.toNat < 16777216 := h1
      refine ⟨be 3 v.toNat, be 3 v.toNat, [], (List.append_nil _).symm, ⟨rfl, be_length _ _⟩, ?_, rfl⟩
      rw [hz, beNat_be, Nat.mod_eq_of_lt (by omega)]
      simp
  split
  · subst size
    refine Exact.congr exact_u32 ?_
    intro v bs
    have := v.toNat_lt
    constructor
    · rintro rfl; exact ⟨by decide, by decide, by simpa using this, rfl⟩
    · rintro ⟨_, _, _, rfl⟩; rfl
  · rename_i h1 h2 h3 h4
    refine Exact.congr (Exact.raise _) ?_
    intro v bs
    constructor
    · exact False.elim
    · rintro ⟨h5, h6, _⟩
      rw [← UInt8.toNat_inj] at h1 h2 h3 h4
      change size.toNat ≠ 1 at h1
      change size.toNat ≠ 2 at h2
      change size.toNat ≠ 3 at h3
      change size.toNat ≠ 4 at h4
      omega

/-- The errors of reading an offset. -/
def OffsetErr (e : Err) : Prop := e = .eof ∨ e = .raised .malformedOffset

theorem errs_offset (size : UInt8) : Errs (readOffset size) OffsetErr := by
  have h1 : OffsetErr .eof := .inl rfl
  have h2 : OffsetErr (.raised .malformedOffset) := .inr rfl
  unfold readOffset
  errs []

theorem noPanic_offset (size : UInt8) : NoPanic (readOffset size) := by
  unfold readOffset
  nopanic []

end PS
