import Verif.Lemmas.Number
/-!
# The grammar of decimal literals
-/
namespace PS
open Spec Decimal

theorem isDigit_digit (n : Fin 10) : (digit n).isDigit = true := by
  revert n; decide

theorem digit_val (n : Fin 10) : (digit n).toNat - 48 = n.val := by
  revert n; decide

theorem exists_digit {c : Char} (h : c.isDigit = true) : ∃ n, c = digit n := by
  simp only [Char.isDigit, Bool.and_eq_true, decide_eq_true_eq, ge_iff_le] at h
  have h1 : 48 ≤ c.toNat := h.1
  have h2 : c.toNat ≤ 57 := h.2
  refine ⟨⟨c.toNat - 48, by omega⟩, ?_⟩
  unfold digit
  simp only []
  rw [show 48 + (c.toNat - 48) = c.toNat by omega]
  exact (Char.ofNat_toNat c).symm

theorem exists_digits {s : List Char} (h : ∀ c ∈ s, c.isDigit = true) : ∃ ds : List (Fin 10), s = ds.map digit := by
  induction s with
  | nil => exact ⟨[], rfl⟩
  | cons c s ih =>
    simp only [List.mem_cons, forall_eq_or_imp] at h
    obtain ⟨n, rfl⟩ := exists_digit h.1
    obtain ⟨ds, rfl⟩ := ih h.2
    exact ⟨n :: ds, rfl⟩

theorem digitsVal_digits (ds : List (Fin 10)) : digitsVal (ds.map digit) = number ds := by
  have : ∀ acc, (ds.map digit).foldl (fun n c => n * 10 + (c.toNat - 48)) acc =
      acc * 10 ^ ds.length + number ds := by
    induction ds with
    | nil => intro acc; simp [number]
    | cons d ds ih =>
      intro acc
      rw [List.map_cons, List.foldl_cons, ih, digit_val, number, List.length_cons, Nat.pow_succ]
      rw [Nat.add_mul, Nat.mul_assoc, Nat.mul_comm 10, Nat.add_assoc]
  simpa [digitsVal] using this 0

/-- A text that does not begin with a digit. -/
def NoDigit (s : List Char) : Prop := ∀ c r, s = c :: r → c.isDigit = false

theorem takeDigits_append {ds : List (Fin 10)} {s : List Char} (h : NoDigit s) :
    takeDigits (ds.map digit ++ s) = (ds.map digit, s) := by
  unfold takeDigits
  induction ds with
  | nil =>
    cases s with
    | nil => rfl
    | cons c r =>
      have := h c r rfl
      simp [this]
  | cons d ds ih =>
    simp only [Prod.mk.injEq] at ih
    simp [isDigit_digit, ih.1, ih.2]

theorem takeDigits_spec (s : List Char) :
    ∃ ds : List (Fin 10), (takeDigits s).1 = ds.map digit ∧ s = ds.map digit ++ (takeDigits s).2 ∧
      NoDigit (takeDigits s).2 := by
  unfold takeDigits
  obtain ⟨ds, hds⟩ := exists_digits (s := s.takeWhile Char.isDigit) (by
    intro c hc
    induction s with
    | nil => simp at hc
    | cons a s ih =>
      rw [List.takeWhile_cons] at hc
      split at hc
      · rcases List.mem_cons.mp hc with rfl | hc
        · assumption
        · exact ih hc
      · simp at hc)
  refine ⟨ds, hds, ?_, ?_⟩
  · rw [← hds]; exact (List.takeWhile_append_dropWhile).symm
  · intro c r h
    simp only [] at h
    induction s generalizing ds with
    | nil => simp at h
    | cons a s ih =>
      rw [List.dropWhile_cons] at h
      split at h
      · rw [List.takeWhile_cons_of_pos (by assumption)] at hds
        cases ds with
        | nil => simp at hds
        | cons d ds => exact ih ds (by simpa using (List.cons.inj hds).2) h
      · rename_i hna
        have := (List.cons.inj h).1
        subst this
        simpa using hna

/-- A text that begins with no sign. -/
def NoSign (s : List Char) : Prop := ∀ c r, s = c :: r → c ≠ '-' ∧ c ≠ '+'

theorem takeSign_append {neg : Bool} {s : List Char} (h : NoSign s) :
    takeSign (sign neg ++ s) = (neg, s) := by
  cases neg with
  | true => rfl
  | false =>
    cases s with
    | nil => rfl
    | cons c r =>
      have := h c r rfl
      simp only [sign, Bool.false_eq_true, if_false, List.nil_append]
      unfold takeSign
      split <;> simp_all

theorem noSign_digits (ds : List (Fin 10)) {s : List Char} (h : NoSign s) : NoSign (ds.map digit ++ s) := by
  intro c r he
  have hd : ∀ n : Fin 10, digit n ≠ '-' ∧ digit n ≠ '+' := by decide
  cases ds with
  | nil => exact h c r he
  | cons n ns => obtain ⟨rfl, _⟩ := List.cons.inj he; exact hd n

theorem noDigit_exp (x : Option (Bool × List (Fin 10))) : NoDigit (expText x) := by
  intro c r h
  match x with
  | none => simp [expText] at h
  | some (neg, ds) => obtain ⟨rfl, _⟩ := List.cons.inj h; rfl

theorem noSign_exp (x : Option (Bool × List (Fin 10))) : NoSign (expText x) := by
  intro c r h
  match x with
  | none => simp [expText] at h
  | some (neg, ds) => obtain ⟨rfl, _⟩ := List.cons.inj h; decide

theorem noDigit_frac (f : Option (List (Fin 10))) {s : List Char} (h : NoDigit s) : NoDigit (fracText f ++ s) := by
  intro c r he
  match f with
  | none => exact h c r he
  | some ds => obtain ⟨rfl, _⟩ := List.cons.inj he; rfl

theorem noSign_frac (f : Option (List (Fin 10))) {s : List Char} (h : NoSign s) : NoSign (fracText f ++ s) := by
  intro c r he
  match f with
  | none => exact h c r he
  | some ds => obtain ⟨rfl, _⟩ := List.cons.inj he; decide

theorem takeFraction_append (f : Option (List (Fin 10))) (x : Option (Bool × List (Fin 10))) :
    takeFraction (fracText f ++ expText x) = ((f.getD []).map digit, expText x) := by
  match f, x with
  | none, none => rfl
  | none, some (neg, ds) => rfl
  | some ds, x => exact takeDigits_append (noDigit_exp x)

theorem parseExponent_text (x : Option (Bool × List (Fin 10))) (h : ∀ y ∈ x, y.2 ≠ []) :
    parseExponent (expText x) = some (expValue x) := by
  match x with
  | none => rfl
  | some (neg, ds) =>
    have hds : ds ≠ [] := h _ rfl
    have hn : NoSign (ds.map digit) := by
      have := noSign_digits ds (s := []) (by intro c r h; simp at h)
      simpa using this
    have htd : takeDigits (ds.map digit) = (ds.map digit, []) := by
      have := takeDigits_append (ds := ds) (s := []) (by intro c r h; simp at h)
      simpa using this
    simp only [expText, parseExponent, true_or, if_true, takeSign_append hn, htd, digitsVal_digits]
    rw [if_neg (by simp [hds])]
    cases neg <;> rfl

theorem parseF32_text (d : Decimal) (h : d.Valid) :
    parseF32 d.text = some (F32.ofDecimal d.neg d.mantissa d.exponent) := by
  obtain ⟨neg, int, frac, exp⟩ := d
  obtain ⟨hm, hx⟩ := h
  simp only [] at hm hx
  simp only [text, List.append_assoc]
  unfold parseF32
  simp only [takeSign_append (noSign_digits int (noSign_frac frac (noSign_exp exp))),
    takeDigits_append (noDigit_frac frac (noDigit_exp exp)), takeFraction_append, parseExponent_text exp hx]
  rw [if_neg]
  swap
  · intro h
    simp only [Bool.and_eq_true, List.isEmpty_iff, List.map_eq_nil_iff] at h
    exact hm (by rw [h.1, h.2]; rfl)
  rw [← List.map_append, digitsVal_digits, List.length_map]
  rfl

/-- Everything that parses is a literal, if it has no plus and no capital exponent mark. -/
theorem text_of_parseF32 {t : List Char} {x : F32} (h : parseF32 t = some x)
    (hp : '+' ∉ t) (hE : 'E' ∉ t) : ∃ d : Decimal, d.Valid ∧ d.text = t := by
  have hsign : ∀ t : List Char, '+' ∉ t → ∃ neg s, takeSign t = (neg, s) ∧ t = sign neg ++ s := by
    intro t hp
    unfold takeSign
    split
    · exact ⟨true, _, rfl, rfl⟩
    · simp at hp
    · exact ⟨false, t, rfl, rfl⟩
  unfold parseF32 at h
  obtain ⟨neg, s, hs, ht⟩ := hsign t hp
  have hp1 : '+' ∉ s := fun hm => hp (by rw [ht]; exact List.mem_append_right _ hm)
  have hE1 : 'E' ∉ s := fun hm => hE (by rw [ht]; exact List.mem_append_right _ hm)
  simp only [hs] at h
  obtain ⟨int, h1, h2, h3⟩ := takeDigits_spec s
  rw [h1] at h
  generalize (takeDigits s).2 = s2 at h h2 h3
  obtain ⟨frac, s3, hf, hs3⟩ : ∃ (frac : Option (List (Fin 10))) (s3 : List Char),
      takeFraction s2 = ((frac.getD []).map digit, s3) ∧ s2 = fracText frac ++ s3 := by
    unfold takeFraction
    split
    · rename_i s'
      obtain ⟨ds, g1, g2, g3⟩ := takeDigits_spec s'
      exact ⟨some ds, (takeDigits s').2, Prod.ext g1 rfl, by rw [fracText, List.cons_append, ← g2]⟩
    · exact ⟨none, s2, rfl, rfl⟩
  simp only [hf] at h
  split at h
  · simp at h
  rename_i hne
  have hmant : int ++ frac.getD [] ≠ [] := by
    intro he
    apply hne
    simp only [List.append_eq_nil_iff] at he
    simp [he.1, he.2]
  have hp3 : '+' ∉ s3 := fun hm => hp1 (by rw [h2, hs3]; simp [hm])
  have hE3 : 'E' ∉ s3 := fun hm => hE1 (by rw [h2, hs3]; simp [hm])
  obtain ⟨exp, he1, he2⟩ : ∃ exp : Option (Bool × List (Fin 10)), s3 = expText exp ∧ ∀ y ∈ exp, y.2 ≠ [] := by
    cases s3 with
    | nil => exact ⟨none, rfl, by simp⟩
    | cons c s4 =>
      rcases hx : parseExponent (c :: s4) with _ | z
      · rw [hx] at h; simp at h
      · simp only [parseExponent] at hx
        split at hx
        swap
        · simp at hx
        rename_i hc
        have hc : c = 'e' := by
          rcases hc with rfl | rfl
          · rfl
          · simp at hE3
        subst hc
        obtain ⟨xneg, s5, hs5, ht5⟩ := hsign s4 (fun hm => hp3 (List.mem_cons_of_mem _ hm))
        simp only [hs5] at hx
        obtain ⟨ds, g1, g2, g3⟩ := takeDigits_spec s5
        rw [g1] at hx
        split at hx
        · simp at hx
        · rename_i hex
          simp only [Bool.or_eq_true, not_or, Bool.not_eq_true', Bool.not_eq_false] at hex
          obtain ⟨e1, e2⟩ := hex
          rw [List.isEmpty_iff] at e2
          refine ⟨some (xneg, ds), ?_, ?_⟩
          · rw [expText, ht5, g2, e2, List.append_nil]
          · simp only [Option.mem_some_iff, forall_eq']
            rintro rfl
            simp at e1
  refine ⟨⟨neg, int, frac, exp⟩, ⟨hmant, he2⟩, ?_⟩
  simp only [text]
  rw [ht, h2, hs3, he1]
  simp only [List.append_assoc]

/-- Nibbles spell neither `+` nor `E`. -/
theorem spell_no_plus {ns : List Nat} {t : List Char} (h : spell ns = some t) : '+' ∉ t ∧ 'E' ∉ t := by
  induction ns generalizing t with
  | nil => simp [spell] at h; subst h; simp
  | cons n ns ih =>
    obtain ⟨u, v, hu, hv, rfl⟩ := spell_cons.mp h
    have := ih hv
    have hu' : '+' ∉ u ∧ 'E' ∉ u := by
      unfold nibbleText at hu
      split at hu <;> simp at hu <;> subst hu <;> decide
    simp [List.mem_append, this, hu']

/-- What a real operand spells, and its value. -/
theorem packed_parse {t : List Char} {bs : List UInt8} {x : F32} (hp : Packed t bs) :
    parseF32 t = some x ↔ ∃ d : Decimal, d.Valid ∧ d.text = t ∧ x = F32.ofDecimal d.neg d.mantissa d.exponent := by
  constructor
  · intro h
    obtain ⟨ns, pad, -, -, hs⟩ := hp
    have := spell_no_plus hs
    obtain ⟨d, hd, rfl⟩ := text_of_parseF32 h this.1 this.2
    refine ⟨d, hd, rfl, ?_⟩
    rw [parseF32_text d hd] at h
    exact (Option.some.inj h).symm
  · rintro ⟨d, hd, rfl, rfl⟩
    exact parseF32_text d hd

/-! ## Truncated operands -/

theorem spell_append {a b : List Nat} {t : List Char} (h : spell (a ++ b) = some t) :
    ∃ u, spell a = some u := by
  induction a generalizing t with
  | nil => exact ⟨[], rfl⟩
  | cons n a ih =>
    obtain ⟨u, v, hu, hv, rfl⟩ := spell_cons.mp h
    obtain ⟨w, hw⟩ := ih hv
    exact ⟨u ++ w, spell_cons.mpr ⟨u, w, hu, hw, rfl⟩⟩

theorem nibbles_append (a b : List UInt8) : nibbles (a ++ b) = nibbles a ++ nibbles b := by
  simp [nibbles]

theorem trunc_parse : Trunc Number.parse := by
  intro cfg data p x q n h h1 h2
  obtain ⟨bs, ⟨t, ⟨ns, pad, hn, hpad, hs⟩, -⟩, hp, rfl⟩ := (exact_parse _ _ _ _).mp h
  have hp : bs <+: data.drop p := hp
  have hk : n - p < bs.length := by omega
  have hd : (data.take n).drop p = bs.take (n - p) := by
    rw [List.drop_take]
    obtain ⟨r, hr⟩ := hp
    rw [← hr, List.take_append_of_le_length (by omega)]
  have hsplit : nibbles (bs.take (n - p)) ++ nibbles (bs.drop (n - p)) = ns ++ 15 :: pad := by
    rw [← nibbles_append, List.take_append_drop, hn]
  have hl : (nibbles (bs.take (n - p))).length ≤ ns.length := by
    have h3 := congrArg List.length hsplit
    rw [List.length_append, nibbles_length (bs.drop _), List.length_drop] at h3
    simp at h3
    omega
  have hpre : nibbles (bs.take (n - p)) = ns.take (nibbles (bs.take (n - p))).length := by
    have := congrArg (List.take (nibbles (bs.take (n - p))).length) hsplit
    rw [List.take_append_of_le_length (Nat.le_refl _), List.take_length,
      List.take_append_of_le_length hl] at this
    exact this
  have hspell : ∃ u, spell (nibbles (bs.take (n - p))) = some u := by
    rw [hpre]
    refine spell_append (b := ns.drop (nibbles (bs.take (n - p))).length) (t := t) ?_
    rw [List.take_append_drop]
    exact hs
  obtain ⟨u, hu⟩ := hspell
  exact parse_eof (u := u) (by simpa [hd] using hu)

theorem trunc_number : Trunc Number.read := by
  unfold Number.read
  refine Trunc.bind trunc_u8 exact_u8 (fun first => ?_)
  have h0 := first.toNat_lt
  rw [positiveTwoByte_eq, negativeTwoByte_eq, i32_of_mem (by omega)]
  simp only [rd_bind_assoc, rd_pure_bind]
  repeat' with_reducible first
    | refine Trunc.ite (fun _ => ?_) (fun _ => ?_)
    | exact Trunc.pure _
    | exact Trunc.bind trunc_u8 exact_u8 (fun _ => Trunc.pure _)
    | exact Trunc.bind trunc_u16 exact_u16 (fun _ => Trunc.pure _)
    | exact Trunc.bind trunc_u32 exact_u32 (fun _ => Trunc.pure _)
    | exact Trunc.bind trunc_parse exact_parse (fun _ => Trunc.pure _)
    | exact Trunc.raise _

/-! ## Packing -/

/-- Any sequence of nibbles can be packed with the end mark. -/
theorem pack_exists (ns : List Nat) (h : ∀ n ∈ ns, n < 16) :
    ∃ bs pad, nibbles bs = ns ++ 15 :: pad ∧ pad.length ≤ 1 := by
  match ns, h with
  | [], _ => exact ⟨[0xff], [15], by decide, by decide⟩
  | [a], h =>
    have ha : a < 16 := h a (by simp)
    refine ⟨[UInt8.ofNat (16 * a + 15)], [], ?_, by simp⟩
    have : (UInt8.ofNat (16 * a + 15)).toNat = 16 * a + 15 := UInt8.toNat_ofNat_of_lt' (by simp [UInt8.size]; omega)
    simp [nibbles, this]
    omega
  | a :: b :: ns, h =>
    have ha : a < 16 := h a (by simp)
    have hb : b < 16 := h b (by simp)
    obtain ⟨bs, pad, h1, h2⟩ := pack_exists ns (fun n hn => h n (by simp [hn]))
    refine ⟨UInt8.ofNat (16 * a + b) :: bs, pad, ?_, h2⟩
    have : (UInt8.ofNat (16 * a + b)).toNat = 16 * a + b := UInt8.toNat_ofNat_of_lt' (by simp [UInt8.size]; omega)
    rw [nibbles_cons, this, h1]
    simp
    omega

theorem spell_exists (t : List Char) (h : ∀ c ∈ t, (∃ n : Fin 10, c = digit n) ∨ c = '.' ∨ c = 'e' ∨ c = '-') :
    ∃ ns, spell ns = some t ∧ ∀ n ∈ ns, n < 16 := by
  induction t with
  | nil => exact ⟨[], rfl, by simp⟩
  | cons c t ih =>
    obtain ⟨ns, h1, h2⟩ := ih (fun c hc => h c (by simp [hc]))
    have hc : ∃ n, n < 16 ∧ nibbleText n = some [c] := by
      rcases h c (by simp) with ⟨n, rfl⟩ | rfl | rfl | rfl
      · refine ⟨n, by omega, ?_⟩
        rw [nibbleText_digit (by omega)]
        rfl
      · exact ⟨10, by decide, rfl⟩
      · exact ⟨11, by decide, rfl⟩
      · exact ⟨14, by decide, rfl⟩
    obtain ⟨n, hn, ht⟩ := hc
    refine ⟨n :: ns, spell_cons.mpr ⟨[c], t, ht, h1, rfl⟩, ?_⟩
    intro m hm
    rcases List.mem_cons.mp hm with rfl | hm
    · exact hn
    · exact h2 m hm

theorem packed_exists (d : Decimal) : ∃ bs, Packed d.text bs := by
  obtain ⟨ns, h1, h2⟩ := spell_exists d.text (by
    intro c hc
    obtain ⟨neg, int, frac, exp⟩ := d
    simp only [text, List.mem_append, sign] at hc
    rcases hc with ((hc | hc) | hc) | hc
    · cases neg <;> simp at hc
      exact .inr (.inr (.inr hc))
    · obtain ⟨n, -, rfl⟩ := List.mem_map.mp hc
      exact .inl ⟨n, rfl⟩
    · cases frac with
      | none => simp [fracText] at hc
      | some ds =>
        rcases List.mem_cons.mp hc with rfl | hc
        · exact .inr (.inl rfl)
        · obtain ⟨n, -, rfl⟩ := List.mem_map.mp hc
          exact .inl ⟨n, rfl⟩
    · cases exp with
      | none => simp [expText] at hc
      | some x =>
        rcases List.mem_cons.mp hc with rfl | hc
        · exact .inr (.inr (.inl rfl))
        · rcases List.mem_append.mp hc with hc | hc
          · cases hx : x.1 <;> simp [sign, hx] at hc
            exact .inr (.inr (.inr hc))
          · obtain ⟨n, -, rfl⟩ := List.mem_map.mp hc
            exact .inl ⟨n, rfl⟩)
  obtain ⟨bs, pad, h3, h4⟩ := pack_exists ns h2
  exact ⟨bs, ns, pad, h3, h4, h1⟩

end PS
