import Verif.Lemmas.Type2Step
/-!
# Lemmas: integer arguments
-/
namespace PS.Type2
open PS.Spec hiding Operand Operation
open PS.Type2.Spec
open F32

/-- Numbers of at most 24 binary digits, scaled by a power of two, exist. -/
theorem exists_wf (s : Bool) {k j : Nat} (hk : k < 2 ^ 24) (h1 : 23 ≤ j) (h2 : j ≤ 253) :
    ∃ m e, (fin s m e).WF ∧ m * 2 ^ e = k * 2 ^ j := by
  by_cases h0 : k = 0
  · subst h0
    exact ⟨0, 0, ⟨by norm_num, by norm_num, .inl rfl⟩, by simp⟩
  · have hl : k.log2 < 24 := (Nat.log2_lt h0).mpr hk
    have hle : 2 ^ k.log2 ≤ k := Nat.log2_self_le h0
    have hlt : k < 2 ^ (k.log2 + 1) := Nat.lt_log2_self
    refine ⟨k * 2 ^ (23 - k.log2), j - (23 - k.log2), ⟨?_, by omega, .inr ?_⟩, ?_⟩
    · calc k * 2 ^ (23 - k.log2) < 2 ^ (k.log2 + 1) * 2 ^ (23 - k.log2) :=
            Nat.mul_lt_mul_of_pos_right hlt (Nat.pos_of_ne_zero (by positivity))
        _ = 2 ^ 24 := by rw [← Nat.pow_add]; congr 1; omega
    · calc 2 ^ 23 = 2 ^ k.log2 * 2 ^ (23 - k.log2) := by rw [← Nat.pow_add]; congr 1; omega
        _ ≤ k * 2 ^ (23 - k.log2) := Nat.mul_le_mul_right _ hle
    · rw [Nat.mul_assoc, ← Nat.pow_add]
      congr 2
      omega

theorem val_eq_int {s : Bool} {m e : Nat} {i : Int} : val s m e = i ↔ units s m e = i * 2 ^ 149 := by
  have hp : (0 : ℚ) < 2 ^ 149 := by positivity
  unfold val units
  rw [div_eq_iff hp.ne']
  cases s
  · simp only [Bool.false_eq_true, if_false, one_mul]
    exact_mod_cast Iff.rfl
  · simp only [if_true, neg_mul, one_mul]
    exact_mod_cast Iff.rfl

theorem units_natAbs (s : Bool) (m e : Nat) : (units s m e).natAbs = m * 2 ^ e := by
  unfold units
  cases s
  · simp only [Bool.false_eq_true, if_false, Int.natAbs_natCast]
  · simp only [if_true, Int.natAbs_neg, Int.natAbs_natCast]

theorem isInt_unique {x : F32} {i j : Int} (h : IsInt x i) (h' : IsInt x j) : i = j := by
  obtain ⟨s, m, e, rfl, h⟩ := h
  obtain ⟨s', m', e', he, h'⟩ := h'
  cases he
  rw [h] at h'
  exact_mod_cast h'

/-- Conversion of an integer that is a binary32 number. -/
theorem ofInt_exact {m e : Nat} {i : Int} (h : (fin false m e).WF) (hv : m * 2 ^ e = i.natAbs * 2 ^ 149) :
    ofInt i = fin (decide (i < 0)) m e := by
  unfold ofInt
  exact round_exact (by decide) (h : (fin _ m e).WF) (by rw [hv, Nat.mul_one])

/-- The integer arguments, in terms of the conversions of the code. -/
theorem intArg_iff {x : F32} (hx : x.WF) {i : Int} :
    (F32.beq (ofInt x.toI32) x = true ∧ x.toI32 = i) ↔ IntArg x i := by
  match x, hx with
  | nan, _ =>
    constructor
    · rintro ⟨h, _⟩
      have : F32.beq (ofInt nan.toI32) nan = false := by decide +kernel
      rw [this] at h; simp at h
    · rintro (⟨⟨s, m, e, h, _⟩, _⟩ | ⟨⟨s, m, e, h, _⟩, _⟩) <;> cases h
  | inf s, _ =>
    constructor
    · rintro ⟨h, _⟩
      have : F32.beq (ofInt (inf s).toI32) (inf s) = false := by cases s <;> decide +kernel
      rw [this] at h; simp at h
    · rintro (⟨⟨s, m, e, h, _⟩, _⟩ | ⟨⟨s, m, e, h, _⟩, _⟩) <;> cases h
  | fin s m e, hx =>
    have hx' : (fin false m e).WF := hx
    obtain ⟨w1, w2, w3⟩ := hx
    have p149 : (0 : Nat) < 2 ^ 149 := by norm_num
    by_cases hint : ∃ k : Nat, m * 2 ^ e = k * 2 ^ 149
    · obtain ⟨k, hk⟩ := hint
      have hdiv : m * 2 ^ e / 2 ^ 149 = k := by rw [hk]; exact Nat.mul_div_cancel _ p149
      -- the value
      have hval : IsInt (fin s m e) (if s then -(k : Int) else k) := by
        refine ⟨s, m, e, rfl, ?_⟩
        rw [val_eq_int]
        unfold units
        rw [hk]
        cases s
        · simp
        · simp
      generalize hv : (if s then -(k : Int) else (k : Int)) = v at hval
      have hto : (fin s m e).toI32 = if v < -2 ^ 31 then -2 ^ 31 else if 2 ^ 31 - 1 < v then 2 ^ 31 - 1 else v := by
        unfold toI32
        simp only [hdiv]
        rw [hv]
      have hunits : units s m e = v * 2 ^ 149 := by
        obtain ⟨s', m', e', he, hv'⟩ := hval
        cases he
        exact val_eq_int.mp hv'
      have harg : IntArg (fin s m e) i ↔ (v = i ∧ -2 ^ 31 ≤ i ∧ i < 2 ^ 31) ∨ (v = 2 ^ 31 ∧ i = 2 ^ 31 - 1) := by
        unfold IntArg
        constructor
        · rintro (⟨h, h'⟩ | ⟨h, h'⟩)
          · exact .inl ⟨isInt_unique hval h, h'⟩
          · exact .inr ⟨isInt_unique hval h, h'⟩
        · rintro (⟨rfl, h'⟩ | ⟨rfl, h'⟩)
          · exact .inl ⟨hval, h'⟩
          · exact .inr ⟨hval, h'⟩
      have hmax : ofInt (2 ^ 31 - 1) = fin false (2 ^ 23) 157 := by decide +kernel
      have hmin : ofInt (-2 ^ 31) = fin true (2 ^ 23) 157 := by decide +kernel
      rw [harg]
      by_cases h1 : v < -2 ^ 31
      · rw [hto, if_pos h1, hmin]
        have : F32.beq (fin true (2 ^ 23) 157) (fin s m e) = false := by
          simp only [F32.beq, decide_eq_false_iff_not, hunits]
          have : units true (2 ^ 23) 157 = -2 ^ 31 * 2 ^ 149 := by decide +kernel
          rw [this]
          intro hc
          have := Int.eq_of_mul_eq_mul_right (by norm_num) hc
          omega
        rw [this]
        constructor
        · rintro ⟨h, _⟩; simp at h
        · omega
      by_cases h2 : 2 ^ 31 - 1 < v
      · rw [hto, if_neg h1, if_pos h2, hmax]
        have : F32.beq (fin false (2 ^ 23) 157) (fin s m e) = true ↔ v = 2 ^ 31 := by
          simp only [F32.beq, decide_eq_true_iff, hunits]
          have : units false (2 ^ 23) 157 = 2 ^ 31 * 2 ^ 149 := by decide +kernel
          rw [this]
          constructor
          · intro hc
            exact (Int.eq_of_mul_eq_mul_right (by norm_num) hc).symm
          · rintro rfl; rfl
        rw [this]
        omega
      · rw [hto, if_neg h1, if_neg h2]
        have hk' : k = v.natAbs := by rw [← hv]; cases s <;> simp
        rw [ofInt_exact hx' (by rw [hk, hk'])]
        have : F32.beq (fin (decide (v < 0)) m e) (fin s m e) = true := by
          simp only [F32.beq, decide_eq_true_iff]
          unfold units
          rw [hk, ← hv]
          cases s
          · simp
          · rcases Nat.eq_zero_or_pos k with rfl | hk0
            · simp
            · simp [hk0]
        rw [this]
        constructor
        · rintro ⟨_, rfl⟩; exact .inl ⟨rfl, by omega, by omega⟩
        · rintro (⟨rfl, _⟩ | ⟨h, _⟩)
          · exact ⟨rfl, rfl⟩
          · omega
    · -- not an integer
      have he : e < 149 := by
        by_contra hc
        refine hint ⟨m * 2 ^ (e - 149), ?_⟩
        rw [Nat.mul_assoc, ← Nat.pow_add]
        congr 2; omega
      have hno : ∀ j, ¬ IsInt (fin s m e) j := by
        rintro j ⟨s', m', e', h, hv⟩
        cases h
        rw [val_eq_int] at hv
        refine hint ⟨j.natAbs, ?_⟩
        have := congrArg Int.natAbs hv
        rw [Int.natAbs_mul] at this
        rwa [units_natAbs, Int.natAbs_pow] at this
      constructor
      · rintro ⟨h, -⟩
        exfalso
        set t := m * 2 ^ e / 2 ^ 149 with ht
        have hlt : t < 2 ^ 24 := by
          rw [ht, Nat.div_lt_iff_lt_mul p149]
          calc m * 2 ^ e < 2 ^ 24 * 2 ^ e := Nat.mul_lt_mul_of_pos_right w1 (by positivity)
            _ ≤ 2 ^ 24 * 2 ^ 149 := Nat.mul_le_mul_left _ (Nat.pow_le_pow_right (by norm_num) (by omega))
        have hto : (fin s m e).toI32 = if s then -(t : Int) else (t : Int) := by
          unfold toI32
          simp only [← ht]
          have h24 : (t : Int) < 2 ^ 24 := by exact_mod_cast hlt
          have h0 : (0 : Int) ≤ t := Int.natCast_nonneg t
          clear_value t
          generalize (t : Int) = z at *
          cases s
          · simp only [Bool.false_eq_true, if_false]
            rw [if_neg (by omega), if_neg (by omega)]
          · simp only [if_true]
            rw [if_neg (by omega), if_neg (by omega)]
        obtain ⟨m', e', hw, he'⟩ := exists_wf false hlt (j := 149) (by norm_num) (by norm_num)
        rw [hto, ofInt_exact hw (by rw [he']; cases s <;> simp)] at h
        simp only [F32.beq, decide_eq_true_iff] at h
        refine hint ⟨t, ?_⟩
        have h3 := congrArg Int.natAbs h
        rw [units_natAbs, units_natAbs, he'] at h3
        exact h3.symm
      · rintro (⟨h, _⟩ | ⟨h, _⟩)
        · exact absurd h (hno _)
        · exact absurd h (hno _)

end PS.Type2
