import Verif.Spec.Float
import Mathlib.Tactic.Linarith
import Mathlib.Tactic.FieldSimp
import Mathlib.Tactic.Positivity
import Mathlib.Tactic.Ring
import Mathlib.Tactic.NormNum
import Mathlib.Algebra.Order.Ring.Abs
import Mathlib.Data.Rat.Cast.Order
import Mathlib.Algebra.Order.Field.Power
/-!
# Rounding in binary32
-/
namespace PS
open F32 Spec

/-! ## Rounding to an integer -/

theorem rne_half {a b : Nat} (hb : 0 < b) :
    |(a : ℚ) / b - rne a b| ≤ 1 / 2 ∧ (|(a : ℚ) / b - rne a b| = 1 / 2 → rne a b % 2 = 0) := by
  have hb' : (0 : ℚ) < b := by exact_mod_cast hb
  have hdiv : (a : ℚ) / b = (a / b : ℕ) + (a % b : ℕ) / b := by
    field_simp
    have := Nat.div_add_mod a b
    exact_mod_cast this.symm
  have hlt : a % b < b := Nat.mod_lt _ hb
  generalize hq : a / b = q at *
  generalize hr : a % b = r at *
  have hr0 : (0 : ℚ) ≤ (r : ℚ) / b := by positivity
  unfold rne
  simp only [hq, hr]
  rw [hdiv]
  split
  · rename_i h
    have h' : (r : ℚ) / b < 1 / 2 := by
      rw [div_lt_div_iff₀ hb' (by norm_num)]
      have : (2 * r : ℚ) < b := by exact_mod_cast h
      linarith
    rw [show (q : ℚ) + r / b - q = r / b by ring, abs_of_nonneg hr0]
    exact ⟨le_of_lt h', fun he => absurd he (ne_of_lt h')⟩
  · split
    · rename_i _ h
      have h1 : (1 : ℚ) / 2 < (r : ℚ) / b := by
        rw [div_lt_div_iff₀ (by norm_num) hb']
        have : (b : ℚ) < 2 * r := by exact_mod_cast h
        linarith
      have h2 : (r : ℚ) / b < 1 := by
        rw [div_lt_one hb']; exact_mod_cast hlt
      rw [show (q : ℚ) + r / b - (q + 1 : ℕ) = -(1 - r / b) by push_cast; ring, abs_neg,
        abs_of_pos (by linarith)]
      refine ⟨by linarith, fun he => ?_⟩
      exfalso; linarith
    · rename_i h3 h4
      have he : 2 * r = b := by omega
      have hh : (r : ℚ) / b = 1 / 2 := by
        rw [div_eq_div_iff (ne_of_gt hb') (by norm_num)]
        have : (2 * r : ℚ) = b := by exact_mod_cast he
        linarith
      rw [hh]
      split
      · rename_i hpar
        refine ⟨?_, fun _ => hpar⟩
        rw [show (q : ℚ) + 1 / 2 - q = 1 / 2 by ring, abs_of_pos (by norm_num)]
      · rename_i hpar
        refine ⟨?_, fun _ => by omega⟩
        rw [show (q : ℚ) + 1 / 2 - (q + 1 : ℕ) = -(1 / 2) by push_cast; ring, abs_neg, abs_of_pos (by norm_num)]

/-- The integer chosen by `rne` is nearest, with ties to even. -/
theorem nearest_int {x : ℚ} {m : ℤ} (h1 : |x - m| ≤ 1 / 2) (h2 : |x - m| = 1 / 2 → m % 2 = 0) (j : ℤ) :
    |x - m| ≤ |x - j| ∧ (|x - m| = |x - j| → j ≠ m → m % 2 = 0) := by
  by_cases hj : j = m
  · subst hj
    exact ⟨le_refl _, fun _ h => absurd rfl h⟩
  · have hd : (1 : ℚ) ≤ |((m - j : ℤ) : ℚ)| := by
      have : (1 : ℤ) ≤ |m - j| := Int.one_le_abs (by omega)
      exact_mod_cast this
    have ht : |((m - j : ℤ) : ℚ)| ≤ |x - m| + |x - j| := by
      have : ((m - j : ℤ) : ℚ) = (x - j) - (x - m) := by push_cast; ring
      rw [this]
      have := abs_sub (x - j) (x - m)
      linarith
    refine ⟨by linarith, fun he _ => h2 (by linarith)⟩

/-! ## Values -/

theorem val_false (m e : Nat) : val false m e = ((m * 2 ^ e : ℕ) : ℚ) / 2 ^ 149 := by
  unfold val
  push_cast
  simp

theorem val_true (m e : Nat) : val true m e = -val false m e := by
  unfold val
  simp only [if_true, Bool.false_eq_true, if_false]
  ring

/-- Distances measured in units of the least positive number. -/
theorem dist_units (q : ℚ) (m e : Nat) :
    |q - val false m e| = |q * 2 ^ 149 - ((m * 2 ^ e : ℕ) : ℚ)| / 2 ^ 149 := by
  rw [val_false]
  have : q - ((m * 2 ^ e : ℕ) : ℚ) / 2 ^ 149 = (q * 2 ^ 149 - ((m * 2 ^ e : ℕ) : ℚ)) / 2 ^ 149 := by
    field_simp
  rw [this, abs_div, abs_of_pos (show (0 : ℚ) < 2 ^ 149 by positivity)]

/-- `Nearest` in units of the least positive number. -/
theorem nearest_fin_iff {neg s : Bool} {q : ℚ} {m e : Nat} :
    Nearest neg q (fin s m e) ↔ s = neg ∧ q * 2 ^ 149 < (2 ^ 25 - 1) * 2 ^ 252 ∧ (fin s m e).WF ∧
      ∀ n f, (fin false n f).WF →
        |q * 2 ^ 149 - ((m * 2 ^ e : ℕ) : ℚ)| ≤ |q * 2 ^ 149 - ((n * 2 ^ f : ℕ) : ℚ)| ∧
        (|q * 2 ^ 149 - ((m * 2 ^ e : ℕ) : ℚ)| = |q * 2 ^ 149 - ((n * 2 ^ f : ℕ) : ℚ)| →
          n * 2 ^ f ≠ m * 2 ^ e → m % 2 = 0) := by
  have hp : (0 : ℚ) < 2 ^ 149 := by positivity
  have hthr : (q < (2 ^ 25 - 1) * 2 ^ 103) ↔ q * 2 ^ 149 < (2 ^ 25 - 1) * 2 ^ 252 := by
    constructor
    · intro h; nlinarith
    · intro h
      by_contra hc
      push Not at hc
      nlinarith
  have hval : ∀ n f, val false n f = val false m e ↔ n * 2 ^ f = m * 2 ^ e := by
    intro n f
    rw [val_false, val_false, div_left_inj' (ne_of_gt hp)]
    exact_mod_cast Iff.rfl
  unfold Nearest
  simp only [dist_units, hthr, div_le_div_iff_of_pos_right hp, div_left_inj' (ne_of_gt hp), ne_eq, hval]

/-! ## The exponent chosen by `round` -/

theorem bitLength_le {k L : Nat} : bitLength k ≤ L ↔ k < 2 ^ L := by
  unfold bitLength
  split
  · rename_i h
    subst h
    simp
  · rename_i h
    rw [← Nat.log2_lt h]
    omega

/-- The exponent before a possible carry. -/
theorem exponent_spec (k : Nat) : k < 2 ^ (bitLength k - 24 + 24) ∧
    (bitLength k - 24 ≠ 0 → 2 ^ (bitLength k - 24 + 23) ≤ k) := by
  constructor
  · rw [← bitLength_le]; omega
  · intro h
    by_contra hc
    push Not at hc
    rw [← bitLength_le] at hc
    omega

theorem core_max {x v : ℚ} {m e : Nat} (hvx : v = x * 2 ^ e) (hr1 : |x - m| ≤ 1 / 2)
    (hr2 : |x - m| = 1 / 2 → m % 2 = 0) (hm1 : m ≤ 2 ^ 24) :
    m = 2 ^ 24 ↔ (2 ^ 25 - 1) * 2 ^ e / 2 ≤ v := by
  have hab := abs_le.mp hr1
  have he' : (0 : ℚ) < 2 ^ e := pow_pos (by norm_num) _
  have hsc : ((2 ^ 25 - 1) * 2 ^ e / 2 ≤ v) ↔ (2 ^ 24 - 1 / 2 ≤ x) := by
    rw [hvx]
    constructor
    · intro h; by_contra hc; push Not at hc; nlinarith
    · intro h; nlinarith
  rw [hsc]
  constructor
  · intro h
    have : (m : ℚ) = 2 ^ 24 := by rw [h]; norm_num
    linarith
  · intro h
    by_contra hc
    have h1 : m ≤ 2 ^ 24 - 1 := by omega
    have h2 : (m : ℚ) ≤ 2 ^ 24 - 1 := by
      have : ((m : ℕ) : ℚ) ≤ ((2 ^ 24 - 1 : ℕ) : ℚ) := by exact_mod_cast h1
      refine le_trans this ?_
      norm_num
    have h3 : x - m = 1 / 2 := by linarith [hab.2]
    have h4 : (m : ℚ) = 2 ^ 24 - 1 := by linarith [hab.2]
    have h5 := hr2 (by rw [h3]; norm_num)
    have h6 : m = 2 ^ 24 - 1 := by
      have : (m : ℚ) + 1 = 2 ^ 24 := by linarith
      have : m + 1 = 2 ^ 24 := by exact_mod_cast this
      omega
    rw [h6] at h5
    norm_num at h5

/-- The core of the correctness of `round`: the chosen significand and exponent. -/
theorem round_core {n d e m : Nat} (hd : 0 < d) (hk1 : n / d < 2 ^ (e + 24))
    (hk2 : e ≠ 0 → 2 ^ (e + 23) ≤ n / d) (hm : m = rne n (d * 2 ^ e)) :
    m ≤ 2 ^ 24 ∧ (e ≠ 0 → 2 ^ 23 ≤ m) ∧
    (∀ n' f, (fin false n' f).WF →
      |(n : ℚ) / d - ((m * 2 ^ e : ℕ) : ℚ)| ≤ |(n : ℚ) / d - ((n' * 2 ^ f : ℕ) : ℚ)| ∧
      (|(n : ℚ) / d - ((m * 2 ^ e : ℕ) : ℚ)| = |(n : ℚ) / d - ((n' * 2 ^ f : ℕ) : ℚ)| →
        n' * 2 ^ f ≠ m * 2 ^ e → m % 2 = 0)) ∧
    (m = 2 ^ 24 ↔ (2 ^ 25 - 1) * 2 ^ e / 2 ≤ (n : ℚ) / d) ∧ (n : ℚ) / d < 2 ^ (e + 24) ∧
    (e ≠ 0 → (2 : ℚ) ^ (e + 23) ≤ (n : ℚ) / d) := by
  have hd' : (0 : ℚ) < d := by exact_mod_cast hd
  have he' : (0 : ℚ) < 2 ^ e := pow_pos (by norm_num) _
  -- the quotient
  generalize hv : (n : ℚ) / d = v
  have hv1 : v < 2 ^ (e + 24) := by
    rw [← hv, div_lt_iff₀ hd']
    have h1 : n < 2 ^ (e + 24) * d := (Nat.div_lt_iff_lt_mul hd).mp hk1
    have h2 : ((n : ℕ) : ℚ) < ((2 ^ (e + 24) * d : ℕ) : ℚ) := Nat.cast_lt.mpr h1
    rwa [Nat.cast_mul, Nat.cast_pow, Nat.cast_ofNat] at h2
  have hv2 : e ≠ 0 → (2 : ℚ) ^ (e + 23) ≤ v := by
    intro h
    rw [← hv, le_div_iff₀ hd']
    have h1 : 2 ^ (e + 23) * d ≤ n := (Nat.le_div_iff_mul_le hd).mp (hk2 h)
    have h2 : ((2 ^ (e + 23) * d : ℕ) : ℚ) ≤ ((n : ℕ) : ℚ) := Nat.cast_le.mpr h1
    rwa [Nat.cast_mul, Nat.cast_pow, Nat.cast_ofNat] at h2
  have hv0 : 0 ≤ v := by rw [← hv]; exact div_nonneg (Nat.cast_nonneg _) (Nat.cast_nonneg _)
  have hx : (n : ℚ) / ((d * 2 ^ e : ℕ) : ℚ) = v / 2 ^ e := by
    rw [← hv]; push_cast; field_simp
  have hdp : 0 < d * 2 ^ e := Nat.mul_pos hd (Nat.two_pow_pos e)
  obtain ⟨hr1, hr2⟩ := rne_half (a := n) hdp
  rw [hx, ← hm] at hr1 hr2
  have hx1 : v / 2 ^ e < 2 ^ 24 := by
    rw [div_lt_iff₀ he']; rw [pow_add] at hv1; linarith
  have hx2 : e ≠ 0 → (2 : ℚ) ^ 23 ≤ v / 2 ^ e := by
    intro h
    rw [le_div_iff₀ he']; have := hv2 h; rw [pow_add] at this; linarith
  have hx0 : 0 ≤ v / 2 ^ e := div_nonneg hv0 (le_of_lt he')
  generalize hxx : v / 2 ^ e = x at *
  have hvx : v = x * 2 ^ e := by rw [← hxx]; field_simp
  have hab := abs_le.mp hr1
  have hm1 : m ≤ 2 ^ 24 := by
    have h1 : (m : ℚ) < 2 ^ 24 + 1 := by linarith
    have h2 : m < 2 ^ 24 + 1 := by exact_mod_cast h1
    omega
  have hm2 : e ≠ 0 → 2 ^ 23 ≤ m := by
    intro h
    have h1 := hx2 h
    have h2 : (2 : ℚ) ^ 23 < (m : ℚ) + 1 := by linarith
    have h3 : 2 ^ 23 < m + 1 := by exact_mod_cast h2
    omega
  have hdist : ∀ y : ℚ, |v - y| = |x - y / 2 ^ e| * 2 ^ e := by
    intro y
    rw [hvx, ← abs_of_pos he', ← abs_mul, abs_of_pos he']
    congr 1
    field_simp
  have hmz : ((m * 2 ^ e : ℕ) : ℚ) / 2 ^ e = (m : ℤ) := by
    push_cast; field_simp
  have hnear := fun j => nearest_int (x := x) (m := (m : ℤ)) (by exact_mod_cast hr1)
    (by intro h; have := hr2 (by exact_mod_cast h); omega) j
  refine ⟨hm1, hm2, ?_, ?_, hv1, hv2⟩
  · intro n' f ⟨hw1, hw2, hw3⟩
    rw [hdist, hdist, hmz, mul_le_mul_iff_left₀ he', mul_left_inj' (ne_of_gt he')]
    by_cases hf : e ≤ f
    · have hj : ((n' * 2 ^ f : ℕ) : ℚ) / 2 ^ e = ((n' * 2 ^ (f - e) : ℕ) : ℤ) := by
        obtain ⟨g, rfl⟩ := Nat.exists_eq_add_of_le hf
        rw [Nat.add_sub_cancel_left]
        push_cast
        rw [pow_add]
        field_simp
      rw [hj]
      refine ⟨(hnear _).1, fun h hne => ?_⟩
      have := (hnear _).2 h (by
        intro h'
        apply hne
        have h' : n' * 2 ^ (f - e) = m := by exact_mod_cast h'
        rw [← h', Nat.mul_assoc, ← pow_add, Nat.sub_add_cancel hf])
      omega
    · push Not at hf
      have he0 : e ≠ 0 := by omega
      have h1 := (hnear (2 ^ 23)).1
      have hx2' := hx2 he0
      have hy : ((n' * 2 ^ f : ℕ) : ℚ) / 2 ^ e < 2 ^ 23 := by
        rw [div_lt_iff₀ he']
        have h3 : n' * 2 ^ f < 2 ^ 24 * 2 ^ f := Nat.mul_lt_mul_of_pos_right hw1 (Nat.two_pow_pos f)
        have h4 : 2 ^ 24 * 2 ^ f ≤ 2 ^ 23 * 2 ^ e := by
          rw [← pow_add, ← pow_add]
          exact Nat.pow_le_pow_right (by norm_num) (by omega)
        have h5 : n' * 2 ^ f < 2 ^ 23 * 2 ^ e := lt_of_lt_of_le h3 h4
        exact_mod_cast h5
      have h2 : |x - (2 ^ 23 : ℤ)| < |x - ((n' * 2 ^ f : ℕ) : ℚ) / 2 ^ e| := by
        rw [abs_of_nonneg (by push_cast; linarith), abs_of_nonneg (by linarith)]
        push_cast at hy ⊢
        linarith
      push_cast at h1 h2 ⊢
      have h3 := lt_of_le_of_lt h1 h2
      exact ⟨le_of_lt h3, fun h _ => absurd h (ne_of_lt h3)⟩
  · exact core_max hvx hr1 hr2 hm1

/-- `round` yields the nearest binary32 value. -/
theorem round_nearest (neg : Bool) {n d : Nat} (hd : 0 < d) :
    Nearest neg ((n : ℚ) / d / 2 ^ 149) (round neg n d) := by
  obtain ⟨hk1, hk2⟩ := exponent_spec (n / d)
  have hcore := round_core (n := n) hd hk1 hk2 rfl
  unfold round
  simp only []
  clear hk1 hk2
  generalize bitLength (n / d) - 24 = e at *
  generalize rne n (d * 2 ^ e) = m at *
  obtain ⟨hm1, hm2, hnear, hmax, hv1, hv2⟩ := hcore
  have hq : (n : ℚ) / d / 2 ^ 149 * 2 ^ 149 = (n : ℚ) / d := by field_simp
  have hinf : ∀ x : ℚ, (2 ^ 25 - 1) * 2 ^ 252 ≤ x → (2 ^ 25 - 1) * 2 ^ 103 ≤ x / 2 ^ 149 := by
    intro x hx
    rw [le_div_iff₀ (by positivity)]
    linarith
  by_cases hc : m = 2 ^ 24
  · rw [if_pos hc]
    simp only []
    have hlow := hmax.mp hc
    split
    · rename_i he
      rw [nearest_fin_iff, hq]
      refine ⟨rfl, ?_, ⟨by norm_num, he, Or.inr (le_refl _)⟩, ?_⟩
      · calc (n : ℚ) / d < 2 ^ (e + 24) := hv1
          _ ≤ 2 ^ (252 + 24) := pow_le_pow_right₀ (by norm_num) (by omega)
          _ < (2 ^ 25 - 1) * 2 ^ 252 := by rw [pow_add, mul_comm]; exact mul_lt_mul_of_pos_right (by norm_num) (by positivity)
      · intro n' f hw
        have h := hnear n' f hw
        have heq : 2 ^ 23 * 2 ^ (e + 1) = m * 2 ^ e := by rw [hc, pow_succ]; ring
        rw [heq]
        exact ⟨h.1, fun _ _ => by norm_num⟩
    · rename_i he
      refine ⟨rfl, hinf _ (le_trans ?_ hlow)⟩
      have : (2 : ℚ) ^ 253 ≤ 2 ^ e := pow_le_pow_right₀ (by norm_num) (by omega)
      linarith
  · rw [if_neg hc]
    simp only []
    split
    · rename_i he
      rw [nearest_fin_iff, hq]
      refine ⟨rfl, ?_, ⟨by omega, he, ?_⟩, hnear⟩
      · have hlt : (n : ℚ) / d < (2 ^ 25 - 1) * 2 ^ e / 2 := by
          by_contra h
          push Not at h
          exact hc (hmax.mpr h)
        have : (2 : ℚ) ^ e ≤ 2 ^ 253 := pow_le_pow_right₀ (by norm_num) he
        linarith
      · by_cases h0 : e = 0
        · exact Or.inl h0
        · exact Or.inr (hm2 h0)
    · rename_i he
      refine ⟨rfl, hinf _ (le_trans ?_ (hv2 (by omega)))⟩
      calc (2 ^ 25 - 1) * 2 ^ 252 ≤ (2 : ℚ) ^ (25 + 252) := by
            rw [pow_add]; exact mul_le_mul_of_nonneg_right (by norm_num) (by positivity)
        _ ≤ 2 ^ (e + 23) := pow_le_pow_right₀ (by norm_num) (by omega)

/-! ## Uniqueness -/

theorem WF_units_inj {m e n f : Nat} {s t : Bool} (h1 : (fin s m e).WF) (h2 : (fin t n f).WF)
    (h : m * 2 ^ e = n * 2 ^ f) : m = n ∧ e = f := by
  obtain ⟨a1, a2, a3⟩ := h1
  obtain ⟨b1, b2, b3⟩ := h2
  have key : ∀ {m e n f : Nat}, m < 2 ^ 24 → (f = 0 ∨ 2 ^ 23 ≤ n) → m * 2 ^ e = n * 2 ^ f → e < f → False := by
    intro m e n f hm hn h hlt
    have hn' : 2 ^ 23 ≤ n := by omega
    obtain ⟨g, rfl⟩ := Nat.exists_eq_add_of_lt hlt
    have : m = n * 2 ^ (g + 1) := by
      have hp : 0 < 2 ^ e := by positivity
      apply Nat.eq_of_mul_eq_mul_right hp
      rw [h, show e + g + 1 = (g + 1) + e by omega, pow_add]
      ring
    have : 2 ^ 23 * 2 ≤ n * 2 ^ (g + 1) := by
      refine Nat.mul_le_mul hn' ?_
      rw [pow_succ]
      have : 1 ≤ 2 ^ g := Nat.one_le_two_pow
      omega
    omega
  rcases Nat.lt_trichotomy e f with hlt | heq | hgt
  · exact (key a1 b3 h hlt).elim
  · subst heq
    exact ⟨Nat.eq_of_mul_eq_mul_right (by positivity) h, rfl⟩
  · exact (key b1 a3 h.symm hgt).elim

/-- Two nearest values cannot be on both sides with even significands. -/
theorem nearest_tie_false {K : Type*} [Field K] [LinearOrder K] [IsStrictOrderedRing K] {V : K} {m e n f : Nat} {s t : Bool} (h1 : (fin s m e).WF) (h2 : (fin t n f).WF)
    (hm : m % 2 = 0) (hn : n % 2 = 0) (hlt : m * 2 ^ e < n * 2 ^ f)
    (hmid : |V - ((m * 2 ^ e : ℕ) : K)| = |V - ((n * 2 ^ f : ℕ) : K)|)
    (hbest : ∀ n' f', (fin false n' f').WF → |V - ((m * 2 ^ e : ℕ) : K)| ≤ |V - ((n' * 2 ^ f' : ℕ) : K)|) : False := by
  obtain ⟨a1, a2, a3⟩ := h1
  obtain ⟨b1, b2, b3⟩ := h2
  have hsucc : (fin false (m + 1) e).WF := ⟨by omega, a2, by omega⟩
  have hef : e ≤ f := by
    by_contra hc
    push Not at hc
    have h3 : n * 2 ^ f < 2 ^ 24 * 2 ^ f := Nat.mul_lt_mul_of_pos_right b1 (by positivity)
    have h4 : 2 ^ 24 * 2 ^ f ≤ 2 ^ 23 * 2 ^ e := by
      rw [← pow_add, ← pow_add]
      exact Nat.pow_le_pow_right (by norm_num) (by omega)
    have h5 : 2 ^ 23 * 2 ^ e ≤ m * 2 ^ e := Nat.mul_le_mul_right _ (by omega)
    omega
  obtain ⟨g, rfl⟩ := Nat.exists_eq_add_of_le hef
  have hp : 0 < 2 ^ e := by positivity
  have hnn : n * 2 ^ (e + g) = (n * 2 ^ g) * 2 ^ e := by rw [pow_add]; ring
  rw [hnn] at hlt hmid
  have h6 : m < n * 2 ^ g := Nat.lt_of_mul_lt_mul_right hlt
  have h7 : m + 1 ≠ n * 2 ^ g := by
    intro h
    have : (n * 2 ^ g) % 2 = 0 := by rw [Nat.mul_mod, hn]; simp
    omega
  have h8 : m + 1 < n * 2 ^ g := by omega
  have hb := hbest (m + 1) e hsucc
  generalize n * 2 ^ g = j at *
  have hp' : (0 : K) < 2 ^ e := by positivity
  push_cast at hb hmid
  have hm' : (m : K) * 2 ^ e < (m + 1) * 2 ^ e := by nlinarith
  have hj' : ((m : K) + 1) * 2 ^ e < j * 2 ^ e := by
    have : ((m + 1 : ℕ) : K) < (j : K) := by exact_mod_cast h8
    push_cast at this
    exact mul_lt_mul_of_pos_right this hp'
  -- V is the midpoint
  have hV : V = ((m : K) * 2 ^ e + j * 2 ^ e) / 2 := by
    rcases abs_eq_abs.mp hmid with h | h
    · exfalso; linarith
    · linarith
  rw [hV] at hb
  rw [abs_of_pos (by linarith)] at hb
  rcases abs_cases (((m : K) * 2 ^ e + j * 2 ^ e) / 2 - (m + 1) * 2 ^ e) with ⟨h, _⟩ | ⟨h, _⟩ <;> linarith

/-- The nearest value is unique. -/
theorem Spec.Nearest.unique {neg : Bool} {q : ℚ} {x y : F32} (hx : Nearest neg q x) (hy : Nearest neg q y) :
    x = y := by
  match x, y with
  | nan, _ => exact hx.elim
  | _, nan => exact hy.elim
  | inf s, inf t => rw [hx.1, hy.1]
  | inf s, fin t n f => exact absurd hy.2.1 (not_lt.mpr hx.2)
  | fin s m e, inf t => exact absurd hx.2.1 (not_lt.mpr hy.2)
  | fin s m e, fin t n f =>
    rw [nearest_fin_iff] at hx hy
    obtain ⟨rfl, -, hw1, hn1⟩ := hx
    obtain ⟨rfl, -, hw2, hn2⟩ := hy
    have hf : ∀ {s m e}, (fin s m e).WF → (fin false m e).WF := fun h => h
    have heq := le_antisymm (hn1 n f (hf hw2)).1 (hn2 m e (hf hw1)).1
    by_cases hv : m * 2 ^ e = n * 2 ^ f
    · obtain ⟨rfl, rfl⟩ := WF_units_inj hw1 hw2 hv
      rfl
    · have hm := (hn1 n f (hf hw2)).2 heq (fun h => hv h.symm)
      have hn := (hn2 m e (hf hw1)).2 heq.symm hv
      rcases Nat.lt_or_gt_of_ne hv with hlt | hgt
      · exact (nearest_tie_false hw1 hw2 hm hn hlt heq (fun n' f' h => (hn1 n' f' h).1)).elim
      · exact (nearest_tie_false hw2 hw1 hn hm hgt heq.symm (fun n' f' h => (hn2 n' f' h).1)).elim

/-- A finite value is the nearest to itself. -/
theorem nearest_self {neg : Bool} {m e : Nat} (h : (fin neg m e).WF) :
    Nearest neg (val false m e) (fin neg m e) := by
  rw [nearest_fin_iff]
  have hv : val false m e * 2 ^ 149 = ((m * 2 ^ e : ℕ) : ℚ) := by
    rw [val_false]; field_simp
  rw [hv]
  refine ⟨rfl, ?_, h, ?_⟩
  · have : m * 2 ^ e < (2 ^ 25 - 1) * 2 ^ 252 := by
      calc m * 2 ^ e ≤ (2 ^ 24 - 1) * 2 ^ e := Nat.mul_le_mul_right _ (by have := h.1; omega)
        _ ≤ (2 ^ 24 - 1) * 2 ^ 253 := Nat.mul_le_mul_left _ (Nat.pow_le_pow_right (by norm_num) h.2.1)
        _ < (2 ^ 25 - 1) * 2 ^ 252 := by norm_num
    have : ((m * 2 ^ e : ℕ) : ℚ) < (((2 ^ 25 - 1) * 2 ^ 252 : ℕ) : ℚ) := by exact_mod_cast this
    refine lt_of_lt_of_eq this ?_
    norm_num
  · intro n f _
    rw [sub_self, abs_zero]
    refine ⟨abs_nonneg _, fun h0 hne => ?_⟩
    exfalso
    apply hne
    have := abs_eq_zero.mp h0.symm
    have : ((m * 2 ^ e : ℕ) : ℚ) = ((n * 2 ^ f : ℕ) : ℚ) := by linarith
    exact_mod_cast this.symm

/-- Representable values are rounded to themselves. -/
theorem round_exact {neg : Bool} {m e n d : Nat} (hd : 0 < d) (h : (fin neg m e).WF)
    (hv : n = m * 2 ^ e * d) : round neg n d = fin neg m e := by
  refine (round_nearest neg hd).unique (?_ : Nearest neg _ _)
  have hd' : (d : ℚ) ≠ 0 := by exact_mod_cast (by omega : d ≠ 0)
  have : (n : ℚ) / d / 2 ^ 149 = val false m e := by
    rw [val_false, hv]; push_cast; field_simp
  rw [this]
  exact nearest_self h

/-- Rounding yields canonical representations only. -/
theorem Spec.Nearest.wf {neg : Bool} {q : ℚ} {x : F32} (h : Nearest neg q x) : x.WF := by
  match x with
  | nan => trivial
  | inf s => trivial
  | fin s m e => exact h.2.2.1

theorem round_wf (neg : Bool) {n d : Nat} (hd : 0 < d) : (round neg n d).WF := (round_nearest neg hd).wf

/-- Rounding depends on the quotient only. -/
theorem round_congr (neg : Bool) {n d n' d' : Nat} (hd : 0 < d) (hd' : 0 < d') (h : n * d' = n' * d) :
    round neg n d = round neg n' d' := by
  refine (round_nearest neg hd).unique ?_
  have h1 : (n : ℚ) / d = (n' : ℚ) / d' := by
    rw [div_eq_div_iff (by exact_mod_cast (by omega : d ≠ 0)) (by exact_mod_cast (by omega : d' ≠ 0))]
    exact_mod_cast h
  rw [h1]
  exact round_nearest neg hd'

/-- Decimal numbers are rounded to the nearest value. -/
theorem ofDecimal_nearest (neg : Bool) (n : Nat) (x : Int) :
    Nearest neg ((n : ℚ) * (10 : ℚ) ^ x) (ofDecimal neg n x) := by
  unfold ofDecimal
  split
  · rename_i h
    obtain ⟨k, rfl⟩ := Int.eq_ofNat_of_zero_le h
    have := round_nearest neg (n := n * 10 ^ ((k : Int)).toNat * 2 ^ 149) (d := 1) (by norm_num)
    have he : (((n * 10 ^ ((k : Int)).toNat * 2 ^ 149 : ℕ) : ℚ) / ((1 : ℕ) : ℚ) / 2 ^ 149) = (n : ℚ) * (10 : ℚ) ^ (k : Int) := by
      rw [Int.toNat_natCast, zpow_natCast]
      push_cast
      field_simp
      norm_num
    rw [he] at this
    exact this
  · rename_i h
    obtain ⟨k, hk⟩ := Int.eq_ofNat_of_zero_le (a := -x) (by omega)
    obtain rfl : x = -(k : Int) := by omega
    have := round_nearest neg (n := n * 2 ^ 149) (d := 10 ^ (-(-(k : Int))).toNat) (by positivity)
    have he : (((n * 2 ^ 149 : ℕ) : ℚ) / ((10 ^ (-(-(k : Int))).toNat : ℕ) : ℚ) / 2 ^ 149) = (n : ℚ) * (10 : ℚ) ^ (-(k : Int)) := by
      rw [neg_neg, Int.toNat_natCast, zpow_neg, zpow_natCast]
      push_cast
      field_simp
      norm_num
    rw [he] at this
    exact this

/-- Integers are rounded to the nearest value. -/
theorem ofInt_nearest (i : Int) : Nearest (decide (i < 0)) (i.natAbs : ℚ) (ofInt i) := by
  have := round_nearest (decide (i < 0)) (n := i.natAbs * 2 ^ 149) (d := 1) (by norm_num)
  have he : (((i.natAbs * 2 ^ 149 : ℕ) : ℚ) / ((1 : ℕ) : ℚ) / 2 ^ 149) = (i.natAbs : ℚ) := by
    push_cast
    field_simp
    norm_num
  rw [he] at this
  exact this

/-- Fixed-point numbers are rounded to the nearest value. -/
theorem ofFixed_nearest (i : Int) : Nearest (decide (i < 0)) ((i.natAbs : ℚ) / 2 ^ 16) (ofFixed i) := by
  have := round_nearest (decide (i < 0)) (n := i.natAbs * 2 ^ 133) (d := 1) (by norm_num)
  have he : (((i.natAbs * 2 ^ 133 : ℕ) : ℚ) / ((1 : ℕ) : ℚ) / 2 ^ 149) = (i.natAbs : ℚ) / 2 ^ 16 := by
    push_cast
    rw [div_one, div_eq_div_iff (by positivity) (by positivity)]
    ring
  rw [he] at this
  exact this

end PS
