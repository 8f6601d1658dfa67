import Verif.Props.Flat
/-!
# Property C64: the numbers that can be written
-/
namespace PS.Type2
open PS.Spec hiding Operand Operation
open PS.Type2.Spec F32

/-- Small multiples of `2^-16` exist in binary32. -/
theorem fixed_exists {k : Nat} (h : k < 2 ^ 24) : ∃ m e, (fin false m e).WF ∧ m * 2 ^ e = k * 2 ^ 133 := by
  by_cases h0 : k = 0
  · exact ⟨0, 0, by decide, by simp [h0]⟩
  · have h1 : 2 ^ k.log2 ≤ k := Nat.log2_self_le h0
    have h2 : k < 2 ^ (k.log2 + 1) := Nat.lt_log2_self
    have h3 : k.log2 < 24 := (Nat.log2_lt h0).mpr h
    refine ⟨k * 2 ^ (23 - k.log2), 133 - (23 - k.log2), ⟨?_, by omega, .inr ?_⟩, ?_⟩
    · calc k * 2 ^ (23 - k.log2) < 2 ^ (k.log2 + 1) * 2 ^ (23 - k.log2) := Nat.mul_lt_mul_of_pos_right h2 (by positivity)
        _ = 2 ^ 24 := by rw [← pow_add]; congr 1; omega
    · calc 2 ^ 23 = 2 ^ k.log2 * 2 ^ (23 - k.log2) := by rw [← pow_add]; congr 1; omega
        _ ≤ k * 2 ^ (23 - k.log2) := Nat.mul_le_mul_right _ h1
    · rw [mul_assoc, ← pow_add]
      congr 2
      omega

theorem closer_ge {u v a : Nat} (h : a ≤ v) (h' : |(v : ℤ) - u| ≤ |(v : ℤ) - a|) : a ≤ u := by
  rw [abs_of_nonneg (a := (v : ℤ) - a) (by omega)] at h'
  have := le_abs_self ((v : ℤ) - u)
  omega

theorem closer_le {u v a : Nat} (h : v ≤ a) (h' : |(v : ℤ) - u| ≤ |(v : ℤ) - a|) : u ≤ a := by
  rw [abs_of_nonpos (a := (v : ℤ) - a) (by omega)] at h'
  have := neg_abs_le ((v : ℤ) - u)
  omega

/-- The nearest number to a multiple of `2^-16` is one as well, and does not get over a
power of two. -/
theorem nearest_fixed {neg s : Bool} {k m e : Nat} (hk : k ≤ 2 ^ 31) (h : Nearest neg ((k : ℚ) / 2 ^ 16) (fin s m e)) :
    ∃ j, m * 2 ^ e = j * 2 ^ 133 ∧ j ≤ 2 ^ 31 ∧ (k < 2 ^ 24 → j = k) ∧ (j = 0 → k = 0) := by
  rw [nearest_fin_iff] at h
  obtain ⟨-, -, hw, hb⟩ := h
  have e0 : (k : ℚ) / 2 ^ 16 * 2 ^ 149 = ((k * 2 ^ 133 : ℕ) : ℚ) := by
    push_cast
    rw [div_mul_eq_mul_div, div_eq_iff (by positivity)]
    ring
  rw [e0] at hb
  have hb' : ∀ n f, (fin false n f).WF →
      |((k * 2 ^ 133 : ℕ) : ℤ) - ((m * 2 ^ e : ℕ) : ℤ)| ≤ |((k * 2 ^ 133 : ℕ) : ℤ) - ((n * 2 ^ f : ℕ) : ℤ)| := by
    intro n f hn
    exact_mod_cast (hb n f hn).1
  by_cases hs : k < 2 ^ 24
  · obtain ⟨n, f, h1, h2⟩ := fixed_exists hs
    have := hb' n f h1
    rw [h2, sub_self, abs_zero] at this
    have := abs_nonpos_iff.mp this
    have he : m * 2 ^ e = k * 2 ^ 133 := by omega
    exact ⟨k, he, hk, fun _ => rfl, id⟩
  · -- at least `2^24` and at most `2^31`
    have h1 := hb' (2 ^ 23) 134 (by decide)
    have h2 := hb' (2 ^ 23) 141 (by decide)
    have e1 : (2 : Nat) ^ 23 * 2 ^ 134 = 2 ^ 24 * 2 ^ 133 := by norm_num
    have e2 : (2 : Nat) ^ 23 * 2 ^ 141 = 2 ^ 31 * 2 ^ 133 := by norm_num
    rw [e1] at h1
    rw [e2] at h2
    have p : 2 ^ 24 * 2 ^ 133 ≤ k * 2 ^ 133 := Nat.mul_le_mul_right _ (by omega)
    have q : k * 2 ^ 133 ≤ 2 ^ 31 * 2 ^ 133 := Nat.mul_le_mul_right _ hk
    have lo : 2 ^ 24 * 2 ^ 133 ≤ m * 2 ^ e := closer_ge p h1
    have hi : m * 2 ^ e ≤ 2 ^ 31 * 2 ^ 133 := closer_le q h2
    have he : 133 ≤ e := by
      by_contra hc
      have : m * 2 ^ e < 2 ^ 24 * 2 ^ 133 := by
        calc m * 2 ^ e < 2 ^ 24 * 2 ^ e := Nat.mul_lt_mul_of_pos_right hw.1 (by positivity)
          _ ≤ 2 ^ 24 * 2 ^ 133 := Nat.mul_le_mul_left _ (Nat.pow_le_pow_right (by norm_num) (by omega))
      omega
    obtain ⟨f, rfl⟩ := Nat.exists_eq_add_of_le he
    have hj : m * 2 ^ (133 + f) = m * 2 ^ f * 2 ^ 133 := by rw [pow_add]; ring
    rw [hj] at lo hi
    exact ⟨m * 2 ^ f, hj, Nat.le_of_mul_le_mul_right hi (by positivity), fun h => absurd h hs, fun h => by
      rw [h] at lo; simp at lo⟩

/-- Integers can be written as fixed-point numbers. -/
theorem writable_iff_fixed {x : F32} : Writable x ↔ ∃ i : Int, -2147483648 ≤ i ∧ i ≤ 2147483647 ∧
    Nearest (decide (i < 0)) ((i.natAbs : ℚ) / 2 ^ 16) x := by
  constructor
  · rintro ⟨bs, h⟩
    cases h with
    | @int i _ _ h1 h2 =>
      have := shortInt_bounds h1
      refine ⟨i * 65536, by omega, by omega, ?_⟩
      have e1 : decide (i * 65536 < 0) = decide (i < 0) := by
        apply decide_eq_decide.mpr; omega
      have e2 : ((i * 65536).natAbs : ℚ) / 2 ^ 16 = i.natAbs := by
        rw [Int.natAbs_mul, show (65536 : Int).natAbs = 65536 from rfl]
        push_cast
        norm_num
      rw [e1, e2]
      exact h2
    | fixed i h1 h2 h3 => exact ⟨i, h1, h2, h3⟩
  · rintro ⟨i, h1, h2, h3⟩
    exact ⟨_, .fixed i h1 h2 h3⟩

theorem val_units (s : Bool) {m e j : Nat} (h : m * 2 ^ e = j * 2 ^ 133) :
    val s m e = ((if s then -(j : Int) else j : Int) : ℚ) / 2 ^ 16 := by
  have h1 : val false m e = (j : ℚ) / 2 ^ 16 := by
    rw [val_false, h]
    push_cast
    rw [div_eq_div_iff (by positivity) (by positivity)]
    ring
  cases s
  · simpa using h1
  · rw [val_true, h1]
    push_cast
    simp
    ring

/-- **C64.**  The numbers that can be written are the multiples of `2^-16` from `-2^15` to
`2^15`, except for the negative zero. -/
theorem C64_writable (x : F32) : Writable x ↔ Fixed x := by
  rw [writable_iff_fixed]
  constructor
  · rintro ⟨i, h1, h2, h3⟩
    cases x with
    | nan => exact h3
    | inf s =>
      have h4 : (i.natAbs : ℚ) / 2 ^ 16 ≤ 2 ^ 31 := by
        rw [div_le_iff₀ (by norm_num)]
        have : i.natAbs ≤ 2 ^ 31 * 2 ^ 16 := by omega
        exact_mod_cast this
      exact absurd (h3.2.trans h4) (by norm_num)
    | fin s m e =>
      obtain ⟨j, g1, g2, g3, g4⟩ := nearest_fixed (by omega) h3
      refine ⟨h3.2.2.1, if s then -(j : Int) else j, ?_, ?_, val_units s g1, ?_⟩
      · split <;> omega
      · split <;> omega
      · intro hj
        have : j = 0 := by cases s <;> simp_all
        have : i.natAbs = 0 := g4 this
        rw [h3.1]
        simpa using (by omega : 0 ≤ i)
  · cases x with
    | nan => exact False.elim
    | inf s => exact False.elim
    | fin s m e =>
      rintro ⟨hw, i, h1, h2, h3, h4⟩
      have hv : 0 ≤ val false m e := by rw [val_false]; positivity
      have hs : s = decide (i < 0) ∧ val false m e = (i.natAbs : ℚ) / 2 ^ 16 := by
        cases s with
        | false =>
          have hi : 0 ≤ i := by
            by_contra hc
            have : (i : ℚ) < 0 := by exact_mod_cast (by omega : i < 0)
            have : (i : ℚ) / 2 ^ 16 < 0 := div_neg_of_neg_of_pos this (by positivity)
            linarith
          obtain ⟨n, rfl⟩ := Int.eq_ofNat_of_zero_le hi
          exact ⟨by simp, by simpa using h3⟩
        | true =>
          rw [val_true] at h3
          have hi : i < 0 := by
            by_contra hc
            have h5 : i ≠ 0 := fun h => by simpa using h4 h
            have : (0 : ℚ) < i := by exact_mod_cast (by omega : 0 < i)
            have : (0 : ℚ) < (i : ℚ) / 2 ^ 16 := by positivity
            linarith
          obtain ⟨n, hn⟩ := Int.eq_ofNat_of_zero_le (a := -i) (by omega)
          obtain rfl : i = -(n : Int) := by omega
          refine ⟨by simpa using hi, ?_⟩
          rw [Int.natAbs_neg, Int.natAbs_natCast]
          push_cast at h3
          linarith
      obtain ⟨rfl, hv'⟩ := hs
      by_cases hi : i ≤ 2147483647
      · exact ⟨i, by omega, hi, by rw [← hv']; exact nearest_self hw⟩
      · -- the greatest one is reached by rounding
        obtain rfl : i = 2147483648 := by omega
        refine ⟨2147483647, by decide, by decide, ?_⟩
        have hu : m * 2 ^ e = 2 ^ 23 * 2 ^ 141 := by
          rw [val_false, div_eq_div_iff (by positivity) (by positivity)] at hv'
          have : m * 2 ^ e * 2 ^ 16 = (2147483648 : Int).natAbs * 2 ^ 149 := by exact_mod_cast hv'
          rw [show (2147483648 : Int).natAbs = 2147483648 from rfl] at this
          norm_num at this ⊢
          omega
        obtain ⟨rfl, rfl⟩ := WF_units_inj (s := false) (t := false) hw (by decide) hu
        have := ofFixed_nearest 2147483647
        rwa [show ofFixed 2147483647 = fin (decide ((2147483648 : Int) < 0)) (2 ^ 23) 141 by decide +kernel] at this

/-- **C64.**  A program that runs to its end has a flat equivalent if and only if all the
numbers it shows are multiples of `2^-16` from `-2^15` to `2^15`. -/
theorem C64_iff_fixed {cfg : Config} {code : List UInt8} {global «local» : List (List UInt8)} (h1 : code.length < 2 ^ 63)
    (h2 : ∀ c ∈ global ++ «local», c.length < 2 ^ 63) (h3 : global.length ≤ 2 ^ 31 ∧ «local».length ≤ 2 ^ 31)
    {l : List Observation} {w : Option F32} (h : Run cfg (Program.new code global «local») l (.ended w))
    (hsize : (l.map bulk).sum + 6 < 2 ^ 63) :
    (∃ bs, Flat 0 bs ∧ bs.length < 2 ^ 63 ∧ Run cfg (Program.new bs [] []) l (.ended w)) ↔ ∀ x, Shown l w x → Fixed x := by
  simp only [C64_iff h1 h2 h3 h hsize, C64_writable]

/-- `1/2` can be written, and `1/3` cannot. -/
example : Writable (F32.div (F32.ofInt 1) (F32.ofInt 2)) ∧ ¬ Writable (F32.div (F32.ofInt 1) (F32.ofInt 3)) := by
  constructor
  · exact writable_iff_fixed.mpr ⟨32768, by decide, by decide, by
      have := ofFixed_nearest 32768
      rwa [show ofFixed 32768 = F32.div (F32.ofInt 1) (F32.ofInt 2) by decide +kernel] at this⟩
  · rw [C64_writable]
    have : F32.div (F32.ofInt 1) (F32.ofInt 3) = fin false 11184811 124 := by decide +kernel
    rw [this]
    rintro ⟨-, i, -, -, h, -⟩
    rw [val_false, div_eq_div_iff (by positivity) (by positivity)] at h
    have h' : (((11184811 * 2 ^ 124 : ℕ) : Int)) * 2 ^ 16 = i * 2 ^ 149 := by exact_mod_cast h
    omega

end PS.Type2
