import Verif.Spec.Arithmetic
import Verif.Lemmas.F32
/-!
# The arithmetic of the model is that of the specification
-/
namespace PS
open F32 Spec

theorem val_units (s : Bool) (m e : Nat) : val s m e = (units s m e : ℚ) / 2 ^ 149 := by
  cases s
  · rw [val_false]; simp [units]
  · rw [val_true, val_false]; simp [units]; ring

theorem two149 : (0 : ℚ) < 2 ^ 149 := by positivity

theorem val_zero_iff {s : Bool} {m e : Nat} : val s m e = 0 ↔ m = 0 := by
  have : val false m e = 0 ↔ m = 0 := by
    rw [val_false, div_eq_zero_iff]
    simp
  cases s
  · exact this
  · rw [val_true, neg_eq_zero, this]

theorem abs_val (s : Bool) (m e : Nat) : |val s m e| = val false m e := by
  have h : 0 ≤ val false m e := by rw [val_false]; positivity
  cases s
  · exact abs_of_nonneg h
  · rw [val_true, abs_neg]; exact abs_of_nonneg h

theorem nearest_iff_round {neg : Bool} {n d : Nat} (hd : 0 < d) {q : ℚ} (hq : q = (n : ℚ) / d / 2 ^ 149) {z : F32} :
    Nearest neg q z ↔ z = round neg n d := by
  subst hq
  constructor
  · intro h; exact h.unique (round_nearest neg hd)
  · rintro rfl; exact round_nearest neg hd

theorem sum_units (z : Int) : (|(z : ℚ) / 2 ^ 149| = ((z.natAbs : ℕ) : ℚ) / (1 : ℕ) / 2 ^ 149) ∧
    (decide ((z : ℚ) / 2 ^ 149 < 0) = decide (z < 0)) ∧ ((z : ℚ) / 2 ^ 149 = 0 ↔ z = 0) := by
  refine ⟨?_, ?_, ?_⟩
  · rw [abs_div, abs_of_pos two149, Nat.cast_one, div_one, Nat.cast_natAbs]
    simp
  · rw [decide_eq_decide, div_neg_iff]
    constructor
    · rintro (⟨_, h⟩ | ⟨h, _⟩)
      · exact absurd h (not_lt.mpr two149.le)
      · exact_mod_cast h
    · intro h
      exact .inr ⟨by exact_mod_cast h, two149⟩
  · rw [div_eq_zero_iff]
    constructor
    · rintro (h | h)
      · exact_mod_cast h
      · exact absurd h two149.ne'
    · rintro rfl; exact .inl (by simp)

theorem sum_iff {x y z : F32} : IsSum x y z ↔ z = F32.add x y := by
  rcases x with _ | s | ⟨s, m, e⟩ <;> rcases y with _ | t | ⟨t, n, f⟩ <;> simp only [IsSum, F32.add]
  have hv : val s m e + val t n f = ((units s m e + units t n f : ℤ) : ℚ) / 2 ^ 149 := by
    rw [val_units, val_units]; push_cast; ring
  obtain ⟨h1, h2, h3⟩ := sum_units (units s m e + units t n f)
  rw [hv, h2]
  by_cases h : units s m e + units t n f = 0
  · rw [if_pos (h3.mpr h), if_pos h]
  · rw [if_neg (fun h' => h (h3.mp h')), if_neg h]
    exact nearest_iff_round (by decide) h1

theorem val_not (t : Bool) (n f : Nat) : val (!t) n f = -val t n f := by
  cases t
  · exact val_true n f
  · rw [val_true, neg_neg]; rfl

theorem difference_iff {x y z : F32} : IsDifference x y z ↔ z = F32.sub x y := by
  unfold F32.sub
  rw [← sum_iff]
  rcases x with _ | s | ⟨s, m, e⟩ <;> rcases y with _ | t | ⟨t, n, f⟩ <;> simp only [IsDifference, IsSum, F32.neg]
  · cases s <;> cases t <;> simp
  · rw [val_not, ← sub_eq_add_neg]

theorem bne_xor (s t : Bool) : (s != t) = (s ^^ t) := by cases s <;> cases t <;> rfl

theorem product_iff {x y z : F32} : IsProduct x y z ↔ z = F32.mul x y := by
  rcases x with _ | s | ⟨s, m, e⟩ <;> rcases y with _ | t | ⟨t, n, f⟩ <;>
    simp only [IsProduct, F32.mul, bne_xor, val_zero_iff]
  · split <;> rfl
  · split <;> rfl
  · refine nearest_iff_round (by positivity) ?_
    rw [abs_mul, abs_val, abs_val, val_false, val_false]
    push_cast
    field_simp
    norm_num
    ring

theorem quotient_iff {x y z : F32} : IsQuotient x y z ↔ z = F32.div x y := by
  rcases x with _ | s | ⟨s, m, e⟩ <;> rcases y with _ | t | ⟨t, n, f⟩ <;>
    simp only [IsQuotient, F32.div, bne_xor, val_zero_iff]
  split
  · split <;> rfl
  · rename_i hn
    have hn' : (n : ℚ) ≠ 0 := by exact_mod_cast hn
    refine nearest_iff_round (by positivity) ?_
    rw [abs_div, abs_val, abs_val, val_false, val_false]
    push_cast
    field_simp
    norm_num

theorem equal_iff {x y : F32} : Equal x y ↔ F32.beq x y = true := by
  rcases x with _ | s | ⟨s, m, e⟩ <;> rcases y with _ | t | ⟨t, n, f⟩ <;> simp only [Equal, F32.beq] <;> try simp
  rw [val_units, val_units, div_left_inj' two149.ne']
  exact_mod_cast Iff.rfl

theorem lessEqual_iff {x y : F32} : LessEqual x y ↔ F32.le x y = true := by
  rcases x with _ | s | ⟨s, m, e⟩ <;> rcases y with _ | t | ⟨t, n, f⟩ <;> simp only [LessEqual, F32.le] <;> try simp
  rw [val_units, val_units, div_le_div_iff_of_pos_right two149]
  exact_mod_cast Iff.rfl

/-! ## The square root -/

/-- Which of two numbers is nearer depends on the side of the middle. -/
theorem nearer_iff {a N N' : ℝ} : |a - N| ≤ |a - N'| ↔ N = N' ∨ (N < N' ∧ 2 * a ≤ N + N') ∨ (N' < N ∧ N + N' ≤ 2 * a) := by
  rw [← sq_le_sq]
  have key : (a - N) ^ 2 ≤ (a - N') ^ 2 ↔ 0 ≤ (N' - N) * (N + N' - 2 * a) := by
    constructor <;> intro h <;> nlinarith
  rw [key]
  constructor
  · intro h
    rcases lt_trichotomy N N' with h1 | h1 | h1
    · refine .inr (.inl ⟨h1, ?_⟩)
      have := nonneg_of_mul_nonneg_right h (by linarith : 0 < N' - N)
      linarith
    · exact .inl h1
    · refine .inr (.inr ⟨h1, ?_⟩)
      have : 0 ≤ (N - N') * (2 * a - (N + N')) := by nlinarith
      have := nonneg_of_mul_nonneg_right this (by linarith)
      linarith
  · rintro (rfl | ⟨h1, h2⟩ | ⟨h1, h2⟩)
    · simp
    · exact mul_nonneg (by linarith) (by linarith)
    · nlinarith

/-- Between two half-integers the distances to integers compare alike, and ties do
not occur. -/
theorem nearer_congr {a b : ℝ} {r : ℕ} (ha : (r : ℝ) < 2 * a ∧ 2 * a < r + 1) (hb : (r : ℝ) < 2 * b ∧ 2 * b < r + 1)
    {N N' : ℕ} (h : |a - N| ≤ |a - N'|) : |b - N| ≤ |b - N'| ∧ (|b - N| = |b - N'| → N = N') := by
  have side : ∀ c : ℝ, (r : ℝ) < 2 * c ∧ 2 * c < r + 1 → (2 * c ≤ (N : ℝ) + N' ↔ r + 1 ≤ N + N') ∧ ((N : ℝ) + N' ≤ 2 * c ↔ N + N' ≤ r) := by
    intro c hc
    constructor
    · constructor
      · intro h'
        have : (r : ℝ) < ((N + N' : ℕ) : ℝ) := by push_cast; linarith
        exact_mod_cast this
      · intro h'
        have : ((r + 1 : ℕ) : ℝ) ≤ ((N + N' : ℕ) : ℝ) := by exact_mod_cast h'
        push_cast at this
        linarith
    · constructor
      · intro h'
        have : ((N + N' : ℕ) : ℝ) < ((r + 1 : ℕ) : ℝ) := by push_cast; linarith
        have : N + N' < r + 1 := by exact_mod_cast this
        omega
      · intro h'
        have : ((N + N' : ℕ) : ℝ) ≤ (r : ℝ) := by exact_mod_cast h'
        push_cast at this
        linarith
  have h1 := nearer_iff.mp h
  rw [(side a ha).1, (side a ha).2] at h1
  refine ⟨nearer_iff.mpr ?_, fun he => ?_⟩
  · rw [(side b hb).1, (side b hb).2]
    exact h1
  · have h2 := nearer_iff.mp he.symm.le
    have e1 := side b hb
    rw [add_comm (N' : ℝ) N, e1.1, e1.2] at h2
    rcases h1 with h1 | ⟨h1, h3⟩ | ⟨h1, h3⟩
    · exact_mod_cast h1
    · rcases h2 with h2 | ⟨h2, h4⟩ | ⟨h2, h4⟩
      · exact_mod_cast h2.symm
      · linarith
      · omega
    · rcases h2 with h2 | ⟨h2, h4⟩ | ⟨h2, h4⟩
      · exact_mod_cast h2.symm
      · omega
      · linarith

/-- The real square root in units of the least positive number. -/
theorem sqrt_units (m e : Nat) : √(val false m e : ℝ) = √((m * 2 ^ e * 2 ^ 149 : ℕ) : ℝ) / 2 ^ 149 := by
  have hp : (0 : ℝ) < 2 ^ 149 := by positivity
  rw [eq_div_iff hp.ne', ← Real.sqrt_sq hp.le, ← Real.sqrt_mul (by rw [val_false]; positivity), val_false]
  congr 1
  push_cast
  field_simp
  norm_num

theorem dist_real (R : ℝ) (n f : Nat) : |R / 2 ^ 149 - (val false n f : ℝ)| = |R - ((n * 2 ^ f : ℕ) : ℝ)| / 2 ^ 149 := by
  have hp : (0 : ℝ) < 2 ^ 149 := by positivity
  have : R / 2 ^ 149 - (val false n f : ℝ) = (R - ((n * 2 ^ f : ℕ) : ℝ)) / 2 ^ 149 := by
    rw [val_false]; push_cast; field_simp
  rw [this, abs_div, abs_of_pos hp]

/-- Comparisons of distances over the rationals, as ones over the reals. -/
theorem cast_dist (q : ℚ) (n : Nat) : ((|q - (n : ℚ)| : ℚ) : ℝ) = |(q : ℝ) - (n : ℝ)| := by push_cast; rfl

theorem root_fin {m e : Nat} (hw : (fin false m e).WF) (hm : m ≠ 0) : IsRoot (fin false m e) (F32.sqrt (fin false m e)) := by
  simp only [IsRoot, F32.sqrt, val_zero_iff, if_neg hm, Bool.false_eq_true, if_false]
  generalize hS : m * 2 ^ e * 2 ^ 149 = S
  have hSlt : S < 2 ^ 426 := by
    rw [← hS]
    calc m * 2 ^ e * 2 ^ 149 < 2 ^ 24 * 2 ^ e * 2 ^ 149 :=
          Nat.mul_lt_mul_of_pos_right (Nat.mul_lt_mul_of_pos_right hw.1 (by positivity)) (by positivity)
      _ ≤ 2 ^ 24 * 2 ^ 253 * 2 ^ 149 :=
          Nat.mul_le_mul_right _ (Nat.mul_le_mul_left _ (Nat.pow_le_pow_right (by norm_num) hw.2.1))
      _ = 2 ^ 426 := by rw [← pow_add, ← pow_add]
  have hr1 : Nat.sqrt (4 * S) * Nat.sqrt (4 * S) ≤ 4 * S := Nat.sqrt_le _
  have hr2 : 4 * S < (Nat.sqrt (4 * S) + 1) * (Nat.sqrt (4 * S) + 1) := Nat.lt_succ_sqrt _
  generalize Nat.sqrt (4 * S) = r at *
  have hrlt : r < 2 ^ 214 := by
    by_contra h
    push Not at h
    have := Nat.mul_le_mul h h
    omega
  set R := √((S : ℕ) : ℝ) with hR
  have hR0 : 0 ≤ R := Real.sqrt_nonneg _
  have hRR : R * R = S := Real.mul_self_sqrt (by positivity)
  -- what `round` chooses
  have fin_of : ∀ n d : Nat, 0 < d → n < 2 ^ 216 * d → ∃ k f, round false n d = fin false k f ∧ (fin false k f).WF ∧
      ∀ n' f', (fin false n' f').WF →
        |(n : ℝ) / d - ((k * 2 ^ f : ℕ) : ℝ)| ≤ |(n : ℝ) / d - ((n' * 2 ^ f' : ℕ) : ℝ)| ∧
        (|(n : ℝ) / d - ((k * 2 ^ f : ℕ) : ℝ)| = |(n : ℝ) / d - ((n' * 2 ^ f' : ℕ) : ℝ)| →
          n' * 2 ^ f' ≠ k * 2 ^ f → k % 2 = 0) := by
    intro n d hd hlt
    have hn := round_nearest false (n := n) hd
    have hq : (n : ℚ) / d / 2 ^ 149 * 2 ^ 149 = (n : ℚ) / d := by field_simp
    have hd' : (0 : ℚ) < d := by exact_mod_cast hd
    have hlt' : (n : ℚ) / d < 2 ^ 216 := by
      rw [div_lt_iff₀ hd']
      exact_mod_cast hlt
    rcases hx : round false n d with _ | s | ⟨s, k, f⟩
    · rw [hx] at hn; exact hn.elim
    · rw [hx] at hn
      exfalso
      have h1 := hn.2
      have : (n : ℚ) / d / 2 ^ 149 < 2 ^ 216 := by
        calc (n : ℚ) / d / 2 ^ 149 ≤ (n : ℚ) / d := div_le_self (by positivity) (by norm_num)
          _ < 2 ^ 216 := hlt'
      have h2 : (2 : ℚ) ^ 127 * 1 ≤ (2 ^ 25 - 1) * 2 ^ 103 := by norm_num
      have h3 : (n : ℚ) / d / 2 ^ 149 < 2 ^ 67 := by
        rw [div_lt_iff₀ two149]
        calc (n : ℚ) / d < 2 ^ 216 := hlt'
          _ = 2 ^ 67 * 2 ^ 149 := by norm_num
      have h4 : (2 : ℚ) ^ 67 ≤ (2 ^ 25 - 1) * 2 ^ 103 := by norm_num
      linarith
    · rw [hx, nearest_fin_iff, hq] at hn
      obtain ⟨rfl, _, hwf, hbest⟩ := hn
      refine ⟨k, f, rfl, hwf, fun n' f' h' => ?_⟩
      obtain ⟨b1, b2⟩ := hbest n' f' h'
      have c : ∀ j : Nat, ((|(n : ℚ) / d - (j : ℚ)| : ℚ) : ℝ) = |(n : ℝ) / d - (j : ℝ)| := by
        intro j; push_cast; rfl
      refine ⟨?_, fun h hne => b2 ?_ hne⟩
      · have : ((|(n : ℚ) / d - ((k * 2 ^ f : ℕ) : ℚ)| : ℚ) : ℝ) ≤ ((|(n : ℚ) / d - ((n' * 2 ^ f' : ℕ) : ℚ)| : ℚ) : ℝ) := by
          exact_mod_cast b1
        rwa [c, c] at this
      · rw [← c, ← c] at h
        exact_mod_cast h
  -- comparisons in units
  have finish : ∀ k f, (fin false k f).WF → (∀ n' f', (fin false n' f').WF →
        |R - ((k * 2 ^ f : ℕ) : ℝ)| ≤ |R - ((n' * 2 ^ f' : ℕ) : ℝ)| ∧
        (|R - ((k * 2 ^ f : ℕ) : ℝ)| = |R - ((n' * 2 ^ f' : ℕ) : ℝ)| → n' * 2 ^ f' ≠ k * 2 ^ f → k % 2 = 0)) →
      ∃ n f_1, fin false k f = fin false n f_1 ∧ (fin false k f).WF ∧ ∀ n' f', (fin false n' f').WF →
      |√(val false m e : ℝ) - (val false n f_1 : ℝ)| ≤ |√(val false m e : ℝ) - (val false n' f' : ℝ)| ∧
      (|√(val false m e : ℝ) - (val false n f_1 : ℝ)| = |√(val false m e : ℝ) - (val false n' f' : ℝ)| →
        val false n' f' ≠ val false n f_1 → n % 2 = 0) := by
    intro k f hwf hb
    have hp : (0 : ℝ) < 2 ^ 149 := by positivity
    refine ⟨k, f, rfl, hwf, fun n' f' h' => ?_⟩
    rw [sqrt_units, hS, ← hR, dist_real, dist_real, div_le_div_iff_of_pos_right hp, div_left_inj' hp.ne']
    obtain ⟨b1, b2⟩ := hb n' f' h'
    refine ⟨b1, fun h hne => b2 h fun he => hne ?_⟩
    rw [val_false, val_false, he]
  by_cases hex : r * r = 4 * S
  · rw [if_pos hex]
    obtain ⟨k, f, h1, h2, h3⟩ := fin_of r 2 (by decide) (by omega)
    rw [h1]
    have hRr : R = (r : ℝ) / (2 : ℕ) := by
      rw [hR, Real.sqrt_eq_iff_mul_self_eq (by positivity) (by positivity)]
      have : ((r * r : ℕ) : ℝ) = ((4 * S : ℕ) : ℝ) := by rw [hex]
      push_cast at this ⊢
      linarith
    refine finish k f h2 ?_
    rw [hRr]
    exact h3
  · rw [if_neg hex]
    obtain ⟨k, f, h1, h2, h3⟩ := fin_of (2 * r + 1) 4 (by decide) (by omega)
    rw [h1]
    refine finish k f h2 fun n' f' h' => ?_
    have b1 : (r : ℝ) < 2 * R := by
      have : ((r * r : ℕ) : ℝ) < ((4 * S : ℕ) : ℝ) := by exact_mod_cast lt_of_le_of_ne hr1 hex
      push_cast at this
      by_contra hc
      push Not at hc
      nlinarith
    have b2 : 2 * R < r + 1 := by
      have : ((4 * S : ℕ) : ℝ) < (((r + 1) * (r + 1) : ℕ) : ℝ) := by exact_mod_cast hr2
      push_cast at this
      by_contra hc
      push Not at hc
      have hr0 : (0 : ℝ) ≤ r := by positivity
      nlinarith
    have a1 : (r : ℝ) < 2 * (((2 * r + 1 : ℕ) : ℝ) / (4 : ℕ)) := by push_cast; linarith
    have a2 : 2 * (((2 * r + 1 : ℕ) : ℝ) / (4 : ℕ)) < r + 1 := by push_cast; linarith
    obtain ⟨c1, c2⟩ := nearer_congr ⟨a1, a2⟩ ⟨b1, b2⟩ (h3 n' f' h').1
    exact ⟨c1, fun h hne => absurd (c2 h).symm hne⟩

theorem root_iff {x z : F32} (hx : x.WF) : IsRoot x z ↔ z = F32.sqrt x := by
  rcases x with _ | s | ⟨s, m, e⟩
  · simp only [IsRoot, F32.sqrt]
  · simp only [IsRoot, F32.sqrt]
  · by_cases hm : m = 0
    · simp only [IsRoot, F32.sqrt, val_zero_iff, if_pos hm]
    · cases s
      swap
      · simp only [IsRoot, F32.sqrt, val_zero_iff, if_neg hm, if_true]
      · have hroot := root_fin hx hm
        constructor
        swap
        · rintro rfl; exact hroot
        · intro h
          simp only [IsRoot, val_zero_iff, if_neg hm, Bool.false_eq_true, if_false] at h hroot
          obtain ⟨n, f, rfl, hw, hb⟩ := h
          obtain ⟨k, g, hk, hw', hb'⟩ := hroot
          rw [hk] at hw' ⊢
          have hp : (0 : ℝ) < 2 ^ 149 := by positivity
          simp only [sqrt_units, dist_real, div_le_div_iff_of_pos_right hp, div_left_inj' hp.ne'] at hb hb'
          have hv : ∀ a b c d, val false a b ≠ val false c d ↔ a * 2 ^ b ≠ c * 2 ^ d := by
            intro a b c d
            rw [not_iff_not, val_false, val_false, div_left_inj' two149.ne']
            exact_mod_cast Iff.rfl
          simp only [hv] at hb hb'
          have heq := le_antisymm (hb k g hw').1 (hb' n f hw).1
          by_cases hne : n * 2 ^ f = k * 2 ^ g
          · obtain ⟨rfl, rfl⟩ := WF_units_inj hw hw' hne
            rfl
          · exfalso
            have e1 := (hb k g hw').2 heq (Ne.symm hne)
            have e2 := (hb' n f hw).2 heq.symm hne
            rcases Nat.lt_or_gt_of_ne hne with hlt | hgt
            · exact nearest_tie_false hw hw' e1 e2 hlt heq (fun n' f' h => (hb n' f' h).1)
            · exact nearest_tie_false hw' hw e2 e1 hgt heq.symm (fun n' f' h => (hb' n' f' h).1)

end PS
