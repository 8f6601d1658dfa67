import Verif.Spec.Showable
import Verif.Props.Flat
/-!
# Every binary32 number can be computed
-/
namespace PS.Type2.Showing
open PS.Spec hiding Operand Operation
open PS.Type2.Spec

/-- Operators without results and operands lead to a state. -/
def Reach (checks : Bool) (σ υ : State) : Prop := ∃ τ, Turns checks σ τ ∧ Pushes τ υ

theorem Reach.refl {checks : Bool} {σ : State} : Reach checks σ σ := ⟨σ, .refl, .refl⟩

theorem Reach.trans {checks : Bool} {σ υ ω : State} (h : Reach checks σ υ) (h' : Reach checks υ ω) : Reach checks σ ω := by
  obtain ⟨τ, h1, h2⟩ := h
  obtain ⟨τ', h3, h4⟩ := h'
  rcases Relation.ReflTransGen.cases_head h3 with rfl | ⟨ρ, ⟨p, h5, h6⟩, h7⟩
  · exact ⟨τ, h1, h2.trans h4⟩
  · exact ⟨τ', (h1.tail ⟨p, h2.trans h5, h6⟩).trans h7, h4⟩

theorem Reach.quiet {checks : Bool} {σ υ ω : State} (h : Reach checks σ υ) (h' : Quiet checks υ ω) : Reach checks σ ω := by
  obtain ⟨τ, h1, h2⟩ := h
  exact ⟨ω, h1.tail ⟨υ, h2, h'⟩, .refl⟩

/-- The bytes compute the number, whatever is below and behind. -/
def Computes (x : F32) (bs : List UInt8) : Prop :=
  ∀ (checks : Bool) (σ : State) (rest : List UInt8), σ.code = bs ++ rest →
    Reach checks σ { σ with code := rest, stack := σ.stack ++ [x] }

theorem computes_operand {x : F32} {bs : List UInt8} (h : Operand x bs) : Computes x bs :=
  fun _ σ rest hc => ⟨σ, .refl, .single ⟨x, bs, rest, h, hc, rfl⟩⟩

theorem computes_unary {x z : F32} {bs : List UInt8} {op : Operator} (h : Computes x bs)
    (h' : ∀ checks st, StackOp checks op (st ++ [x]) (st ++ [z])) : Computes z (bs ++ bytes op) := by
  intro checks σ rest hc
  rw [List.append_assoc] at hc
  exact (h checks σ _ hc).quiet (.stack (σ := { σ with code := bytes op ++ rest, stack := σ.stack ++ [x] }) rfl (h' checks _))

theorem computes_binary {x y z : F32} {bs bs' : List UInt8} {op : Operator} (h : Computes x bs) (h1 : Computes y bs')
    (h' : ∀ checks st, StackOp checks op (st ++ [x, y]) (st ++ [z])) : Computes z (bs ++ bs' ++ bytes op) := by
  intro checks σ rest hc
  simp only [List.append_assoc] at hc
  refine ((h checks σ _ hc).trans (h1 checks _ (bytes op ++ rest) rfl)).quiet ?_
  refine .stack (σ := { σ with code := bytes op ++ rest, stack := σ.stack ++ [x] ++ [y] }) rfl ?_
  have := h' checks σ.stack
  simpa using this

theorem computes_two : Computes (.fin false (2 ^ 23) 127) [141] := by
  have := operand_byte 141 (by decide) (by decide)
  rw [show F32.ofInt (((141 : UInt8).toNat : Int) - 139) = .fin false (2 ^ 23) 127 by decide +kernel] at this
  exact computes_operand this

theorem val_two : val false (2 ^ 23) 127 = 2 := by norm_num [val]

theorem computes_double {m e : Nat} {bs : List UInt8} (h : Computes (.fin false m e) bs) (hw : (F32.fin false m (e + 1)).WF) :
    Computes (.fin false m (e + 1)) (bs ++ [141] ++ bytes .opMul) := by
  refine computes_binary h computes_two fun checks st => .mul st ?_
  simp only [IsProduct, val_two]
  have := nearest_self hw
  convert this using 1
  · rfl
  rw [abs_of_nonneg]
  · simp only [val, pow_succ]; ring
  · have : 0 ≤ val false m e := by rw [val_false]; positivity
    linarith

theorem computes_half {m e : Nat} {bs : List UInt8} (h : Computes (.fin false m (e + 1)) bs) (hw : (F32.fin false m e).WF) :
    Computes (.fin false m e) (bs ++ [141] ++ bytes .opDiv) := by
  refine computes_binary h computes_two fun checks st => .div st ?_
  simp only [IsQuotient, val_two]
  rw [if_neg (by norm_num)]
  have := nearest_self hw
  convert this using 1
  · rfl
  rw [abs_of_nonneg]
  · simp only [val, pow_succ]; ring
  · have : 0 ≤ val false m (e + 1) := by rw [val_false]; positivity
    linarith

theorem computes_fixed {m : Nat} (h1 : 2 ^ 23 ≤ m) (h2 : m < 2 ^ 24) : Computes (.fin false m 133) (255 :: beSigned 4 m) := by
  refine computes_operand (.fixed m (by omega) (by omega) ?_)
  have := nearest_self (neg := false) (m := m) (e := 133) ⟨h2, by omega, .inr h1⟩
  convert this using 1
  · simp
  · simp only [val]; norm_num; ring

theorem computes_up {m : Nat} (h1 : 2 ^ 23 ≤ m) (h2 : m < 2 ^ 24) : ∀ k : Nat, 133 + k ≤ 253 →
    ∃ bs, bs.length = 5 + 3 * k ∧ Computes (.fin false m (133 + k)) bs
  | 0, _ => ⟨_, by simp [beSigned_length], computes_fixed h1 h2⟩
  | k + 1, h => by
    obtain ⟨bs, e, hb⟩ := computes_up h1 h2 k (by omega)
    exact ⟨_, by simp [e, bytes]; omega, computes_double hb ⟨h2, h, .inr h1⟩⟩

theorem computes_down {m : Nat} (h1 : 2 ^ 23 ≤ m) (h2 : m < 2 ^ 24) : ∀ k : Nat, k ≤ 133 →
    ∃ bs, bs.length = 5 + 3 * k ∧ Computes (.fin false m (133 - k)) bs
  | 0, _ => ⟨_, by simp [beSigned_length], computes_fixed h1 h2⟩
  | k + 1, h => by
    obtain ⟨bs, e, hb⟩ := computes_down h1 h2 k (by omega)
    rw [show 133 - k = 133 - (k + 1) + 1 by omega] at hb
    exact ⟨_, by simp [e, bytes]; omega, computes_half hb ⟨h2, by omega, .inr h1⟩⟩

theorem computes_normal {m e : Nat} (h1 : 2 ^ 23 ≤ m) (h2 : m < 2 ^ 24) (he : e ≤ 253) :
    ∃ bs, bs.length ≤ 404 ∧ Computes (.fin false m e) bs := by
  by_cases h : 133 ≤ e
  · obtain ⟨bs, e1, hb⟩ := computes_up h1 h2 (e - 133) (by omega)
    rw [show 133 + (e - 133) = e by omega] at hb
    exact ⟨bs, by omega, hb⟩
  · obtain ⟨bs, e1, hb⟩ := computes_down h1 h2 (133 - e) (by omega)
    rw [show 133 - (133 - e) = e by omega] at hb
    exact ⟨bs, by omega, hb⟩

theorem computes_small {m : Nat} (h : m < 2 ^ 23) : ∃ bs, bs.length ≤ 810 ∧ Computes (.fin false m 0) bs := by
  obtain ⟨bs, e1, hb⟩ := computes_normal (m := 2 ^ 23 + m) (e := 0) (by omega) (by omega) (by omega)
  obtain ⟨bs', e2, hb'⟩ := computes_normal (m := 2 ^ 23) (e := 0) (by omega) (by omega) (by omega)
  refine ⟨_, ?_, computes_binary hb hb' (op := .opSub) fun checks st => .sub st ?_⟩
  · simp [bytes]; omega
  · have e : val false (2 ^ 23 + m) 0 - val false (2 ^ 23) 0 = val false m 0 := by simp only [val]; push_cast; ring
    simp only [IsDifference, e]
    have h0 : 0 ≤ val false m 0 := by rw [val_false]; positivity
    split
    · rename_i hz
      have : m = 0 := by
        rw [val_false] at hz
        have h2 : ((m * 2 ^ 0 : ℕ) : ℚ) = 0 := by
          rcases div_eq_zero_iff.mp hz with h | h
          · exact h
          · norm_num at h
        have h3 : m * 2 ^ 0 = 0 := by exact_mod_cast h2
        simpa using h3
      subst this
      rfl
    · have := nearest_self (neg := false) (m := m) (e := 0) ⟨by omega, by omega, .inl rfl⟩
      rw [abs_of_nonneg h0, decide_eq_false (by linarith)]
      exact this

theorem computes_sign {x : F32} {n : Nat} (h : ∃ bs, bs.length ≤ n ∧ Computes x bs) : ∃ bs, bs.length ≤ n + 2 ∧ Computes (opposite x) bs := by
  obtain ⟨bs, e, hb⟩ := h
  exact ⟨_, by simp [bytes]; omega, computes_unary hb fun _ st => .neg st x⟩

theorem computes_byte {x : F32} (b : UInt8) (h1 : 32 ≤ b.toNat) (h2 : b.toNat ≤ 246) (h : F32.ofInt ((b.toNat : Int) - 139) = x) : Computes x [b] :=
  h ▸ computes_operand (operand_byte b h1 h2)

theorem computes_inf : ∃ bs, bs.length ≤ 900 ∧ Computes (.inf false) bs := by
  have h0 : Computes (.fin false 0 0) [139] := computes_byte 139 (by decide) (by decide) (by decide +kernel)
  have h1 : Computes (.fin false (2 ^ 23) 126) [140] := computes_byte 140 (by decide) (by decide) (by decide +kernel)
  refine ⟨_, ?_, computes_binary h1 h0 (op := .opDiv) fun checks st => .div st ?_⟩
  · simp [bytes]
  · simp only [IsQuotient]
    norm_num [val]

theorem computes_nan : ∃ bs, bs.length ≤ 900 ∧ Computes .nan bs := by
  have h0 : Computes (.fin false 0 0) [139] := computes_byte 139 (by decide) (by decide) (by decide +kernel)
  refine ⟨_, ?_, computes_binary h0 h0 (op := .opDiv) fun checks st => .div st ?_⟩
  · simp [bytes]
  · simp only [IsQuotient]
    norm_num [val]

/-- Every binary32 number can be computed. -/
theorem computes_any {x : F32} (h : x.WF) : ∃ bs, bs.length ≤ 1000 ∧ Computes x bs := by
  have sign : ∀ (s : Bool) {x y : F32} {n : Nat}, n ≤ 998 → (∃ bs, bs.length ≤ n ∧ Computes x bs) → y = (if s then opposite x else x) →
      ∃ bs, bs.length ≤ 1000 ∧ Computes y bs := by
    rintro s x y n hn hx rfl
    cases s
    · obtain ⟨bs, e, hb⟩ := hx
      exact ⟨bs, by omega, hb⟩
    · obtain ⟨bs, e, hb⟩ := computes_sign hx
      exact ⟨bs, by omega, hb⟩
  cases x with
  | nan =>
    obtain ⟨bs, e, hb⟩ := computes_nan
    exact ⟨bs, by omega, hb⟩
  | inf s => exact sign s (by omega) computes_inf (by cases s <;> rfl)
  | fin s m e =>
    obtain ⟨h1, h2, h3⟩ := h
    by_cases h4 : 2 ^ 23 ≤ m
    · exact sign s (by omega) (computes_normal h4 h1 h2) (by cases s <;> rfl)
    · obtain rfl : e = 0 := by omega
      exact sign s (by omega) (computes_small (m := m) (by omega)) (by cases s <;> rfl)

theorem computes_all : ∀ {xs : List F32}, (∀ x ∈ xs, x.WF) → ∃ bs, bs.length ≤ 1000 * xs.length ∧
    ∀ (checks : Bool) (σ : State) (rest : List UInt8), σ.code = bs ++ rest →
      Reach checks σ { σ with code := rest, stack := σ.stack ++ xs }
  | [], _ => ⟨[], by simp, fun checks σ rest hc => by
      have : ({ σ with code := rest, stack := σ.stack ++ [] } : State) = σ := by
        rw [List.nil_append] at hc
        cases σ
        simp_all
      rw [this]
      exact .refl⟩
  | x :: xs, h => by
    obtain ⟨b, h1, h2⟩ := computes_any (h x List.mem_cons_self)
    obtain ⟨bs, h3, h4⟩ := computes_all (xs := xs) fun y hy => h y (List.mem_cons_of_mem _ hy)
    refine ⟨b ++ bs, by simp only [List.length_append, List.length_cons]; omega, fun checks σ rest hc => ?_⟩
    rw [List.append_assoc] at hc
    have := (h2 checks σ _ hc).trans (h4 checks _ rest rfl)
    simpa using this

end PS.Type2.Showing
