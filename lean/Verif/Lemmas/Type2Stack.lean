import Verif.Lemmas.Type2Ops
/-!
# Lemmas: arithmetic, conditional and stack operators
-/
namespace PS.Type2
open PS.Spec hiding Operand Operation
open PS.Type2.Spec
open F32

/-- The operators on the operand stack. -/
def isStackOp : Operator → Bool
  | .opAbs | .opNeg | .opSqrt | .opAdd | .opSub | .opMul | .opDiv | .opDrop | .opExch | .opDup | .opIndex | .opRoll
  | .opAnd | .opOr | .opNot | .opEq | .opIfElse => true
  | _ => false

/-- The stack asks for rolling at least one operand by the least integer. -/
def LeastRoll (stack : List F32) : Prop :=
  ∃ st as x y n, stack = st ++ as ++ [x, y] ∧ IntArg x n ∧ IntArg y (-2 ^ 31) ∧ n = (as.length : Int) ∧ n ≠ 0

theorem stackOp_isStackOp {c : Bool} {op : Operator} {st st' : List F32} (h : StackOp c op st st') : isStackOp op = true := by
  cases h <;> rfl

theorem four_cases (l : List F32) : l.length < 4 ∨ ∃ st a b c d, l = st ++ [a, b, c, d] := by
  rcases two_cases l with h | ⟨st, c, d, rfl⟩
  · left; omega
  · rcases two_cases st with h | ⟨st, a, b, rfl⟩
    · left; simp; omega
    · exact .inr ⟨st, a, b, c, d, by simp⟩

theorem f32_add_comm (x y : F32) : F32.add x y = F32.add y x := by
  rcases x with _ | s | ⟨s, m, e⟩ <;> rcases y with _ | t | ⟨t, n, f⟩ <;> simp only [F32.add]
  · by_cases h : s = t
    · subst h; rfl
    · rw [if_neg h, if_neg (Ne.symm h)]
  · rw [Int.add_comm, Bool.and_comm]

theorem f32_mul_comm (x y : F32) : F32.mul x y = F32.mul y x := by
  rcases x with _ | s | ⟨s, m, e⟩ <;> rcases y with _ | t | ⟨t, n, f⟩ <;> simp only [F32.mul]
  all_goals rw [Bool.xor_comm]
  rw [Nat.mul_comm]

/-- What a stack operator does. -/
theorem dispatch_stack (cfg : Config) {op : Operator} (hop : isStackOp op = true) {s : Program} (hw : ∀ x ∈ s.stack, x.WF) :
    (∃ st, StackOp cfg.checks op s.stack st ∧ dispatch op cfg s = (.ok .again, { s with stack := st })) ∨
    ((∃ r s', dispatch op cfg s = (.err (.raised r), s')) ∨
      (op = .opRoll ∧ LeastRoll s.stack ∧ cfg.checks = true ∧ ∃ s', dispatch op cfg s = (.panic .overflow, s'))) := by
  cases op <;> first | (exact absurd hop (by decide)) | skip
  case opAbs =>
    rcases snoc_cases s.stack with h | ⟨st, x, h⟩
    · exact .inr (.inl ⟨_, _, PM.bind_of_err (pop_nil h)⟩)
    · refine .inl ⟨_, by rw [h]; exact .abs st x, ?_⟩
      unfold dispatch
      simp only [PM.bind_of_ok (pop_snoc h), PM.bind_of_ok (push_eq _ _ _)]
      rw [abs_eq]
      rfl
  case opNeg =>
    rcases snoc_cases s.stack with h | ⟨st, x, h⟩
    · exact .inr (.inl ⟨_, _, PM.bind_of_err (pop_nil h)⟩)
    · refine .inl ⟨_, by rw [h]; exact .neg st x, ?_⟩
      unfold dispatch
      simp only [PM.bind_of_ok (pop_snoc h), PM.bind_of_ok (push_eq _ _ _)]
      rw [neg_eq]
      rfl
  case opSqrt =>
    rcases snoc_cases s.stack with h | ⟨st, x, h⟩
    · exact .inr (.inl ⟨_, _, PM.bind_of_err (pop_nil h)⟩)
    · refine .inl ⟨_, by rw [h]; exact .sqrt st ((root_iff (hw x (by simp [h]))).mpr rfl), ?_⟩
      unfold dispatch
      simp only [PM.bind_of_ok (pop_snoc h), PM.bind_of_ok (push_eq _ _ _)]
      rfl
  case opDrop =>
    rcases snoc_cases s.stack with h | ⟨st, x, h⟩
    · exact .inr (.inl ⟨_, _, PM.bind_of_err (pop_nil h)⟩)
    · refine .inl ⟨_, by rw [h]; exact .drop st x, ?_⟩
      unfold dispatch
      simp only [PM.bind_of_ok (pop_snoc h)]
      rfl
  case opNot =>
    rcases snoc_cases s.stack with h | ⟨st, x, h⟩
    · exact .inr (.inl ⟨_, _, PM.bind_of_err (popBool_nil h)⟩)
    · refine .inl ⟨_, by rw [h]; exact .not st x, ?_⟩
      unfold dispatch pushBool
      simp only [PM.bind_of_ok (popBool_snoc h), PM.bind_of_ok (push_eq _ _ _)]
      have : ∀ inst : Decidable (¬ IsTrue x), truth (@decide (¬ IsTrue x) inst) =
          if (!(!(F32.beq x F32.zero))) = true then F32.one else F32.zero := by
        intro inst
        simp only [isTrue_iff] at inst ⊢
        rw [truth_eq]
        by_cases hx : F32.beq x F32.zero = true <;> simp [hx]
      rw [this]
      rfl
  case opAdd =>
    rcases two_cases s.stack with h | ⟨st, x, y, h⟩
    · obtain ⟨s', h'⟩ := pop_two_short (cfg := cfg) h (fun right left => do push (F32.add right left); PM.pure .again : F32 → F32 → PM Flow)
      exact .inr (.inl ⟨_, _, h'⟩)
    · refine .inl ⟨_, by rw [h]; exact .add st (sum_iff.mpr rfl), ?_⟩
      unfold dispatch
      simp only [pop_two h, PM.bind_of_ok (push_eq _ _ _)]
      rw [f32_add_comm y x]
      rfl
  case opSub =>
    rcases two_cases s.stack with h | ⟨st, x, y, h⟩
    · obtain ⟨s', h'⟩ := pop_two_short (cfg := cfg) h (fun right left => do push (F32.sub left right); PM.pure .again : F32 → F32 → PM Flow)
      exact .inr (.inl ⟨_, _, h'⟩)
    · refine .inl ⟨_, by rw [h]; exact .sub st (difference_iff.mpr rfl), ?_⟩
      unfold dispatch
      simp only [pop_two h, PM.bind_of_ok (push_eq _ _ _)]
      rfl
  case opMul =>
    rcases two_cases s.stack with h | ⟨st, x, y, h⟩
    · obtain ⟨s', h'⟩ := pop_two_short (cfg := cfg) h (fun right left => do push (F32.mul right left); PM.pure .again : F32 → F32 → PM Flow)
      exact .inr (.inl ⟨_, _, h'⟩)
    · refine .inl ⟨_, by rw [h]; exact .mul st (product_iff.mpr rfl), ?_⟩
      unfold dispatch
      simp only [pop_two h, PM.bind_of_ok (push_eq _ _ _)]
      rw [f32_mul_comm y x]
      rfl
  case opDiv =>
    rcases two_cases s.stack with h | ⟨st, x, y, h⟩
    · obtain ⟨s', h'⟩ := pop_two_short (cfg := cfg) h (fun right left => do push (F32.div left right); PM.pure .again : F32 → F32 → PM Flow)
      exact .inr (.inl ⟨_, _, h'⟩)
    · refine .inl ⟨_, by rw [h]; exact .div st (quotient_iff.mpr rfl), ?_⟩
      unfold dispatch
      simp only [pop_two h, PM.bind_of_ok (push_eq _ _ _)]
      rfl
  case opExch =>
    rcases two_cases s.stack with h | ⟨st, x, y, h⟩
    · obtain ⟨s', h'⟩ := pop_two_short (cfg := cfg) h (fun right left => do push right; push left; PM.pure .again : F32 → F32 → PM Flow)
      exact .inr (.inl ⟨_, _, h'⟩)
    · refine .inl ⟨_, by rw [h]; exact .exch st x y, ?_⟩
      unfold dispatch
      simp only [pop_two h, PM.bind_of_ok (push_eq _ _ _)]
      simp [PM.pure]
  case opEq =>
    rcases two_cases s.stack with h | ⟨st, x, y, h⟩
    · obtain ⟨s', h'⟩ := pop_two_short (cfg := cfg) h (fun right left => do pushBool (F32.beq left right); PM.pure .again : F32 → F32 → PM Flow)
      exact .inr (.inl ⟨_, _, h'⟩)
    · refine .inl ⟨_, by rw [h]; exact .eq st x y, ?_⟩
      unfold dispatch pushBool
      simp only [pop_two h, PM.bind_of_ok (push_eq _ _ _)]
      have : ∀ inst : Decidable (Equal x y), truth (@decide (Equal x y) inst) =
          if F32.beq x y = true then F32.one else F32.zero := by
        intro inst
        rw [truth_eq]
        simp only [decide_eq_true_eq, equal_iff]
      rw [this]
      rfl
  case opAnd =>
    rcases two_cases s.stack with h | ⟨st, x, y, h⟩
    · obtain ⟨s', h'⟩ := popBool_two_short (cfg := cfg) h (fun right left => do pushBool (left && right); PM.pure .again : Bool → Bool → PM Flow)
      exact .inr (.inl ⟨_, _, h'⟩)
    · refine .inl ⟨_, by rw [h]; exact .and st x y, ?_⟩
      unfold dispatch pushBool
      simp only [popBool_two h, PM.bind_of_ok (push_eq _ _ _)]
      have : ∀ inst : Decidable (IsTrue x ∧ IsTrue y), truth (@decide (IsTrue x ∧ IsTrue y) inst) =
          if (!(F32.beq x F32.zero) && !(F32.beq y F32.zero)) = true then F32.one else F32.zero := by
        intro inst
        simp only [isTrue_iff] at inst ⊢
        rw [truth_eq]
        by_cases hx : F32.beq x F32.zero = true <;> by_cases hy : F32.beq y F32.zero = true <;> simp [hx, hy]
      rw [this]
      rfl
  case opOr =>
    rcases two_cases s.stack with h | ⟨st, x, y, h⟩
    · obtain ⟨s', h'⟩ := popBool_two_short (cfg := cfg) h (fun right left => do pushBool (left || right); PM.pure .again : Bool → Bool → PM Flow)
      exact .inr (.inl ⟨_, _, h'⟩)
    · refine .inl ⟨_, by rw [h]; exact .or st x y, ?_⟩
      unfold dispatch pushBool
      simp only [popBool_two h, PM.bind_of_ok (push_eq _ _ _)]
      have : ∀ inst : Decidable (IsTrue x ∨ IsTrue y), truth (@decide (IsTrue x ∨ IsTrue y) inst) =
          if (!(F32.beq x F32.zero) || !(F32.beq y F32.zero)) = true then F32.one else F32.zero := by
        intro inst
        simp only [isTrue_iff] at inst ⊢
        rw [truth_eq]
        by_cases hx : F32.beq x F32.zero = true <;> by_cases hy : F32.beq y F32.zero = true <;> simp [hx, hy]
      rw [this]
      rfl
  case opIfElse =>
    rcases two_cases s.stack with h | ⟨st, v1, v2, h⟩
    · obtain ⟨s', h'⟩ := pop_two_short (cfg := cfg) h (fun right left => do
          let no ← pop
          let yes ← pop
          push (if F32.le left right then yes else no)
          PM.pure .again : F32 → F32 → PM Flow)
      exact .inr (.inl ⟨_, _, h'⟩)
    · rcases two_cases st with h2 | ⟨st, s1, s2, rfl⟩
      · obtain ⟨s', h'⟩ := pop_two_short (cfg := cfg) (s := { s with stack := st }) h2 (fun no yes => do
          push (if F32.le v1 v2 then yes else no)
          PM.pure .again : F32 → F32 → PM Flow)
        refine .inr (.inl ⟨.expectedOperand, s', ?_⟩)
        unfold dispatch
        simp only [pop_two h]
        exact h'
      · refine .inl ⟨_, by rw [h, show st ++ [s1, s2] ++ [v1, v2] = st ++ [s1, s2, v1, v2] by simp]; exact .ifElse st s1 s2 v1 v2, ?_⟩
        unfold dispatch
        simp only [pop_two h]
        rw [pop_two (s := { s with stack := st ++ [s1, s2] }) rfl]
        simp only [PM.bind_of_ok (push_eq _ _ _)]
        have : ∀ inst : Decidable (LessEqual v1 v2), @ite _ (LessEqual v1 v2) inst s1 s2 =
            if F32.le v1 v2 = true then s1 else s2 := by
          intro inst
          simp only [lessEqual_iff]
        rw [this]
        rfl
  case opDup =>
    rcases snoc_cases s.stack with h | ⟨st, x, h⟩
    · exact .inr (.inl ⟨_, _, PM.bind_of_err (readStack_err (by simp [h]))⟩)
    · refine .inl ⟨_, by rw [h]; exact .dup st x, ?_⟩
      have hr : readStack 0 cfg s = (.ok x, s) := readStack_ok (above := []) h
      refine (PM.bind_of_ok hr).trans ?_
      rw [PM.bind_of_ok (push_eq _ _ _)]
      simp [PM.pure, h]
  case opIndex =>
    rcases snoc_cases s.stack with h | ⟨st, n, h⟩
    · exact .inr (.inl ⟨_, _, PM.bind_of_err (popInt_nil h)⟩)
    have hnw : n.WF := hw n (by simp [h])
    by_cases hi : ∃ i, IntArg n i
    swap
    · exact .inr (.inl ⟨_, _, PM.bind_of_err (popInt_err h hnw (fun i hi' => hi ⟨i, hi'⟩))⟩)
    obtain ⟨i, hi⟩ := hi
    unfold dispatch
    simp only [PM.bind_of_ok (popInt_ok h hnw hi)]
    by_cases hlen : st.length ≤ (if i ≥ 0 then i.toNat else 0)
    · exact .inr (.inl ⟨_, _, PM.bind_of_err (readStack_err (s := { s with stack := st }) hlen)⟩)
    · generalize hk : (if i ≥ 0 then i.toNat else 0) = k at hlen ⊢
      have hk' : k < st.length := by omega
      obtain ⟨a, x, above, rfl, hab⟩ : ∃ a x above, st = a ++ x :: above ∧ above.length = k := by
        refine ⟨st.take (st.length - 1 - k), st[st.length - 1 - k], st.drop (st.length - k), ?_, by simp; omega⟩
        have h1 : st.drop (st.length - 1 - k) = st[st.length - 1 - k] :: st.drop (st.length - k) := by
          rw [List.drop_eq_getElem_cons (by omega)]
          congr 2
          omega
        rw [← h1, List.take_append_drop]
      subst hab
      rw [PM.bind_of_ok (readStack_ok (s := { s with stack := a ++ x :: above }) rfl), PM.bind_of_ok (push_eq _ _ _)]
      refine .inl ⟨a ++ x :: above ++ [x], ?_, rfl⟩
      rw [h]
      by_cases h0 : i ≥ 0
      · rw [if_pos h0] at hk
        exact .index a above x n hi (by omega)
      · rw [if_neg h0] at hk
        have : above = [] := List.length_eq_zero_iff.mp hk.symm
        subst this
        have := StackOp.indexNegative (checks := cfg.checks) a x n hi (by omega)
        simpa using this
  case opRoll =>
    unfold dispatch
    by_cases h : ∃ st as x y n j, s.stack = st ++ as ++ [x, y] ∧ IntArg x n ∧ IntArg y j ∧ n = (as.length : Int)
    · obtain ⟨st, as, x, y, n, j, h, hn, hj, hl⟩ := h
      have hxw : x.WF := hw x (by simp [h])
      have hyw : y.WF := hw y (by simp [h])
      by_cases hne : j ≠ -2 ^ 31 ∨ n = 0
      · obtain ⟨bs, hr, he⟩ := roll_ok (cfg := cfg) h hxw hyw hn hj hl hne
        refine .inl ⟨st ++ bs, by rw [h]; exact .roll st as bs x y hn hj hl hne hr, ?_⟩
        simp only [PM.bind_of_ok he]
        rfl
      · push Not at hne
        obtain ⟨rfl, hne⟩ := hne
        have he := roll_least (cfg := cfg) h hxw hyw hn hj hl hne
        rcases hc : cfg.checks with _ | _
        · rw [hc] at he
          refine .inl ⟨st ++ as, by rw [h]; exact .rollLeast st as x y rfl hn hj hl, ?_⟩
          simp only [PM.bind_of_ok he]
          rfl
        · rw [hc] at he
          refine .inr (.inr ⟨rfl, ⟨st, as, x, y, n, h, hn, hj, hl, hne⟩, rfl, _, PM.bind_of_panic he⟩)
    · obtain ⟨r, s', he⟩ := roll_err (cfg := cfg) hw h
      exact .inr (.inl ⟨r, s', PM.bind_of_err he⟩)

end PS.Type2
