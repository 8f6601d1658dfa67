import Verif.Lemmas.Arithmetic
import Verif.Lemmas.Type2Int
import Verif.Lemmas.Type2Clear
/-!
# Lemmas: the operators one by one
-/
namespace PS.Type2
open PS.Spec hiding Operand Operation
open PS.Type2.Spec
open F32

/-! ## Taking operands off the stack -/

theorem pop_snoc {cfg : Config} {s : Program} {st : List F32} {x : F32} (h : s.stack = st ++ [x]) :
    pop cfg s = (.ok x, { s with stack := st }) := by
  unfold pop
  rw [PM.bind_of_ok (a := s) (s' := s) rfl, show s.stack.getLast? = some x by simp [h]]
  simp only []
  rw [PM.bind_of_ok (a := ()) (s' := { s with stack := st }) (by simp [PM.modify, h])]
  rfl

theorem pop_nil {cfg : Config} {s : Program} (h : s.stack = []) :
    pop cfg s = (.err (.raised .expectedOperand), s) := by
  unfold pop
  rw [PM.bind_of_ok (a := s) (s' := s) rfl, h]
  rfl

theorem popBool_snoc {cfg : Config} {s : Program} {st : List F32} {x : F32} (h : s.stack = st ++ [x]) :
    popBool cfg s = (.ok (!(F32.beq x F32.zero)), { s with stack := st }) := by
  unfold popBool
  rw [PM.bind_of_ok (pop_snoc h)]
  rfl

theorem popBool_nil {cfg : Config} {s : Program} (h : s.stack = []) :
    popBool cfg s = (.err (.raised .expectedOperand), s) := by
  unfold popBool
  rw [PM.bind_of_err (pop_nil h)]

theorem popInt_ok {cfg : Config} {s : Program} {st : List F32} {x : F32} {i : Int} (h : s.stack = st ++ [x])
    (hx : x.WF) (hi : IntArg x i) : popInt cfg s = (.ok i, { s with stack := st }) := by
  obtain ⟨h1, h2⟩ := (intArg_iff hx).mpr hi
  unfold popInt
  rw [PM.bind_of_ok (a := s) (s' := s) rfl, show s.stack.getLast? = some x by simp [h]]
  simp only []
  rw [PM.bind_of_ok (a := ()) (s' := { s with stack := st }) (by simp [PM.modify, h])]
  rw [if_pos h1, h2]
  rfl

theorem popInt_err {cfg : Config} {s : Program} {st : List F32} {x : F32} (h : s.stack = st ++ [x])
    (hx : x.WF) (hi : ∀ i, ¬ IntArg x i) :
    popInt cfg s = (.err (.raised .expectedOtherOperand), { s with stack := st }) := by
  unfold popInt
  rw [PM.bind_of_ok (a := s) (s' := s) rfl, show s.stack.getLast? = some x by simp [h]]
  simp only []
  rw [PM.bind_of_ok (a := ()) (s' := { s with stack := st }) (by simp [PM.modify, h])]
  rw [if_neg]
  · rfl
  · intro hb
    exact hi _ ((intArg_iff hx).mp ⟨hb, rfl⟩)

theorem popInt_nil {cfg : Config} {s : Program} (h : s.stack = []) :
    popInt cfg s = (.err (.raised .expectedOtherOperand), s) := by
  unfold popInt
  rw [PM.bind_of_ok (a := s) (s' := s) rfl, h]
  rfl

theorem push_eq (x : F32) (cfg : Config) (s : Program) :
    push x cfg s = (.ok (), { s with stack := s.stack ++ [x] }) := rfl

theorem readStack_ok {cfg : Config} {s : Program} {st above : List F32} {x : F32} (h : s.stack = st ++ x :: above) :
    readStack above.length cfg s = (.ok x, s) := by
  unfold readStack
  rw [PM.bind_of_ok (a := s) (s' := s) rfl, h]
  rw [if_neg (by simp; omega)]
  have : (st ++ x :: above)[(st ++ x :: above).length - 1 - above.length]? = some x := by
    rw [show (st ++ x :: above).length - 1 - above.length = st.length by simp]
    simp
  rw [this]
  rfl

theorem readStack_err {cfg : Config} {s : Program} {i : Nat} (h : s.stack.length ≤ i) :
    readStack i cfg s = (.err (.raised .expectedMoreOperands), s) := by
  unfold readStack
  rw [PM.bind_of_ok (a := s) (s' := s) rfl, if_pos h]
  rfl

/-! ## Shapes of stacks -/

theorem snoc_cases (l : List F32) : l = [] ∨ ∃ st x, l = st ++ [x] := by
  rcases List.eq_nil_or_concat l with h | ⟨st, x, h⟩
  · exact .inl h
  · exact .inr ⟨st, x, by simpa using h⟩

theorem two_cases (l : List F32) : l.length < 2 ∨ ∃ st x y, l = st ++ [x, y] := by
  rcases snoc_cases l with rfl | ⟨st, y, rfl⟩
  · simp
  · rcases snoc_cases st with rfl | ⟨st, x, rfl⟩
    · simp
    · exact .inr ⟨st, x, y, by simp⟩

/-- Two operands are popped one after the other. -/
theorem pop_two {cfg : Config} {s : Program} {st : List F32} {x y : F32} (h : s.stack = st ++ [x, y]) (f : F32 → F32 → PM α) :
    (do let right ← pop; let left ← pop; f right left : PM α) cfg s = f y x cfg { s with stack := st } := by
  rw [PM.bind_of_ok (pop_snoc (st := st ++ [x]) (x := y) (by simp [h])), PM.bind_of_ok (pop_snoc (st := st) (x := x) rfl)]

theorem pop_two_short {cfg : Config} {s : Program} (h : s.stack.length < 2) (f : F32 → F32 → PM α) :
    ∃ s', (do let right ← pop; let left ← pop; f right left : PM α) cfg s = (.err (.raised .expectedOperand), s') := by
  rcases snoc_cases s.stack with h0 | ⟨st, y, h1⟩
  · exact ⟨_, PM.bind_of_err (pop_nil h0)⟩
  · have : st = [] := by
      rw [h1] at h
      simp only [List.length_append, List.length_cons, List.length_nil] at h
      exact List.length_eq_zero_iff.mp (by omega)
    subst this
    rw [PM.bind_of_ok (pop_snoc h1)]
    exact ⟨_, PM.bind_of_err (pop_nil rfl)⟩

theorem popBool_two {cfg : Config} {s : Program} {st : List F32} {x y : F32} (h : s.stack = st ++ [x, y])
    (f : Bool → Bool → PM α) :
    (do let right ← popBool; let left ← popBool; f right left : PM α) cfg s =
      f (!(F32.beq y F32.zero)) (!(F32.beq x F32.zero)) cfg { s with stack := st } := by
  rw [PM.bind_of_ok (popBool_snoc (st := st ++ [x]) (x := y) (by simp [h])),
    PM.bind_of_ok (popBool_snoc (st := st) (x := x) rfl)]

theorem popBool_two_short {cfg : Config} {s : Program} (h : s.stack.length < 2) (f : Bool → Bool → PM α) :
    ∃ s', (do let right ← popBool; let left ← popBool; f right left : PM α) cfg s =
      (.err (.raised .expectedOperand), s') := by
  rcases snoc_cases s.stack with h0 | ⟨st, y, h1⟩
  · exact ⟨_, PM.bind_of_err (popBool_nil h0)⟩
  · have : st = [] := by
      rw [h1] at h
      simp only [List.length_append, List.length_cons, List.length_nil] at h
      exact List.length_eq_zero_iff.mp (by omega)
    subst this
    rw [PM.bind_of_ok (popBool_snoc h1)]
    exact ⟨_, PM.bind_of_err (popBool_nil rfl)⟩

theorem abs_eq (x : F32) : x.abs = absolute x := by cases x <;> rfl

theorem neg_eq (x : F32) : x.neg = opposite x := by cases x <;> rfl

theorem truth_eq (b : Bool) : truth b = if b then F32.one else F32.zero := by
  cases b <;> decide +kernel

theorem isTrue_iff {x : F32} : IsTrue x ↔ F32.beq x F32.zero = false := by
  rcases x with _ | s | ⟨s, m, e⟩
  · simp [IsTrue, F32.beq]
  · simp [IsTrue, F32.beq, F32.zero]
  · have h : IsTrue (.fin s m e) ↔ val s m e ≠ 0 := by
      constructor
      · intro h; exact h s m e rfl
      · rintro h _ _ _ ⟨⟩; exact h
    rw [h, ← Bool.not_eq_true, ← equal_iff]
    simp [Equal, F32.zero, val]

theorem intArg_unique {x : F32} (hx : x.WF) {i j : Int} (h : IntArg x i) (h' : IntArg x j) : i = j := by
  have h1 := (intArg_iff hx).mpr h
  have h2 := (intArg_iff hx).mpr h'
  rw [← h1.2, h2.2]

/-! ## Rolling -/

theorem rolled_zero (as : List F32) : Rolled 0 as as := by
  refine ⟨rfl, fun i hi => ?_⟩
  rw [Int.add_zero, Int.emod_eq_of_lt (by omega) (by exact_mod_cast hi)]
  simp

theorem rolled_trans {j k : Int} {as bs cs : List F32} (h : Rolled j as bs) (h' : Rolled k bs cs) : Rolled (j + k) as cs := by
  obtain ⟨h1, h2⟩ := h
  obtain ⟨h3, h4⟩ := h'
  refine ⟨by omega, fun i hi => ?_⟩
  have hn : (0 : Int) < as.length := by exact_mod_cast (by omega : 0 < as.length)
  have h5 := Int.emod_nonneg (i + j) hn.ne'
  have h6 := Int.emod_lt_of_pos (i + j) hn
  have := h4 ((i + j) % as.length).toNat (by omega)
  rw [Int.toNat_of_nonneg h5, h1, Int.emod_add_emod, Int.add_assoc] at this
  rw [this, h2 i hi]

theorem rolled_up (as : List F32) (x : F32) : Rolled 1 (as ++ [x]) (x :: as) := by
  refine ⟨by simp, fun i hi => ?_⟩
  simp only [List.length_append, List.length_cons, List.length_nil] at hi ⊢
  by_cases h : i = as.length
  · subst h
    simp
  · have : (((i : Int) + 1) % ((as.length + (0 + 1) : Nat) : Int)).toNat = i + 1 := by
      rw [Int.emod_eq_of_lt (by omega) (by omega)]
      omega
    rw [this]
    simp only [List.getElem?_cons_succ]
    rw [List.getElem?_append_left (by omega)]

theorem rolled_down (as : List F32) (x : F32) : Rolled (-1) (x :: as) (as ++ [x]) := by
  refine ⟨by simp, fun i hi => ?_⟩
  simp only [List.length_cons] at hi ⊢
  cases i with
  | zero =>
    have : (((0 : Nat) : Int) + -1) % ((as.length + 1 : Nat) : Int) = as.length := by
      rw [← Int.add_emod_right, Int.emod_eq_of_lt (by push_cast; omega) (by push_cast; omega)]
      push_cast; omega
    rw [this]
    simp
  | succ i =>
    have : (((i + 1 : Nat) : Int) + -1) % ((as.length + 1 : Nat) : Int) = i := by
      rw [Int.emod_eq_of_lt (by push_cast; omega) (by push_cast; omega)]
      push_cast; omega
    rw [this, Int.toNat_natCast, List.getElem?_cons_succ, List.getElem?_append_left (by omega)]

theorem rolled_unique {j : Int} {as bs cs : List F32} (h : Rolled j as bs) (h' : Rolled j as cs) : bs = cs := by
  obtain ⟨h1, h2⟩ := h
  obtain ⟨h3, h4⟩ := h'
  apply List.ext_getElem?
  intro p
  by_cases hp : p < as.length
  · have hn : (0 : Int) < as.length := by exact_mod_cast (by omega : 0 < as.length)
    have h5 := Int.emod_nonneg ((p : Int) - j) hn.ne'
    have h6 := Int.emod_lt_of_pos ((p : Int) - j) hn
    have e : ((((((p : Int) - j) % as.length).toNat : Int) + j) % as.length).toNat = p := by
      rw [Int.toNat_of_nonneg h5, Int.emod_add_emod, Int.sub_add_cancel, Int.emod_eq_of_lt (by omega) (by exact_mod_cast hp)]
      simp
    have a1 := h2 (((p : Int) - j) % as.length).toNat (by omega)
    have a2 := h4 (((p : Int) - j) % as.length).toNat (by omega)
    rw [e] at a1 a2
    rw [a1, a2]
  · rw [List.getElem?_eq_none (by omega), List.getElem?_eq_none (by omega)]

theorem rollUp_eq {cfg : Config} {s : Program} {st as : List F32} {x : F32} (h : s.stack = st ++ (as ++ [x])) :
    rollUp st.length cfg s = (.ok (), { s with stack := st ++ (x :: as) }) := by
  unfold rollUp
  rw [PM.bind_of_ok (pop_snoc (st := st ++ as) (x := x) (by simp [h])), PM.bind_of_ok rfl]
  rw [if_pos (by simp)]
  simp [PM.modify]

theorem rollDown_eq {cfg : Config} {s : Program} {st as : List F32} {x : F32} (h : s.stack = st ++ (x :: as)) :
    rollDown st.length cfg s = (.ok (), { s with stack := st ++ (as ++ [x]) }) := by
  unfold rollDown
  rw [PM.bind_of_ok (a := s) (s' := s) rfl, h]
  have : (st ++ x :: as)[st.length]? = some x := by simp
  rw [this]
  simp only []
  rw [PM.bind_of_ok (a := ()) (s' := { s with stack := st ++ as }) ?_]
  · simp [push_eq]
  · simp [PM.modify, h, List.eraseIdx_append_of_length_le]

theorem times_up {cfg : Config} (k : Nat) {s : Program} {st as : List F32} (h : s.stack = st ++ as) (h0 : as ≠ []) :
    ∃ bs, Rolled k as bs ∧ times k (rollUp st.length) cfg s = (.ok (), { s with stack := st ++ bs }) := by
  induction k generalizing s as with
  | zero => exact ⟨as, rolled_zero as, by rw [times, ← h]; rfl⟩
  | succ k ih =>
    obtain ⟨as, x, rfl⟩ : ∃ l x, as = l ++ [x] := by
      rcases snoc_cases as with h' | h'
      · exact absurd h' h0
      · exact h'
    obtain ⟨bs, h1, h2⟩ := ih (s := { s with stack := st ++ (x :: as) }) (as := x :: as) rfl (by simp)
    refine ⟨bs, ?_, ?_⟩
    · have := rolled_trans (rolled_up as x) h1
      rwa [Int.add_comm] at this
    · rw [times, PM.bind_of_ok (rollUp_eq h), h2]

theorem times_down {cfg : Config} (k : Nat) {s : Program} {st as : List F32} (h : s.stack = st ++ as) (h0 : as ≠ []) :
    ∃ bs, Rolled (-k) as bs ∧ times k (rollDown st.length) cfg s = (.ok (), { s with stack := st ++ bs }) := by
  induction k generalizing s as with
  | zero => exact ⟨as, rolled_zero as, by rw [times, ← h]; rfl⟩
  | succ k ih =>
    obtain ⟨x, as, rfl⟩ : ∃ x l, as = x :: l := by
      rcases as with _ | ⟨x, l⟩
      · exact absurd rfl h0
      · exact ⟨x, l, rfl⟩
    obtain ⟨bs, h1, h2⟩ := ih (s := { s with stack := st ++ (as ++ [x]) }) (as := as ++ [x]) rfl (by simp)
    refine ⟨bs, ?_, ?_⟩
    · have := rolled_trans (rolled_down as x) h1
      rwa [show (-1 : Int) + -(k : Int) = -((k + 1 : Nat) : Int) by push_cast; omega] at this
    · rw [times, PM.bind_of_ok (rollDown_eq h), h2]

/-- Rolling by anything but the least integer. -/
theorem roll_ok {cfg : Config} {s : Program} {st as : List F32} {x y : F32} {n j : Int}
    (h : s.stack = st ++ as ++ [x, y]) (hx : x.WF) (hy : y.WF) (hn : IntArg x n) (hj : IntArg y j)
    (hl : n = as.length) (hne : j ≠ -2 ^ 31 ∨ n = 0) :
    ∃ bs, Rolled j as bs ∧ roll cfg s = (.ok (), { s with stack := st ++ bs }) := by
  unfold roll
  rw [PM.bind_of_ok (popInt_ok (st := st ++ as ++ [x]) (by simp [h]) hy hj),
    PM.bind_of_ok (popInt_ok (st := st ++ as) rfl hx hn), PM.bind_of_ok rfl]
  simp only []
  rw [if_neg (by omega), if_neg (by rw [hl]; simp)]
  by_cases h0 : as = []
  · subst h0
    rw [if_neg (by simp [hl])]
    exact ⟨[], ⟨rfl, by simp⟩, by simp; rfl⟩
  · have := List.length_pos_of_ne_nil h0
    have hpos : (st ++ as).length - n.toNat = st.length := by rw [hl]; simp
    rw [if_pos (by omega), hpos]
    have hj31 : j ≠ -2 ^ 31 := hne.resolve_right (by omega)
    by_cases h1 : j > 0
    · rw [if_pos h1]
      obtain ⟨bs, hr, ht⟩ := times_up (cfg := cfg) j.toNat (s := { s with stack := st ++ as }) (st := st) (as := as) rfl h0
      rw [Int.toNat_of_nonneg (by omega)] at hr
      exact ⟨bs, hr, ht⟩
    · rw [if_neg h1]
      by_cases h2 : j < 0
      · rw [if_pos h2]
        obtain ⟨bs, hr, ht⟩ := times_down (cfg := cfg) (-j).toNat (s := { s with stack := st ++ as }) (st := st) (as := as) rfl h0
        rw [Int.toNat_of_nonneg (by omega), Int.neg_neg] at hr
        refine ⟨bs, hr, ?_⟩
        rw [PM.bind_of_ok rfl, PM.bind_of_ok (a := -j) (s' := { s with stack := st ++ as })]
        · exact ht
        · unfold PM.ofRes negI32
          rw [if_neg hj31]
      · rw [if_neg h2]
        obtain rfl : j = 0 := by omega
        exact ⟨as, rolled_zero as, rfl⟩

theorem roll_least {cfg : Config} {s : Program} {st as : List F32} {x y : F32} {n : Int}
    (h : s.stack = st ++ as ++ [x, y]) (hx : x.WF) (hy : y.WF) (hn : IntArg x n) (hj : IntArg y (-2 ^ 31))
    (hl : n = as.length) (hne : n ≠ 0) :
    roll cfg s = (if cfg.checks then .panic .overflow else .ok (), { s with stack := st ++ as }) := by
  unfold roll
  rw [PM.bind_of_ok (popInt_ok (st := st ++ as ++ [x]) (by simp [h]) hy hj),
    PM.bind_of_ok (popInt_ok (st := st ++ as) rfl hx hn), PM.bind_of_ok rfl]
  simp only []
  rw [if_neg (by omega), if_neg (by rw [hl]; simp), if_pos (by omega), if_neg (by norm_num), if_pos (by norm_num)]
  rw [PM.bind_of_ok rfl]
  rcases hc : cfg.checks with _ | _
  · rw [PM.bind_of_ok (a := -2 ^ 31) (s' := { s with stack := st ++ as }) (by simp [PM.ofRes, negI32])]
    rfl
  · rw [PM.bind_of_panic (e := .overflow) (s' := { s with stack := st ++ as }) (by simp [PM.ofRes, negI32])]
    rfl

/-- What makes rolling an error: a missing or non-integer argument, a negative
number of operands, or fewer operands than asked for. -/
theorem roll_err {cfg : Config} {s : Program} (hw : ∀ x ∈ s.stack, x.WF)
    (h : ¬ ∃ st as x y n j, s.stack = st ++ as ++ [x, y] ∧ IntArg x n ∧ IntArg y j ∧ n = (as.length : Int)) :
    ∃ r s', roll cfg s = (.err (.raised r), s') := by
  unfold roll
  rcases snoc_cases s.stack with h0 | ⟨st, y, hy⟩
  · exact ⟨_, _, PM.bind_of_err (popInt_nil h0)⟩
  have hyw : y.WF := hw y (by simp [hy])
  by_cases hj : ∃ j, IntArg y j
  swap
  · exact ⟨_, _, PM.bind_of_err (popInt_err hy hyw (fun i hi => hj ⟨i, hi⟩))⟩
  obtain ⟨j, hj⟩ := hj
  rw [PM.bind_of_ok (popInt_ok hy hyw hj)]
  rcases snoc_cases st with rfl | ⟨st, x, rfl⟩
  · exact ⟨_, _, PM.bind_of_err (popInt_nil rfl)⟩
  have hxw : x.WF := hw x (by simp [hy])
  by_cases hn : ∃ n, IntArg x n
  swap
  · exact ⟨_, _, PM.bind_of_err (popInt_err rfl hxw (fun i hi => hn ⟨i, hi⟩))⟩
  obtain ⟨n, hn⟩ := hn
  rw [PM.bind_of_ok (popInt_ok rfl hxw hn), PM.bind_of_ok rfl]
  simp only []
  by_cases h1 : n < 0
  · rw [if_pos h1]; exact ⟨_, _, rfl⟩
  rw [if_neg h1]
  by_cases h2 : n.toNat > st.length
  · rw [if_pos h2]; exact ⟨_, _, rfl⟩
  · exfalso
    refine h ⟨st.take (st.length - n.toNat), st.drop (st.length - n.toNat), x, y, n, j, ?_, hn, hj, ?_⟩
    · simp [hy]
    · simp; omega

end PS.Type2
