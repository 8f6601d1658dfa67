import Verif.Props.Type2Run
/-!
# Properties C43–C45: operators on the stack and calls
-/
namespace PS.Type2
open PS.Spec hiding Operand Operation
open PS.Type2.Spec

/-- The state in which the operator that is ahead is executed. -/
abbrev reached (s : Program) (xs : List F32) (op : Operator) (rest : List UInt8) : State :=
  { view s with code := bytes op ++ rest, stack := s.stack ++ xs }

theorem ahead_pushes {s : Program} {xs : List F32} {op : Operator} {rest : List UInt8} (h : Ahead s xs op rest) :
    Pushes (view s) (reached s xs op rest) := by
  obtain ⟨bs, hx, hl⟩ := h
  exact pushes_iff.mpr ⟨xs, bs, hx, by rw [← List.append_assoc]; exact hl, rfl⟩

theorem quiet_continues {cfg : Config} {s : Program} (hs : Sound s) {xs : List F32} {op : Operator} {rest : List UInt8}
    (h : Ahead s xs op rest) {σ : State} (hq : Quiet cfg.checks (reached s xs op rest) σ) : Continues cfg s σ := by
  obtain ⟨s1, h1, h2, h3⟩ := turns_steps (.single ⟨_, ahead_pushes h, hq⟩) rfl hs
  exact ⟨s1, h2, h1, h3⟩

/-- If nothing comes of the operator that is ahead, there is an error or a panic. -/
theorem blocked {cfg : Config} {s : Program} (hs : Sound s) {xs : List F32} {op : Operator} {rest : List UInt8}
    (h : Ahead s xs op rest) (hst : Stuck cfg.checks (reached s xs op rest)) :
    (∃ r t, Next cfg s (.err (.raised r)) t) ∨ (Mask op ∧ Fails cfg s) ∨
    (Mask op ∧ cfg.prealloc = true ∧ ∃ t, Next cfg s (.panic .capacity) t) ∨
    (((op = .opRoll ∧ LeastRoll (s.stack ++ xs)) ∨ (op = .opCallSubr ∧ FarCall (s.stack ++ xs) s.local.length) ∨
      (op = .opCallGSubr ∧ FarCall (s.stack ++ xs) s.global.length)) ∧ cfg.checks = true ∧
      ∃ t, Next cfg s (.panic .overflow) t) := by
  obtain ⟨bs, hx, hl⟩ := h
  have he := step_fetch (cfg := cfg) hx hl
  obtain ⟨h1, h2⟩ := fetched hs hx hl
  rcases dispatch_cases cfg op h1 with ⟨s', _, hq, _⟩ | ⟨o, s', _, hq, _⟩ | ⟨s', _, hq, _⟩ |
    ⟨_, ⟨r, s', h'⟩ | ⟨hm, _, s', h'⟩ | ⟨hm, _, hp, s', h'⟩ | ⟨hc, hck, s', h'⟩⟩
  · rw [h2] at hq; exact absurd hq (hst.1 _)
  · rw [h2] at hq; exact absurd hq (hst.2.1 _ _)
  · rw [h2] at hq; exact absurd hq (hst.2.2 _)
  · exact .inl ⟨r, s', (next_err (he.trans h')).mpr ⟨rfl, rfl⟩⟩
  · exact .inr (.inl ⟨hm, _, s', (next_err (he.trans h')).mpr ⟨rfl, rfl⟩⟩)
  · exact .inr (.inr (.inl ⟨hm, hp, s', (next_panic (he.trans h')).mpr ⟨rfl, rfl⟩⟩))
  · exact .inr (.inr (.inr ⟨hc, hck, s', (next_panic (he.trans h')).mpr ⟨rfl, rfl⟩⟩))

/-- What can come of a stack operator. -/
theorem stack_stuck {c : Bool} {s : Program} {xs : List F32} {op : Operator} {rest : List UInt8}
    (hop : isStackOp op = true) (h : ∀ st, ¬ StackOp c op (s.stack ++ xs) st) : Stuck c (reached s xs op rest) := by
  have ne : ∀ {op'}, isStackOp op' = false → op ≠ op' := by
    rintro op' h rfl; rw [hop] at h; simp at h
  refine ⟨fun τ hq => ?_, fun o τ hq => ?_, fun τ hq => ?_⟩
  · cases hq with
    | stack hc hst =>
      obtain ⟨rfl, _⟩ := bytes_unique hc
      exact h _ hst
    | callLocal hc => exact ne (by rfl) (bytes_unique hc).1
    | callGlobal hc => exact ne (by rfl) (bytes_unique hc).1
    | «return» hc => exact ne (by rfl) (bytes_unique hc).1
  · have key : Path o.1 ∨ Stem o.1 ∨ Mask o.1 := by
      cases hq with
      | path h => exact .inl h
      | stem h => exact .inr (.inl h)
      | mask h => exact .inr (.inr h)
    obtain ⟨rest', hc⟩ := emit_code hq
    rw [← (bytes_unique hc).1] at key
    revert key
    cases op <;> first | (exact absurd hop (by decide)) | decide
  · obtain ⟨rest', hc⟩ := end_code hq
    exact ne (by rfl) (bytes_unique hc).1

/-! ## C43 -/

/-- **C43.**  An arithmetic, conditional or stack operator does to the stack what
`StackOp` says, and `next` goes on behind it, with everything else unchanged. -/
theorem C43_effect {cfg : Config} {s : Program} (hs : Sound s) {xs st : List F32} {op : Operator} {rest : List UInt8}
    (h : Ahead s xs op rest) (hst : StackOp cfg.checks op (s.stack ++ xs) st) :
    Continues cfg s { view s with code := rest, stack := st } :=
  quiet_continues hs h (.stack rfl hst)

/-- `3 4 exch` leaves `4 3`. -/
example (cfg : Config) : Continues cfg (Program.new [142, 143, 12, 28, 5, 14] [] [])
    { view (Program.new [142, 143, 12, 28, 5, 14] [] []) with code := [5, 14], stack := [F32.ofInt 4, F32.ofInt 3] } := by
  have h3 : Operand (F32.ofInt 3) [142] := operand_byte 142 (by decide) (by decide)
  have h4 : Operand (F32.ofInt 4) [143] := operand_byte 143 (by decide) (by decide)
  exact C43_effect (xs := [F32.ofInt 3, F32.ofInt 4]) (op := .opExch) (sound_new (by decide) (by decide) (by decide))
    ⟨[142, 143], .cons (b := [142]) (bs := [143]) h3 (.cons (b := [143]) (bs := []) h4 .nil), rfl⟩ (.exch [] _ _)

/-- **C43.**  With fewer operands than it takes the operator has no result. -/
theorem C43_too_few {c : Bool} {op : Operator} {n : Nat} (hop : operandsOf op = some n) {st st' : List F32}
    (h : StackOp c op st st') : n ≤ st.length := by
  cases h <;> cases hop <;> simp only [List.length_append, List.length_cons, List.length_nil] <;> omega

/-- **C43.**  With enough operands (all binary32) an operator that takes a fixed
number of them has exactly one result. -/
theorem C43_defined {c : Bool} {op : Operator} {n : Nat} (hop : operandsOf op = some n) (hf : op ≠ .opIndex ∧ op ≠ .opRoll)
    {st : List F32} (hw : ∀ x ∈ st, x.WF) (hn : n ≤ st.length) : ∃! st', StackOp c op st st' := by
  have one : 1 ≤ st.length → ∃ st' x, st = st' ++ [x] := by
    intro h
    rcases snoc_cases st with h' | h'
    · rw [h'] at h; simp at h
    · exact h'
  have two : 2 ≤ st.length → ∃ st' x y, st = st' ++ [x, y] := by
    intro h
    rcases two_cases st with h' | h'
    · omega
    · exact h'
  have ex : ∃ st', StackOp c op st st' := by
    cases op <;> cases hop
    case opAbs => obtain ⟨st', x, rfl⟩ := one hn; exact ⟨_, .abs _ _⟩
    case opNeg => obtain ⟨st', x, rfl⟩ := one hn; exact ⟨_, .neg _ _⟩
    case opSqrt => obtain ⟨st', x, rfl⟩ := one hn; exact ⟨_, .sqrt _ ((root_iff (hw x (by simp))).mpr rfl)⟩
    case opDrop => obtain ⟨st', x, rfl⟩ := one hn; exact ⟨_, .drop _ _⟩
    case opDup => obtain ⟨st', x, rfl⟩ := one hn; exact ⟨_, .dup _ _⟩
    case opNot => obtain ⟨st', x, rfl⟩ := one hn; exact ⟨_, .not _ _⟩
    case opAdd => obtain ⟨st', x, y, rfl⟩ := two hn; exact ⟨_, .add _ (sum_iff.mpr rfl)⟩
    case opSub => obtain ⟨st', x, y, rfl⟩ := two hn; exact ⟨_, .sub _ (difference_iff.mpr rfl)⟩
    case opMul => obtain ⟨st', x, y, rfl⟩ := two hn; exact ⟨_, .mul _ (product_iff.mpr rfl)⟩
    case opDiv => obtain ⟨st', x, y, rfl⟩ := two hn; exact ⟨_, .div _ (quotient_iff.mpr rfl)⟩
    case opExch => obtain ⟨st', x, y, rfl⟩ := two hn; exact ⟨_, .exch _ _ _⟩
    case opAnd => obtain ⟨st', x, y, rfl⟩ := two hn; exact ⟨_, .and _ _ _⟩
    case opOr => obtain ⟨st', x, y, rfl⟩ := two hn; exact ⟨_, .or _ _ _⟩
    case opEq => obtain ⟨st', x, y, rfl⟩ := two hn; exact ⟨_, .eq _ _ _⟩
    case opIfElse =>
      rcases four_cases st with h' | ⟨st', a, b, c, d, rfl⟩
      · omega
      · exact ⟨_, .ifElse _ _ _ _ _⟩
    case opIndex => exact absurd rfl hf.1
    case opRoll => exact absurd rfl hf.2
  obtain ⟨st', h⟩ := ex
  exact ⟨st', h, fun st'' h' => stackOp_unique hw h' h⟩

/-- **C43.**  An operator without a result makes `next` fail (or panic, see C44, in
the one case in which rolling overflows). -/
theorem C43_fails {cfg : Config} {s : Program} (hs : Sound s) {xs : List F32} {op : Operator} {rest : List UInt8} {n : Nat}
    (h : Ahead s xs op rest) (hop : operandsOf op = some n) (hno : ∀ st, ¬ StackOp cfg.checks op (s.stack ++ xs) st) :
    (∃ r t, Next cfg s (.err (.raised r)) t) ∨
    (op = .opRoll ∧ cfg.checks = true ∧ ∃ t, Next cfg s (.panic .overflow) t) := by
  have hop' : isStackOp op = true := by
    cases op <;> first | rfl | cases hop
  have hm : ¬ Mask op := by
    cases op <;> first | (exact absurd hop' (by decide)) | decide
  rcases blocked hs h (stack_stuck hop' hno) with h | ⟨h, _⟩ | ⟨h, _⟩ | ⟨⟨h, _⟩ | ⟨h, _⟩ | ⟨h, _⟩, h2, h3⟩
  · exact .inl h
  · exact absurd h hm
  · exact absurd h hm
  · exact .inr ⟨h, h2, h3⟩
  · subst h; cases hop
  · subst h; cases hop

/-- `10 3 div 2 sqrt hvcurveto…`: arguments of `rlineto` computed. -/
example : ∃ s', Next release (Program.new [149, 142, 12, 12, 141, 12, 26, 5] [] [])
    (.ok (some (.opRLineTo, [.fin false 13981013 127, .fin false 11863283 126]))) s' :=
  ⟨after release (Program.new [149, 142, 12, 12, 141, 12, 26, 5] [] []), 100, by decide +kernel⟩

/-! ## C44 -/

/-- **C44** as stated: `N J roll` rolls the `N` topmost operands by `J`. -/
def C44Statement : Prop :=
  ∀ (cfg : Config) (s : Program) (xs st as bs : List F32) (x y : F32) (j : Int) (rest : List UInt8),
    Sound s → Ahead s xs .opRoll rest → s.stack ++ xs = st ++ as ++ [x, y] → IsInt x as.length →
    IsInt y j → -2 ^ 31 ≤ j → j < 2 ^ 31 → Rolled j as bs →
    Continues cfg s { view s with code := rest, stack := st ++ bs }

/-- A number of operands in memory is a 32-bit integer if it is a value of binary32
below `2^31`. -/
theorem isInt_arg {x : F32} {i : Int} (h : IsInt x i) (h1 : -2 ^ 31 ≤ i) (h2 : i < 2 ^ 31) : IntArg x i := .inl ⟨h, h1, h2⟩

/-- **C44**, in part: for every `J` but the least 32-bit integer. -/
theorem C44_roll_partial {cfg : Config} {s : Program} {xs st as bs : List F32} {x y : F32} {j : Int} {rest : List UInt8}
    (hs : Sound s) (h : Ahead s xs .opRoll rest) (hst : s.stack ++ xs = st ++ as ++ [x, y]) (hx : IsInt x as.length)
    (hl : as.length < 2 ^ 31) (hy : IsInt y j) (h1 : -2 ^ 31 < j) (h2 : j < 2 ^ 31) (hr : Rolled j as bs) :
    Continues cfg s { view s with code := rest, stack := st ++ bs } := by
  refine quiet_continues hs h (.stack rfl ?_)
  show StackOp _ _ (s.stack ++ xs) _
  rw [hst]
  exact .roll st as bs x y (isInt_arg hx (by omega) (by exact_mod_cast hl)) (isInt_arg hy h1.le h2) rfl (.inl (by omega)) hr

/-- `10 20 30 3 1 roll` leaves `30 10 20`. -/
example (cfg : Config) : Continues cfg (Program.new [149, 159, 169, 142, 140, 12, 30, 6] [] [])
    { view (Program.new [149, 159, 169, 142, 140, 12, 30, 6] [] []) with code := [6], stack := [] ++ [30, 10, 20].map F32.ofInt } := by
  have h (b : UInt8) (h1 : 32 ≤ b.toNat) (h2 : b.toNat ≤ 246) : Operand (F32.ofInt (b.toNat - 139)) [b] := operand_byte b h1 h2
  refine C44_roll_partial (xs := [10, 20, 30, 3, 1].map F32.ofInt) (st := []) (as := [10, 20, 30].map F32.ofInt) (j := 1)
    (sound_new (by decide) (by decide) (by decide)) ⟨[149, 159, 169, 142, 140], ?_, rfl⟩ rfl
    (isInt_of (by decide +kernel) (by decide +kernel) (by decide)) (by decide)
    (isInt_of (by decide +kernel) (by decide +kernel) (by decide)) (by decide) (by decide) ⟨rfl, ?_⟩
  · exact .cons (b := [149]) (h 149 (by decide) (by decide)) (.cons (b := [159]) (h 159 (by decide) (by decide))
      (.cons (b := [169]) (h 169 (by decide) (by decide)) (.cons (b := [142]) (h 142 (by decide) (by decide))
        (.cons (b := [140]) (bs := []) (h 140 (by decide) (by decide)) .nil))))
  · decide

/-- **C44.**  There is one way to roll, and it depends on `J` modulo `N` only. -/
theorem C44_rolled (j : Int) (as : List F32) : (∃! bs, Rolled j as bs) ∧
    ∀ k bs, (j - k) % as.length = 0 → Rolled j as bs → Rolled k as bs := by
  have hmod : ∀ (j k : Int) (as bs : List F32), (j - k) % as.length = 0 → Rolled j as bs → Rolled k as bs := by
    rintro j k as bs h ⟨h1, h2⟩
    refine ⟨h1, fun i hi => ?_⟩
    have : ((i : Int) + j) % as.length = (i + k) % as.length := by
      rw [Int.emod_eq_emod_iff_emod_sub_eq_zero]
      rw [show (i : Int) + j - (i + k) = j - k by omega]
      exact h
    rw [← this]
    exact h2 i hi
  refine ⟨?_, fun k bs => hmod j k as bs⟩
  have : ∃ bs, Rolled j as bs := by
    by_cases h0 : as = []
    · subst h0
      exact ⟨[], rfl, fun i hi => by simp at hi⟩
    · obtain ⟨bs, h, _⟩ := times_up (cfg := release) (j % as.length).toNat
        (s := { Program.new [] [] [] with stack := [] ++ as }) (st := []) (as := as) rfl h0
      refine ⟨bs, hmod _ _ _ _ ?_ h⟩
      have hn : (as.length : Int) ≠ 0 := by
        have := List.length_pos_iff.mpr h0
        omega
      rw [Int.toNat_of_nonneg (Int.emod_nonneg _ hn), ← Int.emod_emod_of_dvd, Int.emod_sub_emod] <;> simp
  obtain ⟨bs, h⟩ := this
  exact ⟨bs, h, fun bs' h' => rolled_unique h' h⟩

/-- **C44.**  Rolling by `J` and then by `-J` restores the operands. -/
theorem C44_inverse {j : Int} {as bs cs : List F32} (h : Rolled j as bs) (h' : Rolled (-j) bs cs) : cs = as := by
  have := rolled_trans h h'
  rw [Int.add_right_neg] at this
  exact rolled_unique this (rolled_zero as)

/-- **C44.**  `N` negative or larger than the rest of the stack, or `N` or `J` not an
integer: an error. -/
theorem C44_errors {cfg : Config} {s : Program} {xs st : List F32} {x y : F32} {rest : List UInt8} (hs : Sound s)
    (h : Ahead s xs .opRoll rest) (hst : s.stack ++ xs = st ++ [x, y])
    (hbad : (∃ n, IsInt x n ∧ (n < 0 ∨ (st.length : Int) < n) ∧ n ≠ 2 ^ 31) ∨ (∀ n, ¬ IsInt x n) ∨ (∀ j, ¬ IsInt y j)) :
    Fails cfg s := by
  have hxw : x.WF := by
    obtain ⟨bs, hx, hl⟩ := h
    exact (fetched hs hx hl).1.stack x (by simp [adv, hst])
  have harg : ∀ n, IntArg x n → (n : Int) < 0 ∨ (st.length : Int) < n ∨ ∀ j, ¬ IntArg y j := by
    intro n hn
    rcases hbad with ⟨n', hn', hb, hne⟩ | hb | hb
    · rcases hn with ⟨hn, _⟩ | ⟨hn, _⟩
      · rw [isInt_unique hn hn']; tauto
      · exact absurd (isInt_unique hn' hn) hne
    · rcases hn with ⟨hn, _⟩ | ⟨hn, _⟩ <;> exact absurd hn (hb _)
    · refine .inr (.inr fun j hj => ?_)
      rcases hj with ⟨hj, _⟩ | ⟨hj, _⟩ <;> exact hb _ hj
  have hno : ∀ c st', ¬ StackOp c .opRoll (s.stack ++ xs) st' := by
    intro c st' hop
    rw [hst] at hop
    generalize hsx : st ++ [x, y] = sx at hop
    cases hop with
    | roll a as bs x' y' hx' hy' hl _ _ =>
      obtain ⟨rfl, rfl, rfl⟩ := two_inj hsx
      rcases harg _ hx' with h | h | h
      · omega
      · simp at h; omega
      · exact h _ hy'
    | rollLeast a as x' y' _ hx' hy' hl =>
      obtain ⟨rfl, rfl, rfl⟩ := two_inj hsx
      rcases harg _ hx' with h | h | h
      · omega
      · simp at h; omega
      · exact h _ hy'
  rcases blocked hs h (stack_stuck rfl (hno _)) with ⟨r, t, h⟩ | ⟨h, _⟩ | ⟨h, _⟩ | ⟨⟨_, hl⟩ | ⟨h, _⟩ | ⟨h, _⟩, _⟩
  · exact ⟨_, t, h⟩
  · exact absurd h (by decide)
  · exact absurd h (by decide)
  · exfalso
    obtain ⟨a, as, x', y', n, he, hx', hy', hl, _⟩ := hl
    rw [hst] at he
    obtain ⟨rfl, rfl, rfl⟩ := two_inj he
    rcases harg _ hx' with h | h | h
    · omega
    · simp at h; omega
    · exact h _ hy'
  · cases h
  · cases h

/-- `1 2 3 3 J roll hlineto` with `J = -(-32768 · -32768 · 2)`. -/
def leastRoll : Program := Program.new [140, 141, 142, 142, 255, 128, 0, 0, 0, 12, 27, 12, 24, 141, 12, 24, 12, 14, 12, 30, 6] [] []

/-- **C44** does not hold for the least `J`: it is congruent to 1 modulo 3, but a
release build does not roll at all. -/
theorem C44_least_ignored : ∃ s', Next release leastRoll (.ok (some (.opHLineTo, [1, 2, 3].map F32.ofInt))) s' :=
  ⟨after release leastRoll, 100, by decide +kernel⟩

/-- With overflow checks there is a panic. -/
theorem C44_least_panics : ∃ s', Next checked leastRoll (.panic .overflow) s' :=
  ⟨after checked leastRoll, 100, by decide +kernel⟩

/-- **C44** as stated is false. -/
theorem C44_false : ¬ C44Statement := by
  intro h
  let s : Program := { Program.new [12, 30, 6] [] [] with
    stack := [F32.ofInt 1, F32.ofInt 2, F32.ofInt 3, F32.ofInt 3, F32.ofInt (-2 ^ 31)] }
  have hsound : Sound s := by
    refine { sound_new (code := [12, 30, 6]) (global := []) («local» := []) (by decide) (by decide) (by decide) with stack := ?_ }
    show ∀ x ∈ [F32.ofInt 1, F32.ofInt 2, F32.ofInt 3, F32.ofInt 3, F32.ofInt (-2 ^ 31)], x.WF
    decide +kernel
  have hi : ∀ i : Int, -2 ^ 31 ≤ i → i < 2 ^ 31 → (∃ m e, F32.ofInt i = .fin (decide (i < 0)) m e ∧ (m * 2 ^ e : Nat) = i.natAbs * 2 ^ 149) →
      IsInt (F32.ofInt i) i := by
    rintro i _ _ ⟨m, e, h1, h2⟩
    refine ⟨_, m, e, h1, val_eq_int.mpr ?_⟩
    unfold F32.units
    rw [h2]
    by_cases hneg : i < 0
    · rw [if_pos (by simpa using hneg)]; push_cast; rw [abs_of_neg hneg]; ring
    · rw [if_neg (by simpa using hneg)]; push_cast; rw [abs_of_nonneg (by omega)]
  obtain ⟨s1, hs1, hv, hn⟩ := h release s [] [] [F32.ofInt 1, F32.ofInt 2, F32.ofInt 3] [F32.ofInt 3, F32.ofInt 1, F32.ofInt 2]
    (F32.ofInt 3) (F32.ofInt (-2 ^ 31)) (-2 ^ 31) [6] hsound ⟨[], .nil, rfl⟩ rfl
    (hi 3 (by norm_num) (by norm_num) ⟨12582912, 127, by decide +kernel, by decide +kernel⟩)
    (hi (-2 ^ 31) (by norm_num) (by norm_num) ⟨8388608, 157, by decide +kernel, by decide +kernel⟩)
    (by norm_num) (by norm_num)
    ⟨rfl, fun i hi => by
      have : i = 0 ∨ i = 1 ∨ i = 2 := by simp at hi; omega
      rcases this with rfl | rfl | rfl <;> rfl⟩
  have h1 : Next release s (.ok (some (.opHLineTo, [F32.ofInt 1, F32.ofInt 2, F32.ofInt 3]))) (after release s) :=
    ⟨100, by decide +kernel⟩
  have h2 : Yields release.checks (view s1) (.opHLineTo, [F32.ofInt 3, F32.ofInt 1, F32.ofInt 2]) _ :=
    ⟨_, _, .refl, .refl, .path (rest := []) (below := []) (by decide) (by rw [hv]; rfl)
      ⟨by rw [hv], by simp [Accepts], fun a ha _ => by rw [hv] at ha; exact ha.length_le⟩⟩
  obtain ⟨s2, h3, _⟩ := yields_next hs1 h2
  have h4 := (next_unique ((hn _ _).mp h1) h3).1
  exact absurd h4 (by decide +kernel)

/-- `10 20 30 3 1 roll rrcurveto`-like: three operands rolled by one. -/
example : ∃ s', Next release (Program.new [149, 159, 169, 142, 140, 12, 30, 6] [] [])
    (.ok (some (.opHLineTo, [30, 10, 20].map F32.ofInt))) s' :=
  ⟨after release (Program.new [149, 159, 169, 142, 140, 12, 30, 6] [] []), 100, by decide +kernel⟩
example : Rolled (-1) ([1, 2, 3].map F32.ofInt) ([2, 3, 1].map F32.ofInt) := rolled_down _ _

/-! ## C45 -/

/-- **C45.**  A call with the integer `a` enters the subroutine at the position
`a + bias`; the operand is gone, and what follows the call is executed when the
subroutine returns. -/
theorem C45_call {cfg : Config} {s : Program} (hs : Sound s) {xs st : List F32} {op : Operator} {rest body : List UInt8}
    {subs : List (List UInt8)} (hop : subroutinesOf op s = some subs) (h : Ahead s xs op rest) {x : F32}
    (hst : s.stack ++ xs = st ++ [x]) {a : Int} (ha : IsInt x a) {i : Nat}
    (hi : a + (if subs.length < 1240 then 107 else if subs.length < 33900 then 1131 else 32768) = i)
    (hb : subs[i]? = some body) :
    Continues cfg s { view s with code := body, callers := rest :: s.callers.map left, stack := st } := by
  have hlt := (List.getElem?_eq_some_iff.mp hb).1
  cases op <;> cases hop
  · have hc : (s.local.length : Int) ≤ 2 ^ 31 := by exact_mod_cast hs.counts.2
    refine quiet_continues hs h (.callLocal (i := i) (a := a) rfl hst (isInt_arg ha ?_ ?_) hi hb) <;> split_ifs at hi <;> omega
  · have hc : (s.global.length : Int) ≤ 2 ^ 31 := by exact_mod_cast hs.counts.1
    refine quiet_continues hs h (.callGlobal (i := i) (a := a) rfl hst (isInt_arg ha ?_ ?_) hi hb) <;> split_ifs at hi <;> omega

/-- `10 -107 callsubr`, with one subroutine. -/
example (cfg : Config) : Continues cfg (Program.new [149, 32, 10, 14] [] [[159, 21, 11]])
    { view (Program.new [149, 32, 10, 14] [] [[159, 21, 11]]) with
      code := [159, 21, 11], callers := [[14]], stack := [F32.ofInt 10] } := by
  have h10 : Operand (F32.ofInt 10) [149] := operand_byte 149 (by decide) (by decide)
  have hcall : Operand (F32.ofInt (-107)) [32] := operand_byte 32 (by decide) (by decide)
  exact C45_call (xs := [F32.ofInt 10, F32.ofInt (-107)]) (op := .opCallSubr) (i := 0) (a := -107)
    (sound_new (by decide) (by decide) (by decide)) rfl
    ⟨[149, 32], .cons (b := [149]) (bs := [32]) h10 (.cons (b := [32]) (bs := []) hcall .nil), rfl⟩ rfl
    (isInt_of (by decide +kernel) (by decide +kernel) (by decide)) rfl rfl

/-- **C45**, in part: with an empty stack, an operand that is not an integer or any
other address, `next` fails.  Missing: addresses of `2^31` and more in a build with
overflow checks, in which there is a panic (`C45_far_panics`). -/
theorem C45_errors_partial {cfg : Config} {s : Program} (hs : Sound s) {xs : List F32} {op : Operator} {rest : List UInt8}
    {subs : List (List UInt8)} (hop : subroutinesOf op s = some subs) (h : Ahead s xs op rest)
    (hbad : ∀ st x a, s.stack ++ xs = st ++ [x] → IsInt x a →
      (a + callBias subs.length < 0 ∨ subs.length ≤ a + callBias subs.length) ∧
      (cfg.checks = true → a + callBias subs.length < 2 ^ 31)) :
    Fails cfg s := by
  have hsub : subs.length ≤ 2 ^ 31 := by
    cases op <;> cases hop
    · exact hs.counts.2
    · exact hs.counts.1
  have hsub' : (subs.length : Int) ≤ 2 ^ 31 := by exact_mod_cast hsub
  have hcb := callBias_bounds subs.length
  have harg : ∀ st x a, s.stack ++ xs = st ++ [x] → IntArg x a →
      (a + callBias subs.length < 0 ∨ subs.length ≤ a + callBias subs.length) ∧
      (cfg.checks = true → a + callBias subs.length < 2 ^ 31) := by
    rintro st x a hst (⟨ha, _⟩ | ⟨ha, rfl⟩)
    · exact hbad st x a hst ha
    · obtain ⟨h1, h2⟩ := hbad st x _ hst ha
      have h3 : (subs.length : Int) ≤ 2 ^ 31 - 1 + callBias subs.length := by
        have : 107 ≤ callBias subs.length := by unfold callBias; split_ifs <;> norm_num
        linarith
      exact ⟨.inr h3, fun hc => by have := h2 hc; linarith⟩
  have ne : ∀ {op'}, (∀ t, subroutinesOf op' t = none) → op ≠ op' := by
    rintro op' h rfl; rw [h] at hop; cases hop
  have hst : Stuck cfg.checks (reached s xs op rest) := by
    refine ⟨fun τ hq => ?_, fun o τ hq => ?_, fun τ hq => ?_⟩
    · cases hq with
      | stack hc hst =>
        have h1 := stackOp_isStackOp hst
        rw [← (bytes_unique hc).1] at h1
        cases op <;> first | (cases hop; done) | (exact absurd h1 (by decide))
      | callLocal hc hst ha hi hb =>
        obtain ⟨rfl, _⟩ := bytes_unique hc
        cases hop
        have h1 := (List.getElem?_eq_some_iff.mp hb).1
        have h2 := (harg _ _ _ hst ha).1
        change _ + callBias s.local.length = _ at hi
        change _ < s.local.length at h1
        omega
      | callGlobal hc hst ha hi hb =>
        obtain ⟨rfl, _⟩ := bytes_unique hc
        cases hop
        have h1 := (List.getElem?_eq_some_iff.mp hb).1
        have h2 := (harg _ _ _ hst ha).1
        change _ + callBias s.global.length = _ at hi
        change _ < s.global.length at h1
        omega
      | «return» hc => exact ne (fun _ => rfl) (bytes_unique hc).1
    · have key : Path o.1 ∨ Stem o.1 ∨ Mask o.1 := by
        cases hq with
        | path h => exact .inl h
        | stem h => exact .inr (.inl h)
        | mask h => exact .inr (.inr h)
      obtain ⟨rest', hc⟩ := emit_code hq
      rw [← (bytes_unique hc).1] at key
      cases op <;> first | (cases hop; done) | (exact absurd key (by decide))
    · obtain ⟨rest', hc⟩ := end_code hq
      exact ne (fun _ => rfl) (bytes_unique hc).1
  rcases blocked hs h hst with ⟨r, t, h⟩ | ⟨h, _⟩ | ⟨h, _⟩ | ⟨⟨rfl, _⟩ | ⟨rfl, hf⟩ | ⟨rfl, hf⟩, hck, _⟩
  · exact ⟨_, t, h⟩
  · cases op <;> first | (cases hop; done) | (exact absurd h (by decide))
  · cases op <;> first | (cases hop; done) | (exact absurd h (by decide))
  · cases hop
  · cases hop
    obtain ⟨st, x, a, he, ha, hfar⟩ := hf
    have := (harg st x a he ha).2 hck
    omega
  · cases hop
    obtain ⟨st, x, a, he, ha, hfar⟩ := hf
    have := (harg st x a he ha).2 hck
    omega

/-- `-32768 dup mul 2 mul callsubr`: `2^31`. -/
def farCall : Program := Program.new [255, 128, 0, 0, 0, 12, 27, 12, 24, 141, 12, 24, 10] [] []

/-- In a build with overflow checks a call with a large operand panics, and is an
error in a release build. -/
theorem C45_far_panics : (∃ s', Next checked farCall (.panic .overflow) s') ∧ Fails release farCall :=
  ⟨⟨after checked farCall, 100, by decide +kernel⟩, .raised .noSubroutine, after release farCall, 100, by decide +kernel⟩

/-- `-107 callsubr` enters the first subroutine, `10 20 rmoveto return`. -/
example : ∃ s', Next release (Program.new [32, 10, 14] [] [[149, 159, 21, 11]])
    (.ok (some (.opRMoveTo, [10, 20].map F32.ofInt))) s' :=
  ⟨after release (Program.new [32, 10, 14] [] [[149, 159, 21, 11]]), 100, by decide +kernel⟩
/-- `-106 callsubr` is an error. -/
example : Fails release (Program.new [33, 10, 14] [] [[149, 159, 21, 11]]) :=
  ⟨.raised .noSubroutine, after release (Program.new [33, 10, 14] [] [[149, 159, 21, 11]]), 100, by decide +kernel⟩

end PS.Type2
