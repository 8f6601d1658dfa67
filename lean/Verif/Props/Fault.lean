import Verif.Spec.Fault
import Verif.Props.Type2Run
/-!
# Property C71: errors name their causes
-/
namespace PS.Type2
open PS.Spec hiding Operand Operation
open PS.Type2.Spec

theorem roll_top {cfg : Config} {t : Program} (ht : Sound t) (hn : ∀ st x i, t.stack = st ++ [x] → ¬ IntArg x i) :
    ∃ s', popInt cfg t = (.err (.raised .expectedOtherOperand), s') := by
  rcases snoc_cases t.stack with h | ⟨st, x, h⟩
  · exact ⟨_, popInt_nil h⟩
  · exact ⟨_, popInt_err h (ht.stack x (by simp [h])) (fun i => hn st x i h)⟩

theorem operandsOf_cases {op : Operator} {n : Nat} (h : operandsOf op = some n) : isStackOp op = true := by
  cases op <;> first | rfl | simp [operandsOf] at h

/-- A short stack is not that of a stack operator. -/
theorem dispatch_fewer {cfg : Config} {op : Operator} {n : Nat} {t : Program} (h : operandsOf op = some n)
    (hop : op ∉ [Operator.opDup, .opIndex, .opRoll]) (hl : t.stack.length < n) :
    ∃ s', dispatch op cfg t = (.err (.raised .expectedOperand), s') := by
  have one : t.stack.length < 1 → t.stack = [] := fun h => List.length_eq_zero_iff.mp (by omega)
  cases op <;> simp only [operandsOf, Option.some.injEq, reduceCtorEq] at h <;> subst h <;>
    first
    | exact ⟨_, PM.bind_of_err (pop_nil (one hl))⟩
    | exact ⟨_, PM.bind_of_err (popBool_nil (one hl))⟩
    | exact pop_two_short hl _
    | exact popBool_two_short hl _
    | exact absurd (by decide) hop
    | skip
  rcases two_cases t.stack with h | ⟨st, v1, v2, h⟩
  · exact pop_two_short h _
  · have h2 : st.length < 2 := by
      rw [h] at hl
      simp only [List.length_append, List.length_cons, List.length_nil] at hl
      omega
    obtain ⟨s', h'⟩ := pop_two_short (cfg := cfg) (s := { t with stack := st }) h2 (fun no yes => do
          push (if F32.le v1 v2 then yes else no)
          PM.pure .again : F32 → F32 → PM Flow)
    refine ⟨s', ?_⟩
    unfold dispatch
    simp only [pop_two h]
    exact h'

theorem call_absent {cfg : Config} (subs : Program → List (List UInt8)) (hsubs : ∀ s st, subs { s with stack := st } = subs s)
    {s : Program} (hw : ∀ x ∈ s.stack, x.WF) {st : List F32} {x : F32} {a : Int} (h : s.stack = st ++ [x]) (ha : IntArg x a)
    (ho : a + callBias (subs s).length < 0 ∨ (subs s).length ≤ a + callBias (subs s).length)
    (hf : a + callBias (subs s).length < 2 ^ 31 ∨ cfg.checks = false) :
    ∃ s', call subs cfg s = (.err (.raised .noSubroutine), s') := by
  have hxw : x.WF := hw x (by simp [h])
  unfold call
  rw [PM.bind_of_ok (popInt_ok h hxw ha), PM.bind_of_ok rfl, PM.bind_of_ok rfl]
  simp only [hsubs, bias_eq]
  obtain ⟨hb1, hb2⟩ := callBias_bounds (subs s).length
  obtain ⟨ha1, ha2⟩ := intArg_bounds ha
  by_cases hlt : a + callBias (subs s).length < 2 ^ 31
  · have hadd : addI32 cfg.checks a (callBias (subs s).length) = .ok (a + callBias (subs s).length) := by
      unfold addI32 wrapI32
      rw [if_pos ⟨by omega, hlt⟩]
    rw [hadd, PM.bind_of_ok (a := a + callBias (subs s).length) (s' := { s with stack := st }) rfl, if_pos (by omega)]
    exact ⟨_, rfl⟩
  · have hck : cfg.checks = false := by tauto
    have hadd : addI32 cfg.checks a (callBias (subs s).length) = .ok (a + callBias (subs s).length - 2 ^ 32) := by
      rw [hck]
      unfold addI32 wrapI32
      rw [if_neg (by omega)]
      simp only [Bool.false_eq_true, if_false]
      congr 1
      have hup : a + callBias (subs s).length < 2 ^ 32 := by omega
      generalize a + callBias (subs s).length = z at *
      have hz : z % 2 ^ 32 = z := by omega
      unfold toS toU
      rw [hz]
      have : z.toNat % 2 ^ 32 = z.toNat := by omega
      rw [this]
      simp only []
      rw [if_neg (by omega)]
      omega
    rw [hadd, PM.bind_of_ok (a := a + callBias (subs s).length - 2 ^ 32) (s' := { s with stack := st }) rfl,
      if_pos (.inl (by omega))]
    exact ⟨_, rfl⟩

theorem call_far {cfg : Config} (subs : Program → List (List UInt8)) (hsubs : ∀ s st, subs { s with stack := st } = subs s)
    {s : Program} (hw : ∀ x ∈ s.stack, x.WF) {st : List F32} {x : F32} {a : Int} (h : s.stack = st ++ [x]) (ha : IntArg x a)
    (hf : 2 ^ 31 ≤ a + callBias (subs s).length) (hc : cfg.checks = true) :
    ∃ s', call subs cfg s = (.panic .overflow, s') := by
  have hxw : x.WF := hw x (by simp [h])
  unfold call
  rw [PM.bind_of_ok (popInt_ok h hxw ha), PM.bind_of_ok rfl, PM.bind_of_ok rfl]
  simp only [hsubs, bias_eq]
  have hadd : addI32 cfg.checks a (callBias (subs s).length) = .panic .overflow := by
    rw [hc]
    unfold addI32 wrapI32
    rw [if_neg (by omega)]
    rfl
  rw [hadd]
  exact ⟨_, PM.bind_of_panic (e := .overflow) (s' := { s with stack := st }) rfl⟩

theorem maskSize_before (op : Operator) (t : Program) : maskSize (before op t) = maskLength t := rfl

theorem ordered_before {op op' : Operator} {t : Program} (h : Ordered (before op t) op') : op = op' := by
  obtain ⟨rest, h⟩ := h
  exact (before_code h).1

theorem not_cut (op : Operator) (rest : List UInt8) : ¬ Cut (bytes op ++ rest) := by
  rintro (⟨x, bs, hx, ⟨c, hc⟩, _⟩ | ⟨op', ⟨c, hc⟩, hne⟩)
  · exact operand_bytes (r := []) (t := rest ++ c) (op := op) hx (by simpa using hc.symm)
  · have : bytes op ++ (rest ++ c) = bytes op' ++ [] := by simpa using hc
    obtain ⟨rfl, h⟩ := bytes_unique this
    obtain ⟨rfl, rfl⟩ := List.append_eq_nil_iff.mp h
    simp at hne

/-- A fault is reported. -/
theorem dispatch_of_fault {cfg : Config} {op : Operator} {t : Program} (ht : Sound t) {e : Err}
    (h : Fault cfg (before op t) e) : ∃ s', dispatch op cfg t = (.err e, s') := by
  cases h with
  | cut h => exact absurd h (not_cut op _)
  | mask hm hc hl hcap =>
    obtain ⟨rfl, rfl⟩ := before_code hc
    rw [maskSize_before] at hl hcap
    rcases dispatch_mask hm cfg t ht.routine (ht.size _ (by simp)) with ⟨hle, _⟩ | ⟨_, h, _⟩ | ⟨h1, h2, _⟩
    · omega
    · exact h
    · rcases hcap with h | h
      · omega
      · rw [h] at h2; simp at h2
  | unknown h =>
    exact absurd (List.prefix_append _ _) (h.2.1 op)
  | unsupported hop h =>
    obtain rfl := ordered_before h
    simp only [List.mem_cons, List.not_mem_nil, or_false] at hop
    rcases hop with rfl | rfl | rfl <;> exact ⟨_, rfl⟩
  | arguments hop h ha =>
    obtain rfl := ordered_before h
    rcases hop with hop | hop
    · rcases dispatch_path hop cfg t with ⟨b, a, ⟨h1, h2, _⟩, _⟩ | ⟨_, he⟩
      · exact absurd h2 (ha a ⟨b, h1.symm⟩)
      · exact ⟨_, he⟩
    · rcases dispatch_stem hop cfg t with ⟨b, a, ⟨h1, h2, _⟩, _⟩ | ⟨_, he⟩
      · exact absurd h2 (ha a ⟨b, h1.symm⟩)
      · exact ⟨_, he⟩
  | fewer hn hop h hl =>
    obtain rfl := ordered_before h
    exact dispatch_fewer hn hop hl
  | dup h hs =>
    obtain rfl := ordered_before h
    have hs : t.stack = [] := hs
    exact ⟨_, PM.bind_of_err (readStack_err (by simp [hs]))⟩
  | type hop h hn =>
    obtain rfl := ordered_before h
    obtain ⟨s', h'⟩ := roll_top (cfg := cfg) ht hn
    simp only [List.mem_cons, List.not_mem_nil, or_false] at hop
    rcases hop with rfl | rfl | rfl | rfl
    · exact ⟨_, PM.bind_of_err h'⟩
    all_goals exact ⟨_, PM.bind_of_err (PM.bind_of_err h')⟩
  | @rollType st y j h hs hj hn =>
    obtain rfl := ordered_before h
    have hs : t.stack = st ++ [y] := hs
    have hr : ∃ s', roll cfg t = (.err (.raised .expectedOtherOperand), s') := by
      unfold roll
      rw [PM.bind_of_ok (popInt_ok hs (ht.stack y (by simp [hs])) hj)]
      rcases snoc_cases st with rfl | ⟨st, x, rfl⟩
      · exact ⟨_, PM.bind_of_err (popInt_nil rfl)⟩
      · exact ⟨_, PM.bind_of_err (popInt_err rfl (ht.stack x (by simp [hs])) (fun i => hn _ _ i rfl))⟩
    obtain ⟨s', hr⟩ := hr
    exact ⟨_, PM.bind_of_err hr⟩
  | @index st x i h hs hi hl =>
    obtain rfl := ordered_before h
    have hs : t.stack = st ++ [x] := hs
    unfold dispatch
    simp only [PM.bind_of_ok (popInt_ok hs (ht.stack x (by simp [hs])) hi)]
    refine ⟨_, PM.bind_of_err (readStack_err (s := { t with stack := st }) ?_)⟩
    rcases hl with hl | rfl
    · rw [if_pos (by omega)]; show st.length ≤ _; omega
    · simp
  | @rollFewer st x y n j h hs hn hj hl =>
    obtain rfl := ordered_before h
    have hs : t.stack = st ++ [x, y] := hs
    have hr : ∃ s', roll cfg t = (.err (.raised .expectedMoreOperands), s') := by
      unfold roll
      rw [PM.bind_of_ok (popInt_ok (st := st ++ [x]) (by simp [hs]) (ht.stack y (by simp [hs])) hj),
        PM.bind_of_ok (popInt_ok rfl (ht.stack x (by simp [hs])) hn), PM.bind_of_ok rfl]
      simp only []
      rw [if_neg (by omega), if_pos (by omega)]
      exact ⟨_, rfl⟩
    obtain ⟨s', hr⟩ := hr
    exact ⟨_, PM.bind_of_err hr⟩
  | @rollNegative st x y n j h hs hn hj hl =>
    obtain rfl := ordered_before h
    have hs : t.stack = st ++ [x, y] := hs
    have hr : ∃ s', roll cfg t = (.err (.raised .invalidOperand), s') := by
      unfold roll
      rw [PM.bind_of_ok (popInt_ok (st := st ++ [x]) (by simp [hs]) (ht.stack y (by simp [hs])) hj),
        PM.bind_of_ok (popInt_ok rfl (ht.stack x (by simp [hs])) hn), PM.bind_of_ok rfl]
      simp only []
      rw [if_pos hl]
      exact ⟨_, rfl⟩
    obtain ⟨s', hr⟩ := hr
    exact ⟨_, PM.bind_of_err hr⟩
  | @subroutine op' subs st x a h hsub hs ha ho hf =>
    obtain rfl := ordered_before h
    have hs : t.stack = st ++ [x] := hs
    cases op <;> simp only [Callable, Option.some.injEq, reduceCtorEq] at hsub
    · subst hsub
      obtain ⟨s', h'⟩ := call_absent Program.local (fun _ _ => rfl) ht.stack hs ha ho hf
      exact ⟨_, PM.bind_of_err h'⟩
    · subst hsub
      obtain ⟨s', h'⟩ := call_absent Program.global (fun _ _ => rfl) ht.stack hs ha ho hf
      exact ⟨_, PM.bind_of_err h'⟩
  | caller h hc =>
    obtain rfl := ordered_before h
    have hc : t.callers = [] := by simpa [before, view] using hc
    exact ⟨_, dispatch_return_nil hc⟩
  | @trailing rest code hc hm hne =>
    obtain ⟨rfl, rfl⟩ := before_code hc
    rcases dispatch_end cfg (sound_pos ht) with ⟨k, main, _, he, _⟩ | ⟨_, h⟩
    · exfalso
      have hm : code ∈ (left t.routine :: t.callers.map left).dropLast := hm
      rw [he, List.dropLast_concat] at hm
      exact hne (List.eq_of_mem_replicate hm)
    · exact h

theorem dispatch_of_fatal {cfg : Config} {op : Operator} {t : Program} (ht : Sound t) {x : Panic}
    (h : Fatal cfg (before op t) x) : ∃ s', dispatch op cfg t = (.panic x, s') := by
  cases h with
  | @roll st as x y hc h hs hne hx hy =>
    obtain rfl := ordered_before h
    have hs : t.stack = st ++ as ++ [x, y] := hs
    have he := roll_least (cfg := cfg) hs (ht.stack x (by simp [hs])) (ht.stack y (by simp [hs])) hx hy rfl
      (by simpa using hne)
    rw [hc] at he
    exact ⟨_, PM.bind_of_panic he⟩
  | @call op' subs st x a hc h hsub hs ha hf =>
    obtain rfl := ordered_before h
    have hs : t.stack = st ++ [x] := hs
    cases op <;> simp only [Callable, Option.some.injEq, reduceCtorEq] at hsub
    · subst hsub
      obtain ⟨s', h'⟩ := call_far Program.local (fun _ _ => rfl) ht.stack hs ha hf hc
      exact ⟨_, PM.bind_of_panic h'⟩
    · subst hsub
      obtain ⟨s', h'⟩ := call_far Program.global (fun _ _ => rfl) ht.stack hs ha hf hc
      exact ⟨_, PM.bind_of_panic h'⟩
  | mask hp hm h hl =>
    obtain rfl := ordered_before h
    rw [maskSize_before] at hl
    have h63 := ht.size t.routine (by simp)
    rcases dispatch_mask hm cfg t ht.routine (ht.size _ (by simp)) with ⟨hle, _⟩ | ⟨_, _, h | h⟩ | ⟨_, _, h⟩
    · rw [left_length] at hle; omega
    · omega
    · rw [hp] at h; simp at h
    · exact h

/-- If an operator cannot be executed, something is wrong. -/
theorem dispatch_complete (cfg : Config) (op : Operator) {t : Program} (ht : Sound t) :
    (∃ f s', dispatch op cfg t = (.ok f, s')) ∨ (∃ e, Fault cfg (before op t) e) ∨ ∃ x, Fatal cfg (before op t) x := by
  have ho : Ordered (before op t) op := ⟨_, rfl⟩
  have ok : ∀ {st}, StackOp cfg.checks op t.stack st → (∃ f s', dispatch op cfg t = (.ok f, s')) ∨
      (∃ e, Fault cfg (before op t) e) ∨ ∃ x, Fatal cfg (before op t) x :=
    fun h => .inl ⟨_, _, dispatch_of_stackOp ht.stack h⟩
  have bad : ∀ {e}, Fault cfg (before op t) e → (∃ f s', dispatch op cfg t = (.ok f, s')) ∨
      (∃ e, Fault cfg (before op t) e) ∨ ∃ x, Fatal cfg (before op t) x := fun h => .inr (.inl ⟨_, h⟩)
  have hstack : (before op t).stack = t.stack := rfl
  by_cases h2 : Path op
  · rcases dispatch_path h2 cfg t with ⟨b, a, hl, he⟩ | ⟨hn, _⟩
    · exact .inl ⟨_, _, he⟩
    · exact bad (.arguments (.inl h2) ho hn)
  by_cases h3 : Stem op
  · rcases dispatch_stem h3 cfg t with ⟨b, a, hl, he⟩ | ⟨hn, _⟩
    · exact .inl ⟨_, _, he⟩
    · exact bad (.arguments (.inr h3) ho hn)
  by_cases h4 : Mask op
  · rcases dispatch_mask h4 cfg t ht.routine (ht.size _ (by simp)) with ⟨hle, he⟩ | ⟨hlt, _, hcap⟩ | ⟨hlt, hpre, _⟩
    · exact .inl ⟨_, _, he⟩
    · exact bad (.mask h4 rfl hlt (hcap.imp (fun h => by rw [maskSize_before]; omega) id))
    · exact .inr (.inr ⟨_, .mask hpre h4 ho (by rw [maskSize_before]; omega)⟩)
  have one : operandsOf op = some 1 → op ∉ [Operator.opDup, .opIndex, .opRoll] → (∀ st x, ∃ st', StackOp cfg.checks op (st ++ [x]) st' ∨ x ∉ t.stack) →
      (∃ f s', dispatch op cfg t = (.ok f, s')) ∨ (∃ e, Fault cfg (before op t) e) ∨ ∃ x, Fatal cfg (before op t) x := by
    intro h1 hop h
    rcases snoc_cases t.stack with hs | ⟨st, x, hs⟩
    · exact bad (.fewer h1 hop ho (by rw [hstack, hs]; simp))
    · obtain ⟨st', h | h⟩ := h st x
      · exact ok (by rw [hs]; exact h)
      · exact absurd (by simp [hs]) h
  have two : operandsOf op = some 2 → op ∉ [Operator.opDup, .opIndex, .opRoll] → (∀ st x y, ∃ st', StackOp cfg.checks op (st ++ [x, y]) st') →
      (∃ f s', dispatch op cfg t = (.ok f, s')) ∨ (∃ e, Fault cfg (before op t) e) ∨ ∃ x, Fatal cfg (before op t) x := by
    intro h1 hop h
    rcases two_cases t.stack with hs | ⟨st, x, y, hs⟩
    · exact bad (.fewer h1 hop ho hs)
    · obtain ⟨st', h⟩ := h st x y
      exact ok (by rw [hs]; exact h)
  have calls : ∀ subs : Program → List (List UInt8), (∀ s st, subs { s with stack := st } = subs s) →
      (subs t).length ≤ 2 ^ 31 → Callable (before op t) op = some (subs t) →
      op ∈ [Operator.opIndex, .opRoll, .opCallSubr, .opCallGSubr] →
      dispatch op = (do call subs; PM.pure .again) →
      (∃ f s', dispatch op cfg t = (.ok f, s')) ∨ (∃ e, Fault cfg (before op t) e) ∨ ∃ x, Fatal cfg (before op t) x := by
    intro subs h1 hlen h2 hop h3
    by_cases hi : ∃ st x a, t.stack = st ++ [x] ∧ IntArg x a
    swap
    · exact bad (.type hop ho fun st x i hs hx => hi ⟨st, x, i, hs, hx⟩)
    obtain ⟨st, x, a, hs, hx⟩ := hi
    by_cases hin : a + callBias (subs t).length < 0 ∨ (subs t).length ≤ a + callBias (subs t).length
    · by_cases hf : a + callBias (subs t).length < 2 ^ 31 ∨ cfg.checks = false
      · exact bad (.subroutine ho h2 hs hx hin hf)
      · push Not at hf
        exact .inr (.inr ⟨_, .call (by simpa using hf.2) ho h2 hs hx hf.1⟩)
    · push Not at hin
      have hc := call_of subs h1 cfg ht.stack hlen hs hx (i := (a + callBias (subs t).length).toNat) (by omega)
        (List.getElem?_eq_getElem (by omega))
      rw [h3]
      exact .inl ⟨_, _, PM.bind_of_ok hc⟩
  cases op <;> first | (refine absurd ?_ h2; unfold Path; decide) |
    (refine absurd ?_ h3; unfold Stem; decide) | (refine absurd ?_ h4; unfold Mask; decide) | skip
  case opAbs => exact one rfl (by decide) fun st x => ⟨_, .inl (.abs st x)⟩
  case opNeg => exact one rfl (by decide) fun st x => ⟨_, .inl (.neg st x)⟩
  case opDrop => exact one rfl (by decide) fun st x => ⟨_, .inl (.drop st x)⟩
  case opNot => exact one rfl (by decide) fun st x => ⟨_, .inl (.not st x)⟩
  case opSqrt =>
    refine one rfl (by decide) fun st x => ?_
    by_cases hx : x ∈ t.stack
    · exact ⟨_, .inl (.sqrt st ((root_iff (ht.stack x hx)).mpr rfl))⟩
    · exact ⟨[], .inr hx⟩
  case opAdd => exact two rfl (by decide) fun st x y => ⟨_, .add st (sum_iff.mpr rfl)⟩
  case opSub => exact two rfl (by decide) fun st x y => ⟨_, .sub st (difference_iff.mpr rfl)⟩
  case opMul => exact two rfl (by decide) fun st x y => ⟨_, .mul st (product_iff.mpr rfl)⟩
  case opDiv => exact two rfl (by decide) fun st x y => ⟨_, .div st (quotient_iff.mpr rfl)⟩
  case opExch => exact two rfl (by decide) fun st x y => ⟨_, .exch st x y⟩
  case opEq => exact two rfl (by decide) fun st x y => ⟨_, .eq st x y⟩
  case opAnd => exact two rfl (by decide) fun st x y => ⟨_, .and st x y⟩
  case opOr => exact two rfl (by decide) fun st x y => ⟨_, .or st x y⟩
  case opIfElse =>
    rcases four_cases t.stack with hs | ⟨st, a, b, c, d, hs⟩
    · exact bad (.fewer (n := 4) rfl (by decide) ho hs)
    · exact ok (by rw [hs]; exact .ifElse st a b c d)
  case opDup =>
    rcases snoc_cases t.stack with hs | ⟨st, x, hs⟩
    · exact bad (.dup ho hs)
    · exact ok (by rw [hs]; exact .dup st x)
  case opIndex =>
    by_cases hi : ∃ st x i, t.stack = st ++ [x] ∧ IntArg x i
    swap
    · exact bad (.type (by decide) ho fun st x i hs hx => hi ⟨st, x, i, hs, hx⟩)
    obtain ⟨st, n, i, hs, hi⟩ := hi
    by_cases hl : (st.length : Int) ≤ i ∨ st = []
    · exact bad (.index ho hs hi hl)
    push Not at hl
    by_cases h0 : i < 0
    · rcases snoc_cases st with rfl | ⟨st, x, rfl⟩
      · exact absurd rfl hl.2
      · exact ok (by rw [hs]; simpa using StackOp.indexNegative (checks := cfg.checks) st x n hi h0)
    · obtain ⟨k, rfl⟩ := Int.eq_ofNat_of_zero_le (not_lt.mp h0)
      have hk' : k < st.length := by omega
      obtain ⟨a, x, above, rfl, hab⟩ : ∃ a x above, st = a ++ x :: above ∧ above.length = k := by
        refine ⟨st.take (st.length - 1 - k), st[st.length - 1 - k], st.drop (st.length - k), ?_, by simp; omega⟩
        have h1 : st.drop (st.length - 1 - k) = st[st.length - 1 - k] :: st.drop (st.length - k) := by
          rw [List.drop_eq_getElem_cons (by omega)]
          congr 2
          omega
        rw [← h1, List.take_append_drop]
      exact ok (by rw [hs]; exact .index a above x n hi (by simp [hab]))
  case opRoll =>
    by_cases hi : ∃ st y j, t.stack = st ++ [y] ∧ IntArg y j
    swap
    · exact bad (.type (by decide) ho fun st x i hs hx => hi ⟨st, x, i, hs, hx⟩)
    obtain ⟨st, y, j, hs, hj⟩ := hi
    by_cases hi : ∃ st' x n, st = st' ++ [x] ∧ IntArg x n
    swap
    · exact bad (.rollType ho hs hj fun st x i hs hx => hi ⟨st, x, i, hs, hx⟩)
    obtain ⟨st, x, n, rfl, hn⟩ := hi
    have hs : t.stack = st ++ [x, y] := by simpa using hs
    by_cases h0 : n < 0
    · exact bad (.rollNegative ho hs hn hj h0)
    by_cases hl : (st.length : Int) < n
    · exact bad (.rollFewer ho hs hn hj hl)
    have hs' : t.stack = st.take (st.length - n.toNat) ++ st.drop (st.length - n.toNat) ++ [x, y] := by simp [hs]
    have hlen : n = ((st.drop (st.length - n.toNat)).length : Int) := by simp; omega
    generalize st.take (st.length - n.toNat) = st' at hs'
    generalize st.drop (st.length - n.toNat) = as at hs' hlen
    by_cases hne : j ≠ -2 ^ 31 ∨ n = 0
    · obtain ⟨bs, hr, he⟩ := roll_ok (cfg := cfg) hs' (ht.stack x (by simp [hs])) (ht.stack y (by simp [hs])) hn hj hlen hne
      exact ok (by rw [hs']; exact .roll st' as bs x y hn hj hlen hne hr)
    · push Not at hne
      obtain ⟨rfl, hne⟩ := hne
      rcases hc : cfg.checks with _ | _
      · exact ok (by rw [hs']; exact .rollLeast st' as x y hc hn hj hlen)
      · refine .inr (.inr ⟨_, .roll (st := st') (as := as) hc ho hs' ?_ (hlen ▸ hn) hj⟩)
        rintro rfl
        exact hne (by simpa using hlen)
  case opCallSubr => exact calls Program.local (fun _ _ => rfl) ht.counts.2 rfl (by decide) rfl
  case opCallGSubr => exact calls Program.global (fun _ _ => rfl) ht.counts.1 rfl (by decide) rfl
  case opReturn =>
    rcases hc : t.callers with _ | ⟨c, cs⟩
    · exact bad (.caller ho (by simp [before, view, hc]))
    · exact .inl ⟨_, _, dispatch_return_of hc⟩
  case opEndChar =>
    rcases dispatch_end cfg (sound_pos ht) with ⟨k, main, _, _, h⟩ | ⟨hn, _⟩
    · exact .inl ⟨_, _, h⟩
    · by_cases hb : ∃ code ∈ (left t.routine :: t.callers.map left).dropLast, code ≠ []
      · obtain ⟨code, h1, h2⟩ := hb
        exact bad (.trailing rfl h1 h2)
      · push Not at hb
        exfalso
        have hne : left t.routine :: t.callers.map left ≠ [] := by simp
        refine hn ((left t.routine :: t.callers.map left).length - 1) ((left t.routine :: t.callers.map left).getLast hne) ?_
        have h := List.eq_replicate_iff.mpr ⟨List.length_dropLast (xs := left t.routine :: t.callers.map left), hb⟩
        rw [← h, List.dropLast_concat_getLast]
  all_goals exact bad (.unsupported (by decide) ho)

/-- **C71.**  `next` fails with an error if and only if the machine comes to a state with
a fault that this error describes. -/
theorem C71_error_iff {cfg : Config} {s : Program} (hs : Sound s) (e : Err) :
    (∃ s', Next cfg s (.err e) s') ↔
      ∃ τ υ, Turns cfg.checks (view s) τ ∧ τ.code ≠ [] ∧ Pushes τ υ ∧ Fault cfg υ e := by
  constructor
  · rintro ⟨s', h⟩
    obtain ⟨s1, ht, hs1, hn, hl⟩ := next_turns hs h
    rcases step_cases cfg hs1 with ⟨_, he⟩ | ⟨op, t, hst, hp, he⟩ | ⟨hne, ⟨υ, hp, hc⟩, s2, he⟩ | ⟨⟨υ, hp, hc⟩, s2, he⟩
    · have := (next_ret he).mp hn; simp at this
    · have hne : (view s1).code ≠ [] := fun h0 => by
        have := (next_ret (step_done (cfg := cfg) hs1.routine h0)).mp hn
        simp at this
      rcases dispatch_complete cfg op hst with ⟨f, s2, h'⟩ | ⟨e', h'⟩ | ⟨x, h'⟩
      · rw [← he] at h'
        cases f with
        | again => exact absurd h' (hl _)
        | ret o => have := (next_ret h').mp hn; simp at this
      · obtain ⟨s2, h2⟩ := dispatch_of_fault hst h'
        rw [← he] at h2
        obtain ⟨h3, _⟩ := (next_err h2).mp hn
        cases h3
        exact ⟨_, _, ht, hne, hp, h'⟩
      · obtain ⟨s2, h2⟩ := dispatch_of_fatal hst h'
        rw [← he] at h2
        have := (next_panic h2).mp hn; simp at this
    · obtain ⟨h3, _⟩ := (next_err he).mp hn
      cases h3
      exact ⟨_, _, ht, hne, hp, .cut hc⟩
    · obtain ⟨h3, _⟩ := (next_err he).mp hn
      cases h3
      refine ⟨_, _, ht, fun h0 => ?_, hp, .unknown hc⟩
      have := (next_ret (step_done (cfg := cfg) hs1.routine h0)).mp hn
      simp at this
  · rintro ⟨τ, υ, ht, hne, hp, hf⟩
    obtain ⟨s1, rfl, hs1, hn⟩ := turns_steps ht rfl hs
    suffices h : ∃ s', step cfg s1 = (.err e, s') by
      obtain ⟨s', h⟩ := h
      exact ⟨s', (hn _ _).mpr ((next_err h).mpr ⟨rfl, rfl⟩)⟩
    have order : ∀ {op rest}, υ.code = bytes op ++ rest → ∃ s', step cfg s1 = (.err e, s') := by
      intro op rest hc
      obtain ⟨t, rfl, ht, he⟩ := step_of_pushes cfg hs1 hp hc
      rw [he]
      exact dispatch_of_fault ht hf
    obtain ⟨xs, bs, hx, hc, -⟩ := pushes_iff.mp hp
    cases hf with
    | cut h => exact step_eof hx hs1.routine hc (by rw [← hc]; exact hne) h
    | unknown h => exact step_unknown hx hc h
    | mask _ h => exact order h
    | unsupported _ h | arguments _ h | fewer _ _ h | dup h | type _ h | rollType h | index h | rollFewer h | rollNegative h
    | subroutine h | caller h => obtain ⟨rest, h⟩ := h; exact order h
    | trailing h => exact order h

/-- **C71.**  The same for panics. -/
theorem C71_panic_iff {cfg : Config} {s : Program} (hs : Sound s) (x : Panic) :
    (∃ s', Next cfg s (.panic x) s') ↔
      ∃ τ υ, Turns cfg.checks (view s) τ ∧ Pushes τ υ ∧ Fatal cfg υ x := by
  constructor
  · rintro ⟨s', h⟩
    obtain ⟨s1, ht, hs1, hn, hl⟩ := next_turns hs h
    rcases step_cases cfg hs1 with ⟨_, he⟩ | ⟨op, t, hst, hp, he⟩ | ⟨hne, ⟨υ, hp, hc⟩, s2, he⟩ | ⟨⟨υ, hp, hc⟩, s2, he⟩
    · have := (next_ret he).mp hn; simp at this
    · rcases dispatch_complete cfg op hst with ⟨f, s2, h'⟩ | ⟨e', h'⟩ | ⟨x, h'⟩
      · rw [← he] at h'
        cases f with
        | again => exact absurd h' (hl _)
        | ret o => have := (next_ret h').mp hn; simp at this
      · obtain ⟨s2, h2⟩ := dispatch_of_fault hst h'
        rw [← he] at h2
        have := (next_err h2).mp hn; simp at this
      · obtain ⟨s2, h2⟩ := dispatch_of_fatal hst h'
        rw [← he] at h2
        obtain ⟨h3, _⟩ := (next_panic h2).mp hn
        cases h3
        exact ⟨_, _, ht, hp, h'⟩
    · have := (next_err he).mp hn; simp at this
    · have := (next_err he).mp hn; simp at this
  · rintro ⟨τ, υ, ht, hp, hf⟩
    obtain ⟨s1, rfl, hs1, hn⟩ := turns_steps ht rfl hs
    have order : ∀ {op}, Ordered υ op → ∃ s', step cfg s1 = (.panic x, s') := by
      rintro op ⟨rest, hc⟩
      obtain ⟨t, rfl, ht, he⟩ := step_of_pushes cfg hs1 hp hc
      rw [he]
      exact dispatch_of_fatal ht hf
    obtain ⟨s', h⟩ : ∃ s', step cfg s1 = (.panic x, s') := by
      cases hf with
      | roll _ h => exact order h
      | call _ h => exact order h
      | mask _ _ h => exact order h
    exact ⟨s', (hn _ _).mpr ((next_panic h).mpr ⟨rfl, rfl⟩)⟩

/-- **C71.**  A state is at fault in one way at most. -/
theorem C71_unique {cfg : Config} {s : Program} (hs : Sound s) (hne : (view s).code ≠ []) {e e' : Err} (h : Fault cfg (view s) e)
    (h' : Fault cfg (view s) e') : e = e' := by
  obtain ⟨t, h⟩ := (C71_error_iff hs e).mpr ⟨_, _, .refl, hne, .refl, h⟩
  obtain ⟨t', h'⟩ := (C71_error_iff hs e').mpr ⟨_, _, .refl, hne, .refl, h'⟩
  have := (next_unique h h').1
  simpa using this

/-- **C43.**  With too few operands for an arithmetic, conditional or stack operator `next` fails, in
every build, with an error that asks for operands. -/
theorem C43_fewer {cfg : Config} {s : Program} (hs : Sound s) {xs : List F32} {op : Operator} {rest : List UInt8} {n : Nat}
    (h : Ahead s xs op rest) (hop : operandsOf op = some n) (hn : (s.stack ++ xs).length < n) :
    ∃ r t, r ∈ [Reason.expectedOperand, .expectedMoreOperands, .expectedOtherOperand] ∧ Next cfg s (.err (.raised r)) t := by
  obtain ⟨bs, hx, hl⟩ := h
  rw [List.append_assoc] at hl
  have hne : (view s).code ≠ [] := by
    show left s.routine ≠ []
    rw [hl]
    have : bytes op ≠ [] := by cases op <;> decide
    simp [this]
  let υ : State := { view s with code := bytes op ++ rest, stack := s.stack ++ xs }
  have hp : Pushes (view s) υ := pushes_iff.mpr ⟨xs, bs, hx, hl, rfl⟩
  have ho : Ordered υ op := ⟨rest, rfl⟩
  suffices hf : ∃ r, r ∈ [Reason.expectedOperand, .expectedMoreOperands, .expectedOtherOperand] ∧ Fault cfg υ (.raised r) by
    obtain ⟨r, hr, hf⟩ := hf
    obtain ⟨t, ht⟩ := (C71_error_iff hs _).mpr ⟨_, υ, .refl, hne, hp, hf⟩
    exact ⟨r, t, hr, ht⟩
  by_cases hmem : op ∈ [Operator.opDup, .opIndex, .opRoll]
  swap
  · exact ⟨_, by simp, .fewer hop hmem ho hn⟩
  have hcase : s.stack ++ xs = [] ∨ ∃ x, op ≠ .opDup ∧ s.stack ++ xs = [x] := by
    match hst : s.stack ++ xs with
    | [] => exact .inl rfl
    | [x] =>
      refine .inr ⟨x, ?_, rfl⟩
      rintro rfl
      rw [hst] at hn
      cases hop
      simp at hn
    | _ :: _ :: _ =>
      rw [hst] at hn
      have h2 : n ≤ 2 := by
        simp only [List.mem_cons, List.not_mem_nil, or_false] at hmem
        rcases hmem with rfl | rfl | rfl <;> cases hop <;> decide
      simp only [List.length_cons] at hn
      omega
  have none : ∀ {st : List F32} {x : F32} {i : Int}, s.stack ++ xs = [] → υ.stack = st ++ [x] → ¬ IntArg x i := by
    intro st x i h0 h1
    have h2 : s.stack ++ xs = st ++ [x] := h1
    rw [h0] at h2
    simp at h2
  have last : ∀ {x y : F32} {st : List F32}, s.stack ++ xs = [x] → υ.stack = st ++ [y] → y = x := by
    intro x y st h0 h1
    have h2 : s.stack ++ xs = st ++ [y] := h1
    rw [h0] at h2
    have := congrArg List.getLast? h2
    simp at this
    exact this.symm
  simp only [List.mem_cons, List.not_mem_nil, or_false] at hmem
  rcases hmem with rfl | rfl | rfl
  · rcases hcase with h0 | ⟨_, h1, _⟩
    · exact ⟨_, by simp, .dup ho h0⟩
    · exact absurd rfl h1
  · rcases hcase with h0 | ⟨x, -, h1⟩
    · exact ⟨_, by simp, .type (by simp) ho (fun st x i h => none h0 h)⟩
    · by_cases hi : ∃ i, IntArg x i
      · obtain ⟨i, hi⟩ := hi
        exact ⟨_, by simp, .index (st := []) ho h1 hi (.inr rfl)⟩
      · exact ⟨_, by simp, .type (by simp) ho (fun st y i h hy => hi ⟨i, last h1 h ▸ hy⟩)⟩
  · rcases hcase with h0 | ⟨x, -, h1⟩
    · exact ⟨_, by simp, .type (by simp) ho (fun st x i h => none h0 h)⟩
    · by_cases hi : ∃ i, IntArg x i
      · obtain ⟨i, hi⟩ := hi
        exact ⟨_, by simp, .rollType (st := []) ho h1 hi (fun st' x n h => by simp at h)⟩
      · exact ⟨_, by simp, .type (by simp) ho (fun st y i h hy => hi ⟨i, last h1 h ▸ hy⟩)⟩

/-- `7 roll`: the number of operands to roll is missing. -/
example : Ahead (Program.new [146, 12, 30] [] []) [F32.ofInt 7] .opRoll [] ∧ operandsOf .opRoll = some 2 ∧
    Next checked (Program.new [146, 12, 30] [] []) (.err (.raised .expectedOtherOperand))
      (after checked (Program.new [146, 12, 30] [] [])) :=
  ⟨⟨[146], .cons (b := [146]) (bs := []) (operand_byte 146 (by decide) (by decide)) .nil, rfl⟩, rfl, 100, by decide +kernel⟩

/-- `1 2 add 7 return`: there is nowhere to return to. -/
def lostReturn : Program := Program.new [140, 141, 12, 10, 146, 11] [] []

example : Sound lostReturn ∧ Next release lostReturn (.err (.raised .noCaller)) (after release lostReturn) :=
  ⟨sound_new (by decide) (by decide) (by decide), 100, by decide +kernel⟩

/-- `1 -107 callsubr` with the subroutine `endchar 5`: there is code left. -/
def lateEnd : Program := Program.new [140, 32, 10] [] [[14, 144]]

example : Sound lateEnd ∧ Next release lateEnd (.err (.raised .trailingData)) (after release lateEnd) :=
  ⟨sound_new (by decide) (by decide) (by decide), 100, by decide +kernel⟩

end PS.Type2
