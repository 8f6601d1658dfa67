import Verif.Lemmas.Type2Dispatch
/-!
# Lemmas: a step of `next` is a turn of the machine
-/
namespace PS.Type2
open PS.Spec hiding Operand Operation
open PS.Type2.Spec

/-! ## Operands stay binary32 numbers -/

theorem wf_abs {x : F32} (h : x.WF) : (absolute x).WF := by
  cases x <;> simp_all [absolute, F32.WF]

theorem wf_neg {x : F32} (h : x.WF) : (opposite x).WF := by
  cases x <;> simp_all [opposite, F32.WF]

theorem wf_zero (s : Bool) : (F32.fin s 0 0).WF := by simp [F32.WF]

theorem wf_add (x y : F32) : (F32.add x y).WF := by
  rcases x with _ | s | ⟨s, m, e⟩ <;> rcases y with _ | t | ⟨t, n, f⟩ <;> simp only [F32.add]
  any_goals trivial
  · split <;> trivial
  · split
    · exact wf_zero _
    · exact round_wf _ (by norm_num)

theorem wf_mul (x y : F32) : (F32.mul x y).WF := by
  rcases x with _ | s | ⟨s, m, e⟩ <;> rcases y with _ | t | ⟨t, n, f⟩ <;> simp only [F32.mul]
  any_goals trivial
  · split <;> trivial
  · split <;> trivial
  · exact round_wf _ (by positivity)

theorem wf_div (x y : F32) : (F32.div x y).WF := by
  rcases x with _ | s | ⟨s, m, e⟩ <;> rcases y with _ | t | ⟨t, n, f⟩ <;> simp only [F32.div]
  any_goals trivial
  split
  · split <;> trivial
  · exact round_wf _ (by positivity)

theorem wf_sqrt (x : F32) : (F32.sqrt x).WF := by
  rcases x with _ | s | ⟨s, m, e⟩ <;> simp only [F32.sqrt]
  · trivial
  · split <;> trivial
  · split
    · exact wf_zero _
    · split
      · trivial
      · split <;> exact round_wf _ (by norm_num)

theorem wf_truth (b : Bool) : (truth b).WF := by
  cases b <;> decide +kernel

theorem rolled_mem {j : Int} {as bs : List F32} (h : Rolled j as bs) {x : F32} (hx : x ∈ bs) : x ∈ as := by
  obtain ⟨hl, h⟩ := h
  obtain ⟨k, hk, rfl⟩ := List.mem_iff_getElem.mp hx
  have hn : 0 < as.length := by omega
  have hn' : (as.length : Int) ≠ 0 := by omega
  set i := ((k - j) % as.length).toNat with hi
  have h0 : 0 ≤ ((k : Int) - j) % as.length := Int.emod_nonneg _ hn'
  have h1 : ((k : Int) - j) % as.length < as.length := Int.emod_lt_of_pos _ (by omega)
  have hil : i < as.length := by omega
  have := h i hil
  have he : ((i : Int) + j) % as.length = k := by
    rw [hi, Int.toNat_of_nonneg h0, Int.emod_add_emod, Int.sub_add_cancel]
    exact Int.emod_eq_of_lt (by omega) (by omega)
  rw [he, Int.toNat_natCast, List.getElem?_eq_getElem hk, List.getElem?_eq_getElem hil] at this
  rw [Option.some.inj this]
  exact List.getElem_mem _

theorem stackOp_wf {c : Bool} {op : Operator} {st st' : List F32} (h : StackOp c op st st') (hw : ∀ x ∈ st, x.WF) :
    ∀ x ∈ st', x.WF := by
  cases h with
  | abs st x =>
    intro y hy
    rcases List.mem_append.mp hy with hy | hy
    · exact hw y (by simp [hy])
    · rw [List.mem_singleton.mp hy]; exact wf_abs (hw x (by simp))
  | neg st x =>
    intro y hy
    rcases List.mem_append.mp hy with hy | hy
    · exact hw y (by simp [hy])
    · rw [List.mem_singleton.mp hy]; exact wf_neg (hw x (by simp))
  | @sqrt st x z hz =>
    intro y hy
    rcases List.mem_append.mp hy with hy | hy
    · exact hw y (by simp [hy])
    · rw [List.mem_singleton.mp hy, (root_iff (hw x (by simp))).mp hz]; exact wf_sqrt x
  | @add st x y w h' =>
    intro z hz
    rcases List.mem_append.mp hz with hz | hz
    · exact hw z (by simp [hz])
    · rw [List.mem_singleton.mp hz, sum_iff.mp h']; exact wf_add x y
  | @sub st x y w h' =>
    intro z hz
    rcases List.mem_append.mp hz with hz | hz
    · exact hw z (by simp [hz])
    · rw [List.mem_singleton.mp hz, difference_iff.mp h']; exact wf_add x y.neg
  | @mul st x y w h' =>
    intro z hz
    rcases List.mem_append.mp hz with hz | hz
    · exact hw z (by simp [hz])
    · rw [List.mem_singleton.mp hz, product_iff.mp h']; exact wf_mul x y
  | @div st x y w h' =>
    intro z hz
    rcases List.mem_append.mp hz with hz | hz
    · exact hw z (by simp [hz])
    · rw [List.mem_singleton.mp hz, quotient_iff.mp h']; exact wf_div x y
  | drop st x => intro y hy; exact hw y (by simp [hy])
  | exch st x y => intro z hz; exact hw z (by simp at hz ⊢; tauto)
  | dup st x => intro z hz; exact hw z (by simp at hz ⊢; tauto)
  | index st above x n _ _ => intro z hz; exact hw z (by simp at hz ⊢; tauto)
  | indexNegative st x n _ _ => intro z hz; exact hw z (by simp at hz ⊢; tauto)
  | roll st as bs x y _ _ _ _ hr =>
    intro z hz
    rcases List.mem_append.mp hz with hz | hz
    · exact hw z (by simp [hz])
    · exact hw z (by simp [rolled_mem hr hz])
  | rollLeast st as x y _ _ _ _ => intro z hz; exact hw z (by simp at hz ⊢; tauto)
  | and st x y =>
    intro z hz
    rcases List.mem_append.mp hz with hz | hz
    · exact hw z (by simp [hz])
    · rw [List.mem_singleton.mp hz]; exact wf_truth _
  | or st x y =>
    intro z hz
    rcases List.mem_append.mp hz with hz | hz
    · exact hw z (by simp [hz])
    · rw [List.mem_singleton.mp hz]; exact wf_truth _
  | not st x =>
    intro z hz
    rcases List.mem_append.mp hz with hz | hz
    · exact hw z (by simp [hz])
    · rw [List.mem_singleton.mp hz]; exact wf_truth _
  | eq st x y =>
    intro z hz
    rcases List.mem_append.mp hz with hz | hz
    · exact hw z (by simp [hz])
    · rw [List.mem_singleton.mp hz]; exact wf_truth _
  | ifElse st s1 s2 v1 v2 =>
    intro z hz
    rcases List.mem_append.mp hz with hz | hz
    · exact hw z (by simp [hz])
    · rw [List.mem_singleton.mp hz]
      split
      · exact hw _ (by simp)
      · exact hw _ (by simp)

/-! ## A stack operator has one result -/

theorem snoc_inj {st st' : List F32} {x y : F32} (h : st ++ [x] = st' ++ [y]) : st = st' ∧ x = y := by
  have := List.append_inj' h rfl
  simpa using this

theorem two_inj {st st' : List F32} {x y x' y' : F32} (h : st ++ [x, y] = st' ++ [x', y']) :
    st = st' ∧ x = x' ∧ y = y' := by
  have := List.append_inj' h rfl
  simpa using this

theorem four_inj {st st' : List F32} {a b c d a' b' c' d' : F32} (h : st ++ [a, b, c, d] = st' ++ [a', b', c', d']) :
    st = st' ∧ a = a' ∧ b = b' ∧ c = c' ∧ d = d' := by
  have := List.append_inj' h rfl
  simpa using this

theorem stackOp_unique {c : Bool} {op : Operator} {st s1 s2 : List F32} (hw : ∀ x ∈ st, x.WF)
    (h1 : StackOp c op st s1) (h2 : StackOp c op st s2) : s1 = s2 := by
  generalize hst : st = st' at h2
  cases h1 with
  | abs _ _ => cases h2; obtain ⟨rfl, rfl⟩ := snoc_inj hst; rfl
  | neg _ _ => cases h2; obtain ⟨rfl, rfl⟩ := snoc_inj hst; rfl
  | @sqrt st0 x0 _ h =>
    cases h2 with
    | sqrt _ h' =>
      have hx := hw x0 (by simp)
      obtain ⟨rfl, rfl⟩ := snoc_inj hst
      rw [(root_iff hx).mp h, (root_iff hx).mp h']
  | not _ _ => cases h2; obtain ⟨rfl, rfl⟩ := snoc_inj hst; rfl
  | drop _ _ => cases h2; obtain ⟨rfl, rfl⟩ := snoc_inj hst; rfl
  | dup _ _ => cases h2; obtain ⟨rfl, rfl⟩ := snoc_inj hst; rfl
  | add _ h => cases h2 with | add _ h' => obtain ⟨rfl, rfl, rfl⟩ := two_inj hst; rw [sum_iff.mp h, sum_iff.mp h']
  | sub _ h => cases h2 with | sub _ h' => obtain ⟨rfl, rfl, rfl⟩ := two_inj hst; rw [difference_iff.mp h, difference_iff.mp h']
  | mul _ h => cases h2 with | mul _ h' => obtain ⟨rfl, rfl, rfl⟩ := two_inj hst; rw [product_iff.mp h, product_iff.mp h']
  | div _ h => cases h2 with | div _ h' => obtain ⟨rfl, rfl, rfl⟩ := two_inj hst; rw [quotient_iff.mp h, quotient_iff.mp h']
  | exch _ _ _ => cases h2; obtain ⟨rfl, rfl, rfl⟩ := two_inj hst; rfl
  | and _ _ _ => cases h2; obtain ⟨rfl, rfl, rfl⟩ := two_inj hst; rfl
  | or _ _ _ => cases h2; obtain ⟨rfl, rfl, rfl⟩ := two_inj hst; rfl
  | eq _ _ _ => cases h2; obtain ⟨rfl, rfl, rfl⟩ := two_inj hst; rfl
  | ifElse _ _ _ _ _ => cases h2; obtain ⟨rfl, rfl, rfl, rfl, rfl⟩ := four_inj hst; rfl
  | index a b x n hi hl =>
    have hn := hw n (by simp)
    cases h2 with
    | index a' b' x' n' hi' hl' =>
      obtain ⟨h, rfl⟩ := snoc_inj hst
      have := intArg_unique hn hi hi'
      subst this
      obtain ⟨rfl, h''⟩ := List.append_inj' h (by simp; omega)
      obtain ⟨rfl, rfl⟩ := List.cons.inj h''
      rfl
    | indexNegative a' x' n' hi' hl' =>
      obtain ⟨h, rfl⟩ := snoc_inj (st := a ++ x :: b) (x := n) (st' := a' ++ [x']) (y := n') (by simpa using hst)
      have := intArg_unique hn hi hi'
      omega
  | indexNegative a x n hi hl =>
    have hn := hw n (by simp)
    cases h2 with
    | index a' b' x' n' hi' hl' =>
      obtain ⟨h, rfl⟩ := snoc_inj (st := a ++ [x]) (x := n) (st' := a' ++ x' :: b') (y := n') (by simpa using hst)
      have := intArg_unique hn hi hi'
      omega
    | indexNegative a' x' n' hi' hl' => obtain ⟨rfl, rfl, rfl⟩ := two_inj hst; rfl
  | roll a as bs x y hx hy hl hne hr =>
    have hxw := hw x (by simp)
    have hyw := hw y (by simp)
    cases h2 with
    | roll a' as' bs' x' y' hx' hy' hl' hne' hr' =>
      obtain ⟨h, rfl, rfl⟩ := two_inj hst
      have := intArg_unique hxw hx hx'
      subst this
      have := intArg_unique hyw hy hy'
      subst this
      obtain ⟨rfl, rfl⟩ := List.append_inj' h (by omega)
      rw [rolled_unique hr hr']
    | rollLeast a' as' x' y' hc hx' hy' hl' =>
      obtain ⟨h, rfl, rfl⟩ := two_inj hst
      have := intArg_unique hxw hx hx'
      subst this
      have := intArg_unique hyw hy hy'
      subst this
      obtain ⟨rfl, rfl⟩ := List.append_inj' h (by omega)
      have h0 : as = [] := by
        rcases hne with hne | hne
        · exact absurd rfl hne
        · exact List.length_eq_zero_iff.mp (by omega)
      subst h0
      rw [List.length_eq_zero_iff.mp hr.1]
  | rollLeast a as x y hc hx hy hl =>
    have hxw := hw x (by simp)
    have hyw := hw y (by simp)
    cases h2 with
    | roll a' as' bs' x' y' hx' hy' hl' hne' hr' =>
      obtain ⟨h, rfl, rfl⟩ := two_inj hst
      have := intArg_unique hxw hx hx'
      subst this
      have := intArg_unique hyw hy hy'
      subst this
      obtain ⟨rfl, rfl⟩ := List.append_inj' h (by omega)
      have h0 : as = [] := by
        rcases hne' with hne | hne
        · exact absurd rfl hne
        · exact List.length_eq_zero_iff.mp (by omega)
      subst h0
      rw [List.length_eq_zero_iff.mp hr'.1]
    | rollLeast a' as' x' y' hc hx' hy' hl' =>
      obtain ⟨h, rfl, rfl⟩ := two_inj hst
      have := intArg_unique hxw hx hx'
      subst this
      obtain ⟨rfl, rfl⟩ := List.append_inj' h (by omega)
      rfl

/-! ## Soundness of states -/

theorem sound_adv {s : Program} (hs : Sound s) {xs : List F32} (hx : ∀ x ∈ xs, x.WF) {n : Nat}
    (hn : n ≤ (left s.routine).length) : Sound (adv s xs n) := by
  rw [left_length] at hn
  have := hs.routine
  refine ⟨?_, hs.callers, ?_, hs.subroutines, hs.counts, ?_⟩
  · simp only [adv]; omega
  · intro r hr
    simp only [adv, List.mem_cons] at hr
    rcases hr with rfl | hr
    · exact hs.size s.routine (by simp)
    · exact hs.size r (by simp [hr])
  · intro x h
    simp only [adv, List.mem_append] at h
    rcases h with h | h
    · exact hs.stack x h
    · exact hx x h

theorem seq_wf {xs : List F32} {bs : List UInt8} (h : Seq Operand xs bs) : ∀ x ∈ xs, x.WF := by
  induction h with
  | nil => simp
  | cons h _ ih =>
    intro x hx
    rcases List.mem_cons.mp hx with rfl | hx
    · exact operand_wf h
    · exact ih x hx

theorem sound_with {s : Program} (hs : Sound s) {st : List F32} (hst : ∀ x ∈ st, x.WF) (n : Nat) (w : Option F32) :
    Sound { s with stack := st, stems := n, width := w } :=
  ⟨hs.routine, hs.callers, hs.size, hs.subroutines, hs.counts, hst⟩

theorem sound_new {code : List UInt8} {global «local» : List (List UInt8)} (h1 : code.length < 2 ^ 63)
    (h2 : ∀ c ∈ global ++ «local», c.length < 2 ^ 63) (h3 : global.length ≤ 2 ^ 31 ∧ «local».length ≤ 2 ^ 31) :
    Sound (Program.new code global «local») := by
  refine ⟨by simp [Program.new, Routine.new], by simp [Program.new], ?_, h2, h3, by simp [Program.new]⟩
  intro r hr
  simp only [Program.new, Routine.new, List.mem_cons, List.not_mem_nil, or_false] at hr
  subst hr
  exact h1

/-! ## Operators -/

/-- The state in which `op` is next, and then comes what `t` is about to execute. -/
def before (op : Operator) (t : Program) : State := { view t with code := bytes op ++ left t.routine }

/-- Neither an operation nor anything else comes of this state. -/
def Stuck (checks : Bool) (υ : State) : Prop :=
  (∀ τ, ¬ Quiet checks υ τ) ∧ (∀ o τ, ¬ Emit υ o τ) ∧ ∀ τ, ¬ End υ τ

theorem before_code {op op' : Operator} {t : Program} {rest : List UInt8} (h : (before op t).code = bytes op' ++ rest) :
    op = op' ∧ left t.routine = rest := bytes_unique h

theorem dispatch_of_stackOp {cfg : Config} {op : Operator} {s : Program} (hw : ∀ x ∈ s.stack, x.WF) {st' : List F32}
    (h : StackOp cfg.checks op s.stack st') : dispatch op cfg s = (.ok .again, { s with stack := st' }) := by
  rcases dispatch_stack cfg (stackOp_isStackOp h) hw with ⟨st'', h', he⟩ | hbad
  · rw [he, stackOp_unique hw h h']
  exfalso
  generalize hst : s.stack = st at h
  have hbad : ∀ s', dispatch op cfg s ≠ (.ok .again, s') := by
    intro s' he
    rcases hbad with ⟨r, s'', h'⟩ | ⟨_, _, _, s'', h'⟩ <;> rw [h'] at he <;> simp at he
  cases h with
  | abs st x => exact hbad _ ((PM.bind_of_ok (pop_snoc hst)).trans (PM.bind_of_ok (push_eq _ _ _)))
  | neg st x => exact hbad _ ((PM.bind_of_ok (pop_snoc hst)).trans (PM.bind_of_ok (push_eq _ _ _)))
  | sqrt st x => exact hbad _ ((PM.bind_of_ok (pop_snoc hst)).trans (PM.bind_of_ok (push_eq _ _ _)))
  | drop st x => exact hbad _ (PM.bind_of_ok (pop_snoc hst))
  | not st x => exact hbad _ ((PM.bind_of_ok (popBool_snoc hst)).trans (PM.bind_of_ok (push_eq _ _ _)))
  | add st h => exact hbad _ ((pop_two hst _).trans (PM.bind_of_ok (push_eq _ _ _)))
  | sub st h => exact hbad _ ((pop_two hst _).trans (PM.bind_of_ok (push_eq _ _ _)))
  | mul st h => exact hbad _ ((pop_two hst _).trans (PM.bind_of_ok (push_eq _ _ _)))
  | div st h => exact hbad _ ((pop_two hst _).trans (PM.bind_of_ok (push_eq _ _ _)))
  | eq st x y => exact hbad _ ((pop_two hst _).trans (PM.bind_of_ok (push_eq _ _ _)))
  | exch st x y =>
    exact hbad _ ((pop_two hst _).trans ((PM.bind_of_ok (push_eq _ _ _)).trans (PM.bind_of_ok (push_eq _ _ _))))
  | and st x y => exact hbad _ ((popBool_two hst _).trans (PM.bind_of_ok (push_eq _ _ _)))
  | or st x y => exact hbad _ ((popBool_two hst _).trans (PM.bind_of_ok (push_eq _ _ _)))
  | ifElse st s1 s2 v1 v2 =>
    have hst' : s.stack = (st ++ [s1, s2]) ++ [v1, v2] := by simp [hst]
    exact hbad _ ((pop_two hst' _).trans ((pop_two (s := { s with stack := st ++ [s1, s2] }) rfl _).trans
      (PM.bind_of_ok (push_eq _ _ _))))
  | dup st x =>
    have hr : readStack 0 cfg s = (.ok x, s) := readStack_ok (above := []) hst
    exact hbad _ ((PM.bind_of_ok hr).trans (PM.bind_of_ok (push_eq _ _ _)))
  | @index st above x n i hi hl =>
    have hn : n.WF := hw n (by simp [hst])
    refine hbad { s with stack := st ++ x :: above ++ [x] } ((PM.bind_of_ok (popInt_ok hst hn hi)).trans ?_)
    · have : (if i ≥ 0 then i.toNat else 0) = above.length := by
        rw [hl, if_pos (by omega)]; simp
      rw [this]
      exact (PM.bind_of_ok (readStack_ok (s := { s with stack := st ++ x :: above }) rfl)).trans
        (PM.bind_of_ok (push_eq _ _ _))
  | @indexNegative st x n i hi hl =>
    have hst' : s.stack = (st ++ [x]) ++ [n] := by simp [hst]
    have hn : n.WF := hw n (by simp [hst])
    refine hbad { s with stack := st ++ [x] ++ [x] } ((PM.bind_of_ok (popInt_ok hst' hn hi)).trans ?_)
    · have : (if i ≥ 0 then i.toNat else 0) = 0 := by
        rw [if_neg (by omega)]
      rw [this]
      have hr : readStack 0 cfg { s with stack := st ++ [x] } = (.ok x, { s with stack := st ++ [x] }) :=
        readStack_ok (above := []) rfl
      exact (PM.bind_of_ok hr).trans (PM.bind_of_ok (push_eq _ _ _))
  | roll st as bs x y hx hy hl hne hr =>
    have hxw : x.WF := hw x (by simp [hst])
    have hyw : y.WF := hw y (by simp [hst])
    obtain ⟨bs', _, he⟩ := roll_ok (cfg := cfg) hst hxw hyw hx hy hl hne
    exact hbad _ (PM.bind_of_ok he)
  | rollLeast st as x y hc hx hy hl =>
    have hxw : x.WF := hw x (by simp [hst])
    have hyw : y.WF := hw y (by simp [hst])
    by_cases h0 : (as.length : Int) = 0
    · obtain ⟨bs', _, he⟩ := roll_ok (cfg := cfg) hst hxw hyw hx hy hl (.inr (by omega))
      exact hbad _ (PM.bind_of_ok he)
    · have he := roll_least (cfg := cfg) hst hxw hyw hx hy hl (by omega)
      rw [hc] at he
      exact hbad _ (PM.bind_of_ok he)

theorem sound_call {s : Program} (hs : Sound s) {body : List UInt8} (hb : body ∈ s.global ++ s.local) {st : List F32}
    (hst : ∀ x ∈ st, x.WF) :
    Sound { s with routine := Routine.new body, callers := s.routine :: s.callers, stack := st } := by
  refine ⟨by simp [Routine.new], ?_, ?_, hs.subroutines, hs.counts, hst⟩
  · intro r hr
    rcases List.mem_cons.mp hr with rfl | hr
    · exact hs.routine
    · exact hs.callers r hr
  · intro r hr
    rcases List.mem_cons.mp hr with rfl | hr
    · exact hs.subroutines _ hb
    · exact hs.size r hr

theorem sound_return {s : Program} (hs : Sound s) {r : Routine} {cs : List Routine} (h : ∀ x ∈ r :: cs, x ∈ s.routine :: s.callers) 
    (w : Option F32) : Sound { s with routine := r, callers := cs, width := w } := by
  have hp : ∀ x ∈ s.routine :: s.callers, x.pos ≤ x.code.length := by
    intro x hx
    rcases List.mem_cons.mp hx with rfl | hx
    · exact hs.routine
    · exact hs.callers x hx
  exact ⟨hp r (h r (by simp)), fun x hx => hp x (h x (by simp [hx])), fun x hx => hs.size x (h x hx), hs.subroutines,
    hs.counts, hs.stack⟩

theorem dispatch_return_of {cfg : Config} {s : Program} {c : Routine} {cs : List Routine} (h : s.callers = c :: cs) :
    dispatch .opReturn cfg s = (.ok .again, { s with routine := c, callers := cs }) := by
  refine (PM.bind_of_ok (m := PM.get) (a := s) (s' := s) rfl).trans ?_
  simp only [h]
  rfl

theorem dispatch_return_nil {cfg : Config} {s : Program} (h : s.callers = []) :
    dispatch .opReturn cfg s = (.err (.raised .noCaller), s) := by
  refine (PM.bind_of_ok (m := PM.get) (a := s) (s' := s) rfl).trans ?_
  simp only [h]
  rfl

theorem dispatch_of_quiet {cfg : Config} {op : Operator} {t : Program} (ht : Sound t) {τ : State}
    (h : Quiet cfg.checks (before op t) τ) :
    ∃ s', dispatch op cfg t = (.ok .again, s') ∧ view s' = τ ∧ Sound s' := by
  cases h with
  | stack hc hst =>
    obtain ⟨rfl, rfl⟩ := before_code hc
    exact ⟨_, dispatch_of_stackOp ht.stack hst, rfl, sound_with ht (stackOp_wf hst ht.stack) _ _⟩
  | @callLocal rest st x a i body hc h1 h2 h3 h4 =>
    obtain ⟨rfl, rfl⟩ := before_code hc
    have he := call_of Program.local (fun _ _ => rfl) cfg ht.stack ht.counts.2 h1 h2 h3 h4
    refine ⟨_, PM.bind_of_ok he, by simp [view, before, left, Routine.new], ?_⟩
    refine sound_call ht (List.mem_append_right _ (List.mem_of_getElem? h4)) (fun x hx => ht.stack x ?_)
    have h1' : t.stack = _ := h1
    simp [h1', hx]
  | @callGlobal rest st x a i body hc h1 h2 h3 h4 =>
    obtain ⟨rfl, rfl⟩ := before_code hc
    have he := call_of Program.global (fun _ _ => rfl) cfg ht.stack ht.counts.1 h1 h2 h3 h4
    refine ⟨_, PM.bind_of_ok he, by simp [view, before, left, Routine.new], ?_⟩
    refine sound_call ht (List.mem_append_left _ (List.mem_of_getElem? h4)) (fun x hx => ht.stack x ?_)
    have h1' : t.stack = _ := h1
    simp [h1', hx]
  | «return» hc h1 =>
    obtain ⟨rfl, rfl⟩ := before_code hc
    rcases hcs : t.callers with _ | ⟨c, cs⟩
    · simp [before, view, hcs] at h1
    · simp only [before, view, hcs, List.map_cons, List.cons.injEq] at h1
      obtain ⟨rfl, rfl⟩ := h1
      refine ⟨_, dispatch_return_of hcs, rfl, sound_return ht (fun x hx => by rw [hcs]; exact List.mem_cons_of_mem _ hx) _⟩

theorem longest_unique {op : Operator} {st b b' a a' : List F32} (h : Longest op st b a) (h' : Longest op st b' a') :
    b = b' ∧ a = a' := by
  obtain ⟨h1, h2, h3⟩ := h
  obtain ⟨h1', h2', h3'⟩ := h'
  have e1 := h3 a' ⟨b', h1'.symm⟩ h2'
  have e2 := h3' a ⟨b, h1.symm⟩ h2
  exact List.append_inj' (h1.symm.trans h1') (by omega)

theorem dispatch_of_emit {cfg : Config} {op : Operator} {t : Program} (ht : Sound t) {o : Operation} {τ : State}
    (h : Emit (before op t) o τ) :
    ∃ s', dispatch op cfg t = (.ok (.ret (some o)), s') ∧ view s' = τ ∧ Sound s' := by
  cases h with
  | path hop hc hl =>
    obtain ⟨rfl, rfl⟩ := before_code hc
    rcases dispatch_path hop cfg t with ⟨b, a, hl', he⟩ | ⟨hn, _⟩
    · obtain ⟨rfl, rfl⟩ := longest_unique hl' hl
      exact ⟨_, he, rfl, sound_with ht (by simp) _ _⟩
    · exact absurd hl.2.1 (hn _ ⟨_, hl.1.symm⟩)
  | stem hop hc hl =>
    obtain ⟨rfl, rfl⟩ := before_code hc
    rcases dispatch_stem hop cfg t with ⟨b, a, hl', he⟩ | ⟨hn, _⟩
    · obtain ⟨rfl, rfl⟩ := longest_unique hl' hl
      exact ⟨_, he, rfl, sound_with ht (by simp) _ _⟩
    · exact absurd hl.2.1 (hn _ ⟨_, hl.1.symm⟩)
  | mask hop hc hm =>
    obtain ⟨rfl, hc'⟩ := before_code (hc.trans (List.append_assoc _ _ _))
    have hml : (left t.routine).length = _ := congrArg List.length hc'
    rw [List.length_append, hm] at hml
    have hml' : maskLength t ≤ (left t.routine).length := by
      rw [hml]; exact Nat.le_add_right _ _
    rcases dispatch_mask hop cfg t ht.routine (ht.size _ (by simp)) with ⟨hle, he⟩ | ⟨hn, _⟩ | ⟨hn, _⟩
    · refine ⟨_, he, ?_, ?_⟩
      · simp only [view, before]
        congr 1
        unfold left at hc' ⊢
        simp only []
        rw [← List.drop_drop, hc', List.drop_append_of_le_length (by rw [hm]; exact Nat.le_refl _), List.drop_eq_nil_of_le (by rw [hm]; exact Nat.le_refl _)]
        rfl
      · have := sound_adv ht (xs := []) (by simp) hml'
        exact sound_with (s := { t with routine := { t.routine with pos := t.routine.pos + maskLength t } })
          (by simpa [adv] using this) (by simp) _ _
    · omega
    · have := left_length t.routine
      have := ht.size _ (List.mem_cons_self (a := t.routine) (l := t.callers))
      omega

theorem sound_pos {s : Program} (hs : Sound s) : ∀ x ∈ s.routine :: s.callers, x.pos ≤ x.code.length := by
  intro x hx
  rcases List.mem_cons.mp hx with rfl | hx
  · exact hs.routine
  · exact hs.callers x hx

theorem dispatch_of_end {cfg : Config} {op : Operator} {t : Program} (ht : Sound t) {τ : State}
    (h : End (before op t) τ) :
    ∃ s', dispatch op cfg t = (.ok (.ret none), s') ∧ view s' = τ ∧ Sound s' := by
  cases h with
  | endchar hc hr =>
    obtain ⟨rfl, rfl⟩ := before_code hc
    rcases dispatch_end cfg (sound_pos ht) with ⟨k, main, hm, hl, he⟩ | ⟨hn, _⟩
    · have hr' : left t.routine :: t.callers.map left = _ := hr
      rw [hl] at hr'
      have := replicate_snoc_unique hr'
      subst this
      exact ⟨_, he, rfl, sound_return ht (fun x hx => by rw [List.mem_singleton.mp hx]; exact hm) _⟩
    · exact absurd hr (hn _ _)

/-- What comes of executing an operator, in terms of the machine. -/
theorem dispatch_cases (cfg : Config) (op : Operator) {t : Program} (ht : Sound t) :
    (∃ s', dispatch op cfg t = (.ok .again, s') ∧ Quiet cfg.checks (before op t) (view s') ∧ Sound s') ∨
    (∃ o s', dispatch op cfg t = (.ok (.ret (some o)), s') ∧ Emit (before op t) o (view s') ∧ Sound s') ∨
    (∃ s', dispatch op cfg t = (.ok (.ret none), s') ∧ End (before op t) (view s') ∧ Sound s') ∨
    (Stuck cfg.checks (before op t) ∧
      ((∃ r s', dispatch op cfg t = (.err (.raised r), s')) ∨
       (Mask op ∧ (left t.routine).length < maskLength t ∧ ∃ s', dispatch op cfg t = (.err .eof, s')) ∨
       (Mask op ∧ 2 ^ 63 - 1 < maskLength t ∧ cfg.prealloc = true ∧ ∃ s', dispatch op cfg t = (.panic .capacity, s')) ∨
       (((op = .opRoll ∧ LeastRoll t.stack) ∨ (op = .opCallSubr ∧ FarCall t.stack t.local.length) ∨
          (op = .opCallGSubr ∧ FarCall t.stack t.global.length)) ∧ cfg.checks = true ∧
          ∃ s', dispatch op cfg t = (.panic .overflow, s')))) := by
  have stuck : (∀ f s', dispatch op cfg t ≠ (.ok f, s')) → Stuck cfg.checks (before op t) := by
    intro h
    refine ⟨fun τ hq => ?_, fun o τ he => ?_, fun τ he => ?_⟩
    · obtain ⟨s', h', _⟩ := dispatch_of_quiet ht hq; exact h _ _ h'
    · obtain ⟨s', h', _⟩ := dispatch_of_emit (cfg := cfg) ht he; exact h _ _ h'
    · obtain ⟨s', h', _⟩ := dispatch_of_end (cfg := cfg) ht he; exact h _ _ h'
  have hraised : ∀ {r s'} {P : Prop}, dispatch op cfg t = (.err (.raised r), s') →
      Stuck cfg.checks (before op t) ∧ ((∃ r s', dispatch op cfg t = (.err (.raised r), s')) ∨ P) :=
    fun {r s' P} h => ⟨stuck (fun f s'' h' => by rw [h] at h'; simp at h'), .inl ⟨r, s', h⟩⟩
  by_cases h1 : isStackOp op = true
  · rcases dispatch_stack cfg h1 ht.stack with ⟨st', h', he⟩ | ⟨r, s', he⟩ | ⟨hop, hl, hck, s', he⟩
    · exact .inl ⟨_, he, .stack rfl h', sound_with ht (stackOp_wf h' ht.stack) _ _⟩
    · exact .inr (.inr (.inr (hraised he)))
    · exact .inr (.inr (.inr ⟨stuck (fun f s'' h' => by rw [he] at h'; simp at h'),
        .inr (.inr (.inr ⟨.inl ⟨hop, hl⟩, hck, s', he⟩))⟩))
  by_cases h2 : Path op
  · rcases dispatch_path h2 cfg t with ⟨b, a, hl, he⟩ | ⟨_, he⟩
    · exact .inr (.inl ⟨_, _, he, .path h2 rfl hl, sound_with ht (by simp) _ _⟩)
    · exact .inr (.inr (.inr (hraised he)))
  by_cases h3 : Stem op
  · rcases dispatch_stem h3 cfg t with ⟨b, a, hl, he⟩ | ⟨_, he⟩
    · exact .inr (.inl ⟨_, _, he, .stem h3 rfl hl, sound_with ht (by simp) _ _⟩)
    · exact .inr (.inr (.inr (hraised he)))
  by_cases h4 : Mask op
  · rcases dispatch_mask h4 cfg t ht.routine (ht.size _ (by simp)) with ⟨hle, he⟩ | ⟨hlt, ⟨s', he⟩, _⟩ | ⟨hlt, hpre, s', he⟩
    · have hem : Emit (before op t) (op, []) _ := .mask (mask := (left t.routine).take (maskLength t))
        (rest := (left t.routine).drop (maskLength t)) h4 (by simp [before])
        (by rw [List.length_take, Nat.min_eq_left hle]; rfl)
      obtain ⟨s', he', hv, hs'⟩ := dispatch_of_emit (cfg := cfg) ht hem
      exact .inr (.inl ⟨_, s', he', by rw [hv]; exact hem, hs'⟩)
    · exact .inr (.inr (.inr ⟨stuck (fun f s'' h' => by rw [he] at h'; simp at h'), .inr (.inl ⟨h4, hlt, s', he⟩)⟩))
    · exact .inr (.inr (.inr ⟨stuck (fun f s'' h' => by rw [he] at h'; simp at h'),
        .inr (.inr (.inl ⟨h4, hlt, hpre, s', he⟩))⟩))
  cases op <;> first | (exact absurd rfl h1) | (refine absurd ?_ h2; unfold Path; decide) |
    (refine absurd ?_ h3; unfold Stem; decide) | (refine absurd ?_ h4; unfold Mask; decide) | skip
  case opCallSubr =>
    rcases call_cases Program.local (fun _ _ => rfl) cfg ht.stack ht.counts.2 with
      ⟨st, x, a, body, i, g1, g2, g3, g4, _⟩ | ⟨r, s', he⟩ | ⟨hf, hck, s', he⟩
    · have hq : Quiet cfg.checks (before .opCallSubr t) _ := .callLocal rfl g1 g2 g3 g4
      obtain ⟨s', he', hv, hs'⟩ := dispatch_of_quiet ht hq
      exact .inl ⟨s', he', by rw [hv]; exact hq, hs'⟩
    · exact .inr (.inr (.inr (hraised (PM.bind_of_err he))))
    · have he' : dispatch .opCallSubr cfg t = _ := PM.bind_of_panic he
      exact .inr (.inr (.inr ⟨stuck (fun f s'' h' => by rw [he'] at h'; simp at h'),
        .inr (.inr (.inr ⟨.inr (.inl ⟨rfl, hf⟩), hck, s', he'⟩))⟩))
  case opCallGSubr =>
    rcases call_cases Program.global (fun _ _ => rfl) cfg ht.stack ht.counts.1 with
      ⟨st, x, a, body, i, g1, g2, g3, g4, _⟩ | ⟨r, s', he⟩ | ⟨hf, hck, s', he⟩
    · have hq : Quiet cfg.checks (before .opCallGSubr t) _ := .callGlobal rfl g1 g2 g3 g4
      obtain ⟨s', he', hv, hs'⟩ := dispatch_of_quiet ht hq
      exact .inl ⟨s', he', by rw [hv]; exact hq, hs'⟩
    · exact .inr (.inr (.inr (hraised (PM.bind_of_err he))))
    · have he' : dispatch .opCallGSubr cfg t = _ := PM.bind_of_panic he
      exact .inr (.inr (.inr ⟨stuck (fun f s'' h' => by rw [he'] at h'; simp at h'),
        .inr (.inr (.inr ⟨.inr (.inr ⟨rfl, hf⟩), hck, s', he'⟩))⟩))
  case opReturn =>
    rcases hcs : t.callers with _ | ⟨c, cs⟩
    · exact .inr (.inr (.inr (hraised (dispatch_return_nil hcs))))
    · have hq : Quiet cfg.checks (before .opReturn t) _ := .return (caller := left c) (callers := cs.map left) rfl
        (by simp [before, view, hcs])
      obtain ⟨s', he', hv, hs'⟩ := dispatch_of_quiet ht hq
      exact .inl ⟨s', he', by rw [hv]; exact hq, hs'⟩
  case opEndChar =>
    rcases dispatch_end cfg (sound_pos ht) with ⟨k, main, hm, hl, he⟩ | ⟨hn, s', he⟩
    · have hend : End (before .opEndChar t) _ := .endchar rfl hl
      obtain ⟨s', he', hv, hs'⟩ := dispatch_of_end (cfg := cfg) ht hend
      exact .inr (.inr (.inl ⟨s', he', by rw [hv]; exact hend, hs'⟩))
    · exact .inr (.inr (.inr (hraised he)))
  all_goals exact .inr (.inr (.inr (hraised (r := .unsupportedOperator) (s' := t) rfl)))

end PS.Type2
