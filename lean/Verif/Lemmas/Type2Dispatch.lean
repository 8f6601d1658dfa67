import Verif.Lemmas.Type2Stack
/-!
# Lemmas: what each operator does
-/
namespace PS.Type2
open PS.Spec hiding Operand Operation
open PS.Type2.Spec

/-! ## Path and stem operators -/

/-- The alternatives given to `clear!` by a path operator. -/
def pathAlternatives : Operator → List (List Pred)
  | .opRMoveTo => [[.equal 2]]
  | .opHMoveTo | .opVMoveTo => [[.equal 1]]
  | .opRLineTo => [[.modulo 2]]
  | .opHLineTo | .opVLineTo => [[.equal 1, .maybeModulo 2], [.modulo 2]]
  | .opRRCurveTo => [[.modulo 6]]
  | .opHHCurveTo | .opVVCurveTo => [[.maybeEqual 1, .modulo 4]]
  | .opHVCurveTo | .opVHCurveTo => [[.equal 4, .maybeModulo 8, .maybeEqual 1], [.modulo 8, .maybeEqual 1]]
  | .opRCurveLine => [[.modulo 6, .equal 2]]
  | .opRLineCurve => [[.modulo 2, .equal 6]]
  | .opFlex => [[.equal 13]]
  | .opFlex1 => [[.equal 11]]
  | .opHFlex => [[.equal 7]]
  | .opHFlex1 => [[.equal 9]]
  | _ => []

theorem leaves_equal (c n m : Nat) : (∃ p ∈ [[Pred.equal c]], Leaves p n m) ↔ n = m + c := by
  simp only [List.mem_singleton, exists_eq_left, Leaves]
  constructor
  · rintro ⟨l, h, rfl⟩; exact h
  · intro h; exact ⟨m, h, rfl⟩

theorem leaves_modulo (c n m : Nat) : (∃ p ∈ [[Pred.modulo c]], Leaves p n m) ↔ ∃ k ≥ 1, n = m + c * k := by
  simp only [List.mem_singleton, exists_eq_left, Leaves]
  constructor
  · rintro ⟨l, i, h1, h2, rfl⟩; exact ⟨i, h1, by rw [h2, Nat.mul_comm]⟩
  · rintro ⟨k, h1, h2⟩; exact ⟨m, k, h1, by rw [h2, Nat.mul_comm], rfl⟩

theorem leaves_line (n m : Nat) :
    (∃ p ∈ [[Pred.equal 1, .maybeModulo 2], [.modulo 2]], Leaves p n m) ↔ ∃ k ≥ 1, n = m + k := by
  simp only [List.mem_cons, List.not_mem_nil, or_false, exists_eq_or_imp, exists_eq_left, Leaves]
  constructor
  · rintro (⟨l, h, l', i, h', rfl⟩ | ⟨l, i, h1, h2, rfl⟩)
    · exact ⟨n - m, by omega, by omega⟩
    · exact ⟨n - m, by omega, by omega⟩
  · rintro ⟨k, h1, h2⟩
    rcases Nat.even_or_odd' k with ⟨c, hc | hc⟩
    · exact .inr ⟨m, c, by omega, by omega, rfl⟩
    · exact .inl ⟨n - 1, by omega, m, c, by omega, rfl⟩

theorem leaves_hh (n m : Nat) :
    (∃ p ∈ [[Pred.maybeEqual 1, .modulo 4]], Leaves p n m) ↔
      ∃ j, n = m + j ∧ ∃ k ≥ 1, j = 4 * k ∨ j = 4 * k + 1 := by
  simp only [List.mem_singleton, exists_eq_left, Leaves]
  constructor
  · rintro (⟨l, i, h1, h2, rfl⟩ | ⟨l, h, l', i, h1, h2, rfl⟩)
    · exact ⟨n - m, by omega, i, h1, by omega⟩
    · exact ⟨n - m, by omega, i, h1, by omega⟩
  · rintro ⟨j, hj, k, h1, h2 | h2⟩
    · exact .inl ⟨m, k, h1, by omega, rfl⟩
    · exact .inr ⟨n - 1, by omega, m, k, h1, by omega, rfl⟩

theorem leaves_hv (n m : Nat) :
    (∃ p ∈ [[Pred.equal 4, .maybeModulo 8, .maybeEqual 1], [.modulo 8, .maybeEqual 1]], Leaves p n m) ↔
      ∃ j, n = m + j ∧ ∃ k ≥ 1, j = 4 * k ∨ j = 4 * k + 1 := by
  simp only [List.mem_cons, List.not_mem_nil, or_false, exists_eq_or_imp, exists_eq_left, Leaves]
  constructor
  · rintro (⟨l, h, l', i, h', rfl | ⟨l'', h'', rfl⟩⟩ | ⟨l, i, h1, h2, rfl | ⟨l', h', rfl⟩⟩)
    · exact ⟨n - m, by omega, 2 * i + 1, by omega, by omega⟩
    · exact ⟨n - m, by omega, 2 * i + 1, by omega, by omega⟩
    · exact ⟨n - m, by omega, 2 * i, by omega, by omega⟩
    · exact ⟨n - m, by omega, 2 * i, by omega, by omega⟩
  · rintro ⟨j, hj, k, h1, h2⟩
    rcases Nat.even_or_odd' k with ⟨c, hc | hc⟩
    · right
      rcases h2 with h2 | h2
      · exact ⟨m, c, by omega, by omega, .inl rfl⟩
      · exact ⟨m + 1, c, by omega, by omega, .inr ⟨m, rfl, rfl⟩⟩
    · left
      rcases h2 with h2 | h2
      · exact ⟨n - 4, by omega, m, c, by omega, .inl rfl⟩
      · exact ⟨n - 4, by omega, m + 1, c, by omega, .inr ⟨m, rfl, rfl⟩⟩

theorem leaves_modulo_equal (c d n m : Nat) :
    (∃ p ∈ [[Pred.modulo c, .equal d]], Leaves p n m) ↔ ∃ k ≥ 1, n = m + (c * k + d) := by
  simp only [List.mem_singleton, exists_eq_left, Leaves]
  constructor
  · rintro ⟨l, i, h1, h2, l', h3, rfl⟩; exact ⟨i, h1, by rw [h2, h3, Nat.mul_comm]; omega⟩
  · rintro ⟨k, h1, h2⟩; exact ⟨m + d, k, h1, by rw [h2, Nat.mul_comm]; omega, m, rfl, rfl⟩

theorem leaves_stem (n m : Nat) :
    (∃ p ∈ [[Pred.equal 2, .maybeModulo 2]], Leaves p n m) ↔ ∃ k ≥ 1, n = m + 2 * k := by
  simp only [List.mem_singleton, exists_eq_left, Leaves]
  constructor
  · rintro ⟨l, h, l', i, h', rfl⟩; exact ⟨i + 1, by omega, by omega⟩
  · rintro ⟨k, h1, h2⟩; exact ⟨n - 2, by omega, m, k - 1, by omega, rfl⟩

theorem pathAlternatives_leaves {op : Operator} (hop : Path op) (n m : Nat) :
    (∃ p ∈ pathAlternatives op, Leaves p n m) ↔ ∃ k, n = m + k ∧ Accepts op k := by
  have key : ∀ {P Q : Nat → Prop} {n m : Nat}, (∀ k, P k ↔ Q k) → ((∃ k, P k ∧ n = m + k) ↔ ∃ k, n = m + k ∧ Q k) := by
    intro P Q n m h
    constructor
    · rintro ⟨k, h1, h2⟩; exact ⟨k, h2, (h k).mp h1⟩
    · rintro ⟨k, h1, h2⟩; exact ⟨k, (h k).mpr h2, h1⟩
  simp only [Path, List.mem_cons, List.not_mem_nil, or_false] at hop
  rcases hop with rfl | rfl | rfl | rfl | rfl | rfl | rfl | rfl | rfl | rfl | rfl | rfl | rfl | rfl | rfl | rfl | rfl <;>
    simp only [pathAlternatives, leaves_equal, leaves_modulo, leaves_line, leaves_hh, leaves_hv, leaves_modulo_equal,
      Accepts]
  all_goals first
    | rfl
    | (constructor
       · rintro h; exact ⟨_, h, rfl⟩
       · rintro ⟨k, h, rfl⟩; exact h)
    | (constructor
       · rintro ⟨k, h1, h2⟩; exact ⟨_, h2, k, h1, rfl⟩
       · rintro ⟨k, h2, j, h1, rfl⟩; exact ⟨j, h1, h2⟩)
    | (constructor
       · rintro ⟨k, h1, h2⟩; exact ⟨k, h2, h1⟩
       · rintro ⟨k, h2, h1⟩; exact ⟨k, h1, h2⟩)

theorem dispatch_path_eq {op : Operator} (hop : Path op) : dispatch op = clear op (pathAlternatives op) := by
  simp only [Path, List.mem_cons, List.not_mem_nil, or_false] at hop
  rcases hop with rfl | rfl | rfl | rfl | rfl | rfl | rfl | rfl | rfl | rfl | rfl | rfl | rfl | rfl | rfl | rfl | rfl <;> rfl

theorem pathAlternatives_proper {op : Operator} (hop : Path op) : ∀ p ∈ pathAlternatives op, Proper p := by
  simp only [Path, List.mem_cons, List.not_mem_nil, or_false] at hop
  rcases hop with rfl | rfl | rfl | rfl | rfl | rfl | rfl | rfl | rfl | rfl | rfl | rfl | rfl | rfl | rfl | rfl | rfl <;>
    simp [pathAlternatives, Proper]

theorem dispatch_path {op : Operator} (hop : Path op) (cfg : Config) (s : Program) :
    (∃ below args, Longest op s.stack below args ∧
      dispatch op cfg s = (.ok (.ret (some (op, args))), { s with stack := [], width := newWidth s.width below })) ∨
    ((∀ args, args <:+ s.stack → ¬ Accepts op args.length) ∧
      dispatch op cfg s = (.err (.raised .malformedOperands), s)) := by
  rw [dispatch_path_eq hop]
  exact clear_iff (pathAlternatives_proper hop) (pathAlternatives_leaves hop) cfg s

theorem dispatch_stem {op : Operator} (hop : Stem op) (cfg : Config) (s : Program) :
    (∃ below args, Longest op s.stack below args ∧
      dispatch op cfg s = (.ok (.ret (some (op, args))),
        { s with stack := [], width := newWidth s.width below, stems := s.stems + s.stack.length / 2 })) ∨
    ((∀ args, args <:+ s.stack → ¬ Accepts op args.length) ∧
      dispatch op cfg s = (.err (.raised .malformedOperands), { s with stems := s.stems + s.stack.length / 2 })) := by
  have h : dispatch op = (do countStems; clear op [[.equal 2, .maybeModulo 2]]) := by
    simp only [Stem, List.mem_cons, List.not_mem_nil, or_false] at hop
    rcases hop with rfl | rfl | rfl | rfl <;> rfl
  have ha : ∀ n m, (∃ p ∈ [[Pred.equal 2, .maybeModulo 2]], Leaves p n m) ↔ ∃ k, n = m + k ∧ Accepts op k := by
    intro n m
    rw [leaves_stem]
    simp only [Stem, List.mem_cons, List.not_mem_nil, or_false] at hop
    rcases hop with rfl | rfl | rfl | rfl <;> simp only [Accepts] <;>
    · constructor
      · rintro ⟨k, h1, h2⟩; exact ⟨_, h2, k, h1, rfl⟩
      · rintro ⟨k, h2, j, h1, rfl⟩; exact ⟨j, h1, h2⟩
  rw [h, PM.bind_of_ok (a := ()) (s' := { s with stems := s.stems + s.stack.length / 2 }) rfl]
  exact clear_iff (by simp [Proper]) ha cfg { s with stems := s.stems + s.stack.length / 2 }

/-! ## Masks -/

/-- The number of bytes of the mask after a mask operator. -/
def maskLength (s : Program) : Nat := (s.stems + s.stack.length / 2 + 7) / 8

theorem dispatch_mask {op : Operator} (hop : Mask op) (cfg : Config) (s : Program)
    (hp : s.routine.pos ≤ s.routine.code.length) (hsz : s.routine.code.length < 2 ^ 63) :
    (maskLength s ≤ (left s.routine).length ∧
      dispatch op cfg s = (.ok (.ret (some (op, []))),
        { s with
          routine := { s.routine with pos := s.routine.pos + maskLength s }, stack := [],
          width := newWidth s.width s.stack, stems := s.stems + s.stack.length / 2 })) ∨
    ((left s.routine).length < maskLength s ∧ (∃ s', dispatch op cfg s = (.err .eof, s')) ∧
      (maskLength s ≤ 2 ^ 63 - 1 ∨ cfg.prealloc = false)) ∨
    (2 ^ 63 - 1 < maskLength s ∧ cfg.prealloc = true ∧ ∃ s', dispatch op cfg s = (.panic .capacity, s')) := by
  have h : dispatch op = (do
      countStems
      let s ← PM.get
      let _ ← PM.tape (Rd.bytes ((s.stems + 7) / 8))
      clear op [[.equal 0]]) := by
    simp only [Mask, List.mem_cons, List.not_mem_nil, or_false] at hop
    rcases hop with rfl | rfl <;> rfl
  have hl := left_length s.routine
  rw [h, PM.bind_of_ok (a := ()) (s' := { s with stems := s.stems + s.stack.length / 2 }) rfl, PM.bind_of_ok rfl]
  show _ ∧ _ = _ ∨ _
  simp only []
  rw [show (s.stems + s.stack.length / 2 + 7) / 8 = maskLength s from rfl]
  generalize hn : maskLength s = n
  by_cases hle : n ≤ (left s.routine).length
  · left
    refine ⟨hle, ?_⟩
    have ht : PM.tape (Rd.bytes n) cfg { s with stems := s.stems + s.stack.length / 2 } =
        (.ok ((left s.routine).take n), { s with
          routine := { s.routine with pos := s.routine.pos + n }
          stems := s.stems + s.stack.length / 2 }) := by
      have := tape_of_exact (exact_bytes n (by omega)) (a := (left s.routine).take n) (bs := (left s.routine).take n)
        (r := (left s.routine).drop n) ⟨rfl, by rw [List.length_take]; omega⟩ cfg
        (s := { s with stems := s.stems + s.stack.length / 2 }) (by simp)
      rw [this]
      simp [adv]
      omega
    rw [PM.bind_of_ok ht]
    refine (clear_some (below := s.stack) (args := []) (by simp) ?_).trans ?_
    · simp [reduce]
    · rfl
  · right
    have hbytes : (Rd.bytes n : Rd (List UInt8)) = Rd.vec 1 n Rd.u8 := rfl
    by_cases hcap : cfg.prealloc = true ∧ 2 ^ 63 - 1 < n
    · right
      refine ⟨hcap.2, hcap.1, { s with stems := s.stems + s.stack.length / 2 }, ?_⟩
      refine PM.bind_of_panic ?_
      unfold PM.tape
      rw [hbytes]
      unfold Rd.vec
      rw [Rd.bind_of_ok (a := cfg) (p' := s.routine.pos) rfl, if_pos (by constructor; exact hcap.1; omega)]
      rfl
    · left
      have hcap' : n ≤ 2 ^ 63 - 1 ∨ cfg.prealloc = false := by
        rcases hc : cfg.prealloc with _ | _
        · exact .inr rfl
        · left; by_contra hh; exact hcap ⟨hc, by omega⟩
      refine ⟨by omega, ?_, hcap'⟩
      rcases hres : Rd.bytes n { cfg, data := s.routine.code } s.routine.pos with ⟨r, q⟩
      have hr : Rd.replicate n Rd.u8 { cfg, data := s.routine.code } s.routine.pos = (r, q) := by
        rw [← hres, hbytes]
        unfold Rd.vec
        rw [Rd.bind_of_ok (a := cfg) (p' := s.routine.pos) rfl, if_neg]
        rintro ⟨h1, h2⟩
        rcases hcap' with h3 | h3
        · omega
        · rw [h3] at h1; exact absurd h1 (by simp)
      rcases r with a | e | x
      · exfalso
        obtain ⟨bs, ⟨h1, h2⟩, h3, h4⟩ := (exact_replicate exact_u8 n _ _ _ _).mp hr
        have h5 : bs.length = n := by
          have := seq_singleton_iff (f := fun b : UInt8 => b) (as := a) (bs := bs)
          simp only [List.map_id'] at this
          rw [this] at h2
          rw [h2, h1]
        have := h3.length_le
        rw [h5] at this
        exact hle this
      · have he : e = .eof := by
          have := Errs.replicate (Errs.u8 (E := fun e => e = .eof) rfl) n _ _ _ _ hr
          exact this
        subst he
        exact ⟨_, PM.bind_of_err (tape_of_err (s := { s with stems := s.stems + s.stack.length / 2 }) hres)⟩
      · exact absurd hr (NoPanic.replicate NoPanic.u8 n _ _ _ _)

/-! ## Subroutines -/

theorem bias_eq (n : Nat) : bias n = callBias n := (rfl)

theorem callBias_bounds (n : Nat) : 0 ≤ callBias n ∧ callBias n ≤ 32768 := by
  unfold callBias
  split
  · omega
  · split <;> omega

theorem intArg_bounds {x : F32} {i : Int} (h : IntArg x i) : -2 ^ 31 ≤ i ∧ i < 2 ^ 31 := by
  rcases h with ⟨_, h1, h2⟩ | ⟨_, rfl⟩
  · exact ⟨h1, h2⟩
  · omega

/-- The address of a call is beyond 32 bits. -/
def FarCall (stack : List F32) (count : Nat) : Prop :=
  ∃ st x a, stack = st ++ [x] ∧ IntArg x a ∧ 2 ^ 31 ≤ a + callBias count

theorem call_cases (subs : Program → List (List UInt8)) (hsubs : ∀ s st, subs { s with stack := st } = subs s)
    (cfg : Config) {s : Program} (hw : ∀ x ∈ s.stack, x.WF) (hc : (subs s).length ≤ 2 ^ 31) :
    (∃ st x a body, ∃ i : Nat, s.stack = st ++ [x] ∧ IntArg x a ∧ a + callBias (subs s).length = i ∧
      (subs s)[i]? = some body ∧
      call subs cfg s = (.ok (), { s with routine := Routine.new body, callers := s.routine :: s.callers, stack := st })) ∨
    (((∃ r s', call subs cfg s = (.err (.raised r), s')) ∨
      (FarCall s.stack (subs s).length ∧ cfg.checks = true ∧ ∃ s', call subs cfg s = (.panic .overflow, s')))) := by
  unfold call
  rcases snoc_cases s.stack with h | ⟨st, x, h⟩
  · exact .inr (.inl ⟨_, _, PM.bind_of_err (popInt_nil h)⟩)
  have hxw : x.WF := hw x (by simp [h])
  by_cases hi : ∃ a, IntArg x a
  swap
  · exact .inr (.inl ⟨_, _, PM.bind_of_err (popInt_err h hxw (fun i hi' => hi ⟨i, hi'⟩))⟩)
  obtain ⟨a, ha⟩ := hi
  rw [PM.bind_of_ok (popInt_ok h hxw ha), PM.bind_of_ok rfl, PM.bind_of_ok rfl]
  simp only [hsubs, bias_eq]
  obtain ⟨hb1, hb2⟩ := callBias_bounds (subs s).length
  obtain ⟨ha1, ha2⟩ := intArg_bounds ha
  by_cases hlt : a + callBias (subs s).length < 2 ^ 31
  · have hadd : addI32 cfg.checks a (callBias (subs s).length) = .ok (a + callBias (subs s).length) := by
      unfold addI32 wrapI32
      rw [if_pos ⟨by omega, hlt⟩]
    rw [hadd, PM.bind_of_ok (a := a + callBias (subs s).length) (s' := { s with stack := st }) rfl]
    by_cases hin : a + callBias (subs s).length < 0 ∨ (a + callBias (subs s).length).toNat ≥ (subs s).length
    · rw [if_pos hin]
      exact .inr (.inl ⟨_, _, rfl⟩)
    · rw [if_neg hin]
      push Not at hin
      have hg := List.getElem?_eq_getElem hin.2
      refine .inl ⟨st, x, a, _, _, h, ha, (Int.toNat_of_nonneg hin.1).symm, hg, ?_⟩
      rw [hg]
      rfl
  · right
    rcases hck : cfg.checks with _ | _
    · left
      have hadd : addI32 false a (callBias (subs s).length) = .ok (a + callBias (subs s).length - 2 ^ 32) := by
        unfold addI32 wrapI32
        rw [if_neg (by omega)]
        simp only [Bool.false_eq_true, if_false]
        congr 1
        have hup : a + callBias (subs s).length < 2 ^ 32 := by omega
        generalize a + callBias (subs s).length = z at *
        have hz : z % 2 ^ 32 = z := by omega
        unfold toS toU
        rw [hz]
        have : z.toNat % 2 ^ 32 = z.toNat := by omega
        rw [this]
        simp only []
        rw [if_neg (by omega)]
        omega
      rw [hadd, PM.bind_of_ok (a := a + callBias (subs s).length - 2 ^ 32) (s' := { s with stack := st }) rfl,
        if_pos (.inl (by omega))]
      exact ⟨_, _, rfl⟩
    · right
      refine ⟨⟨st, x, a, h, ha, by omega⟩, rfl, ?_⟩
      have hadd : addI32 true a (callBias (subs s).length) = .panic .overflow := by
        unfold addI32 wrapI32
        rw [if_neg (by omega)]
        rfl
      rw [hadd]
      exact ⟨_, PM.bind_of_panic (e := .overflow) (s' := { s with stack := st }) rfl⟩

theorem call_of (subs : Program → List (List UInt8)) (hsubs : ∀ s st, subs { s with stack := st } = subs s)
    (cfg : Config) {s : Program} (hw : ∀ x ∈ s.stack, x.WF) (hc : (subs s).length ≤ 2 ^ 31)
    {st : List F32} {x : F32} {a : Int} {i : Nat} {body : List UInt8} (h : s.stack = st ++ [x]) (ha : IntArg x a)
    (hi : a + callBias (subs s).length = i) (hb : (subs s)[i]? = some body) :
    call subs cfg s = (.ok (), { s with routine := Routine.new body, callers := s.routine :: s.callers, stack := st }) := by
  have hxw : x.WF := hw x (by simp [h])
  have hlen : i < (subs s).length := (List.getElem?_eq_some_iff.mp hb).1
  unfold call
  rw [PM.bind_of_ok (popInt_ok h hxw ha), PM.bind_of_ok rfl, PM.bind_of_ok rfl]
  simp only [hsubs, bias_eq]
  have hadd : addI32 cfg.checks a (callBias (subs s).length) = .ok (i : Int) := by
    unfold addI32 wrapI32
    rw [hi, if_pos ⟨by omega, by omega⟩]
  rw [hadd, PM.bind_of_ok (a := (i : Int)) (s' := { s with stack := st }) rfl, if_neg (by omega)]
  simp only [Int.toNat_natCast, hb]
  rfl

/-! ## The end -/

theorem done_iff {r : Routine} (hp : r.pos ≤ r.code.length) : r.done = true ↔ left r = [] := by
  constructor
  · intro h
    simp only [Routine.done, beq_iff_eq] at h
    unfold left
    rw [h]; simp
  · intro h
    have := congrArg List.length h
    rw [left_length] at this
    simp only [List.length_nil] at this
    simp only [Routine.done, beq_iff_eq]
    omega

theorem unwind_cases (r : Routine) (cs : List Routine) (hp : ∀ x ∈ r :: cs, x.pos ≤ x.code.length) :
    (∃ k main, main ∈ r :: cs ∧ left r :: cs.map left = List.replicate k [] ++ [left main] ∧
      unwind r cs = (.ok (), main, [])) ∨
    ((∀ k main, left r :: cs.map left ≠ List.replicate k [] ++ [main]) ∧
      ∃ r', unwind r cs = (.err (.raised .trailingData), r', [])) := by
  induction cs generalizing r with
  | nil => exact .inl ⟨0, r, by simp, by simp, rfl⟩
  | cons c cs ih =>
    unfold unwind
    by_cases hd : r.done = true
    · rw [if_pos hd]
      have hl := (done_iff (hp r (by simp))).mp hd
      rcases ih c (fun x hx => hp x (by simp at hx ⊢; tauto)) with ⟨k, main, hm, he, hu⟩ | ⟨hn, hu⟩
      · refine .inl ⟨k + 1, main, by simp at hm ⊢; tauto, ?_, hu⟩
        rw [List.replicate_succ, List.cons_append, ← he, hl]
        rfl
      · refine .inr ⟨?_, hu⟩
        intro k main he
        cases k with
        | zero => simp at he
        | succ k =>
          rw [List.replicate_succ, List.cons_append] at he
          exact hn k main (List.cons.inj he).2
    · rw [if_neg hd]
      refine .inr ⟨?_, _, rfl⟩
      intro k main he
      cases k with
      | zero => simp at he
      | succ k =>
        rw [List.replicate_succ, List.cons_append] at he
        exact hd ((done_iff (hp r (by simp))).mpr (List.cons.inj he).1)

theorem replicate_snoc_unique {k k' : Nat} {m m' : List UInt8}
    (h : List.replicate k ([] : List UInt8) ++ [m] = List.replicate k' [] ++ [m']) : m = m' := by
  have := congrArg List.getLast? h
  simpa using this

theorem dispatch_end (cfg : Config) {s : Program} (hp : ∀ x ∈ s.routine :: s.callers, x.pos ≤ x.code.length) :
    (∃ k main, main ∈ s.routine :: s.callers ∧
      left s.routine :: s.callers.map left = List.replicate k [] ++ [left main] ∧
      dispatch .opEndChar cfg s =
        (.ok (.ret none), { s with routine := main, callers := [], width := newWidth s.width s.stack })) ∨
    ((∀ k main, left s.routine :: s.callers.map left ≠ List.replicate k [] ++ [main]) ∧
      ∃ s', dispatch .opEndChar cfg s = (.err (.raised .trailingData), s')) := by
  rcases unwind_cases s.routine s.callers hp with ⟨k, main, hm, he, hu⟩ | ⟨hn, r', hu⟩
  · refine .inl ⟨k, main, hm, he, ?_⟩
    refine (PM.bind_of_ok (m := PM.get) (a := s) (s' := s) rfl).trans ?_
    simp only [hu]
    rw [PM.bind_of_ok (a := ()) (s' := { s with routine := main, callers := [] }) rfl,
      PM.bind_of_ok (a := ()) (s' := { s with routine := main, callers := [] }) rfl]
    rcases snoc_cases s.stack with h | ⟨st, x, h⟩
    · rw [h]
      simp [newWidth]
      rfl
    · rw [show s.stack.getLast? = some x by simp [h]]
      simp only []
      rw [PM.bind_of_ok (a := ()) (s' := { s with routine := main, callers := [], width := newWidth s.width s.stack })]
      · rfl
      · simp only [PM.modify, newWidth, h]
        rcases hw : s.width with _ | w <;> simp
  · refine .inr ⟨hn, { s with routine := r', callers := [] }, ?_⟩
    refine (PM.bind_of_ok (m := PM.get) (a := s) (s' := s) rfl).trans ?_
    simp only [hu]
    rw [PM.bind_of_ok (a := ()) (s' := { s with routine := r', callers := [] }) rfl]
    exact PM.bind_of_err rfl

end PS.Type2
