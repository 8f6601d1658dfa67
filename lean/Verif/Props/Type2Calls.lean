import Verif.Lemmas.Type2Extend
/-!
# Properties C46–C48, C51 and C52: calls in line, ends and pieces of programs
-/
namespace PS.Type2
open PS.Spec hiding Operand Operation
open PS.Type2.Spec

/-! ## C52 -/

theorem emit_eq {σ τ : State} {o : Operation} (h : Emit σ o τ) :
    τ.callers = σ.callers ∧ τ.global = σ.global ∧ τ.local = σ.local := by
  cases h <;> exact ⟨rfl, rfl, rfl⟩

theorem executes_eq {c : Bool} {σ τ : State} {l : List Observation} (h : Executes c σ l τ) :
    τ.global = σ.global ∧ τ.local = σ.local := by
  induction h with
  | nil h => exact ⟨(turns_eq h).1, (turns_eq h).2.1⟩
  | cons h1 h2 h3 _ ih =>
    obtain ⟨a1, a2, _⟩ := turns_eq h1
    obtain ⟨_, b1, b2, _⟩ := pushes_eq h2
    obtain ⟨_, c1, c2⟩ := emit_eq h3
    exact ⟨by rw [ih.1, c1, b1, a1], by rw [ih.2, c2, b2, a2]⟩

theorem consumes_eq {c : Bool} {σ τ : State} {l : List Observation} {p : Prop} (h : Consumes c σ l τ p) :
    τ.global = σ.global ∧ τ.local = σ.local := by
  obtain ⟨_, _, υ, h1, h2, _⟩ := h
  obtain ⟨a1, a2⟩ := executes_eq h1
  obtain ⟨_, b1, b2, _⟩ := pushes_eq h2
  exact ⟨b1.trans a1, b2.trans a2⟩

theorem consumes_mono {c : Bool} {σ τ : State} {l : List Observation} {p q : Prop} (h : Consumes c σ l τ p)
    (hpq : p → q) : Consumes c σ l τ q := by
  obtain ⟨h1, h2, υ, h3, h4, h5⟩ := h
  exact ⟨h1, h2, υ, h3, h4, h5.imp id hpq⟩

theorem run_consumes {cfg : Config} {s : Program} (hs : Sound s) {a r : List UInt8} {l : List Observation} {τ : State}
    (h : Consumes cfg.checks { view s with code := a, callers := [] } l τ (r ≠ []))
    (hl : left s.routine = a ++ r) :
    ∃ s1, Sound s1 ∧ view s1 = { τ with code := r, callers := s.callers.map left } ∧
      (∃ s2, Calls cfg s (l.map (·.1)) s2) ∧
      ∀ x out, Run cfg s x out ↔ ∃ y, x = l ++ y ∧ Run cfg s1 y out := by
  obtain ⟨h1, h2, υ, h3, h4, h5⟩ := h
  have hv : view s = ext r (s.callers.map left) { view s with code := a, callers := [] } := by
    simp only [ext, extCode, extCallers, view, hl]
  have hτ : ext r (s.callers.map left) τ = { τ with code := r, callers := s.callers.map left } := by
    simp only [ext, extCode, extCallers, h1, h2, List.nil_append]
  obtain ⟨s0, g1, g2, g3, g4⟩ := run_executes (ext_executes (r := r) (K := s.callers.map left) h3) hv hs
  rcases h5 with rfl | hne
  · exact ⟨s0, g2, g1.trans hτ, g3, g4⟩
  · have hp := ext_pushes (r := r) (K := s.callers.map left) h4
    rw [hτ, ← g1] at hp
    obtain ⟨xs, bs, hx, hc, he⟩ := pushes_iff.mp hp
    have hc' : left s0.routine = bs ++ r := hc
    have hsu : Sound (adv s0 xs bs.length) := sound_adv g2 (seq_wf hx) (by rw [hc']; simp)
    have hvu : view (adv s0 xs bs.length) = { τ with code := r, callers := s.callers.map left } := by
      rw [view_adv hc', he]; rfl
    refine ⟨_, hsu, hvu, g3, fun x out => ?_⟩
    rw [g4]
    have := run_pushes (cfg := cfg) g2 hsu (by rw [hvu]; exact hp) (by rw [left_adv hc']; exact hne)
    simp only [this]

/-- **C52.**  If the machine executes the piece of code `a` completely, showing `l`,
then running `a` with `r` behind it shows `l` and then what running `r` shows from
the state reached.  (If `a` ends with operands, there has to be something behind
it: operands at the end of all code are an error.) -/
theorem C52_compose {cfg : Config} {s s2 : Program} (hs : Sound s) (hs2 : Sound s2) {a r : List UInt8}
    {l : List Observation} {τ : State}
    (h : Consumes cfg.checks { view s with code := a, callers := [] } l τ (r ≠ []))
    (hl : left s.routine = a ++ r) (hv : view s2 = { τ with code := r, callers := s.callers.map left })
    (x : List Observation) (out : Outcome) :
    Run cfg s x out ↔ ∃ y, x = l ++ y ∧ Run cfg s2 y out := by
  obtain ⟨s1, h1, h2, _, h3⟩ := run_consumes hs h hl
  rw [h3]
  simp only [run_view_iff h1 hs2 (h2.trans hv.symm)]

/-- **C52.**  Whatever follows the piece of code, the operations are returned. -/
theorem C52_operations {cfg : Config} {s : Program} (hs : Sound s) {a r : List UInt8}
    {l : List Observation} {τ : State}
    (h : Consumes cfg.checks { view s with code := a, callers := [] } l τ True)
    (hl : left s.routine = a ++ r) : ∃ s', Calls cfg s (l.map (·.1)) s' := by
  obtain ⟨h1, h2, υ, h3, h4, _⟩ := h
  have hv : view s = ext r (s.callers.map left) { view s with code := a, callers := [] } := by
    simp only [ext, extCode, extCallers, view, hl]
  obtain ⟨s0, _, _, g3, _⟩ := run_executes (ext_executes (r := r) (K := s.callers.map left) h3) hv hs
  exact g3

/-- **C52.**  What calls of `next` return does not depend on the code that follows what
they execute: if it is put behind the code of a program, be that called from
elsewhere or not, they return the same and leave the same operands, hints and
width. -/
theorem C52_prefix {cfg : Config} {s s' : Program} {ops : List Operation} (h : Calls cfg s ops s') (hs : Sound s)
    (hc : s.callers = []) {t : Program} (ht : Sound t) {r : List UInt8} {K : List (List UInt8)}
    (hv : view t = { view s with code := left s.routine ++ r, callers := K }) :
    ∃ t', Calls cfg t ops t' ∧ t'.stack = s'.stack ∧ t'.stems = s'.stems ∧ t'.width = s'.width ∧
      (s'.callers = [] → left t'.routine = left s'.routine ++ r ∧ t'.callers.map left = K) := by
  have hv' : view t = ext r K (view s) := by
    rw [hv]
    simp only [ext, view, hc, List.map_nil, extCode, extCallers]
  clear hv hc
  have key : ∃ t', Calls cfg t ops t' ∧ view t' = ext r K (view s') := by
    induction h generalizing t with
    | nil s => exact ⟨t, .nil t, hv'⟩
    | cons hn _ ih =>
      obtain ⟨h1, h2⟩ := next_yields hs hn
      have h3 := ext_yields (r := r) (K := K) h1
      rw [← hv'] at h3
      obtain ⟨t1, h4, h5, h6⟩ := yields_next ht h3
      obtain ⟨t', h7, h8⟩ := ih h2 h6 h5
      exact ⟨t', .cons h4 h7, h8⟩
  obtain ⟨t', h1, h2⟩ := key
  refine ⟨t', h1, congrArg State.stack h2, congrArg State.stems h2, congrArg State.width h2, fun hc => ?_⟩
  have e1 : left t'.routine = _ := congrArg State.code h2
  have e2 : t'.callers.map left = _ := congrArg State.callers h2
  simp only [ext, view, hc, List.map_nil, extCode, extCallers] at e1 e2
  exact ⟨e1, e2⟩

/-! ## C46 -/

/-- **C46**, the full statement: a program runs like the one with the body of a
subroutine in place of the call. -/
def C46Statement : Prop := ∀ {cfg : Config} {s t : Program}, Sound s → Sound t → Inlined cfg s t (fun _ => True) →
  ∀ l out, Run cfg s l out ↔ Run cfg t l out

/-- **C46**, in part: the two programs run alike.  Missing: bodies that end with
operands, called at the very end of the code; then the call ends the program, and
the operands by themselves are an error (`C46_false`). -/
theorem C46_inline_partial {cfg : Config} {s t : Program} (hs : Sound s) (ht : Sound t)
    (h : Inlined cfg s t (· ≠ [])) (l : List Observation) (out : Outcome) : Run cfg s l out ↔ Run cfg t l out := by
  obtain ⟨a, enc, b, tail, rest, op, subs, x, n, i, σ, τ, l1, l2, hsc, hx, hn, hop, hi, hb, htv, h1, h2⟩ := h
  have hne : bytes op ≠ [] := bytes_ne_nil op
  have hσ := consumes_eq h1
  obtain ⟨s1, g1, v1, _, r1⟩ := run_consumes hs (consumes_mono h1 (fun _ => by simp [hne])) hsc
  -- the call
  have hop1 : subroutinesOf op s1 = some subs := by
    have e1 : s1.global = s.global := (congrArg State.global v1).trans hσ.1
    have e2 : s1.local = s.local := (congrArg State.local v1).trans hσ.2
    cases op <;> first | (cases hop; done) | skip
    · rw [← hop]; simp only [subroutinesOf, e2]
    · rw [← hop]; simp only [subroutinesOf, e1]
  have hah : Ahead s1 [x] op rest := by
    refine ⟨enc, ?_, congrArg State.code v1⟩
    have := Seq.cons hx (Seq.nil (R := Operand))
    simpa using this
  obtain ⟨s2, g2, v2, n2⟩ := C45_call (cfg := cfg) g1 hop1 hah rfl hn (by rw [← hi]; rfl) hb
  have e3 : s1.stack = σ.stack := congrArg State.stack v1
  have e4 : s1.callers.map left = s.callers.map left := congrArg State.callers v1
  -- the body in the subroutine
  have hvb : { view s2 with code := b, callers := [] } = { σ with code := b } := by
    rw [v2, v1, e3, ← h1.2.1]
  have hl2 : left s2.routine = b ++ (bytes .opReturn ++ tail) := congrArg State.code v2
  obtain ⟨s3, g3, v3, _, r3⟩ := run_consumes (cfg := cfg) g2 (a := b) (r := bytes .opReturn ++ tail) (l := l2) (τ := τ)
    (by rw [hvb]; exact consumes_mono h2 (fun _ => by simp [bytes_ne_nil])) hl2
  have e5 : s2.callers.map left = rest :: s.callers.map left := by rw [← e4]; exact congrArg State.callers v2
  have hret : Turn cfg.checks (view s3) { τ with code := rest, callers := s.callers.map left } := by
    refine ⟨view s3, .refl, ?_⟩
    rw [v3, e5]
    exact .return (rest := tail) rfl rfl
  obtain ⟨s4, v4, g4, n4⟩ := turns_steps (.single hret) rfl g3
  -- the body in place of the call
  have htl : left t.routine = a ++ (b ++ rest) := congrArg State.code htv
  have htc : t.callers.map left = s.callers.map left := congrArg State.callers htv
  obtain ⟨t1, f1, w1, _, q1⟩ := run_consumes (cfg := cfg) ht (a := a) (r := b ++ rest) (l := l1) (τ := σ)
    (by rw [htv]; exact h1) htl
  obtain ⟨t2, f2, w2, _, q2⟩ := run_consumes (cfg := cfg) f1 (a := b) (r := rest) (l := l2) (τ := τ)
    (by rw [w1]; simp only [← h1.2.1]; exact h2) (congrArg State.code w1)
  have e6 : t1.callers.map left = s.callers.map left := (congrArg State.callers w1).trans htc
  have hfin : view s4 = view t2 := by rw [v4, w2, e6]
  rw [r1, q1]
  have : ∀ y, Run cfg s1 y out ↔ Run cfg t1 y out := by
    intro y
    rw [run_iff_of_next n2, r3, q2]
    simp only [run_iff_of_next n4, run_view_iff g4 f2 hfin]
  simp only [this]

/-- **C46.**  Any number of calls can be replaced one after the other, those in the
bodies that replaced others included. -/
theorem C46_nested {cfg : Config} {s t : Program} (hs : Sound s)
    (h : Relation.ReflTransGen (fun s t => Sound t ∧ Inlined cfg s t (· ≠ [])) s t) (l : List Observation) (out : Outcome) :
    Run cfg s l out ↔ Run cfg t l out := by
  have key : Sound t ∧ (Run cfg s l out ↔ Run cfg t l out) := by
    induction h with
    | refl => exact ⟨hs, Iff.rfl⟩
    | tail _ h ih => exact ⟨h.1, ih.2.trans (C46_inline_partial ih.1 h.1 h.2 l out)⟩
  exact key.2

/-- `-107 callsubr` at the end of the code, where the subroutine is `10 return`. -/
def lastCall : Program := Program.new [32, 10] [] [[149, 11]]
/-- `10` -/
def lastOperand : Program := Program.new [149] [] [[149, 11]]

/-- **C46** is false: if the subroutine `10 return` is called at the end of the code, the
program ends without an error; with `10` in place of the call it fails. -/
theorem C46_false : ¬ C46Statement := by
  intro h
  have h10 : Operand (F32.ofInt 10) [149] := operand_byte 149 (by decide) (by decide)
  have hcall : Operand (F32.ofInt (-107)) [32] := operand_byte 32 (by decide) (by decide)
  have h1 := h (cfg := release) (s := lastCall) (t := lastOperand) (sound_new (by decide) (by decide) (by decide))
    (sound_new (by decide) (by decide) (by decide))
    ⟨[], [32], [149], [], [], .opCallSubr, [[149, 11]], F32.ofInt (-107), -107, 0, view (Program.new [] [] [[149, 11]]),
      { view (Program.new [] [] [[149, 11]]) with stack := [F32.ofInt 10] }, [], [], rfl, hcall,
      isInt_of (by decide +kernel) (by decide +kernel) (by decide), rfl, rfl, rfl, rfl, ⟨rfl, rfl, _, .nil .refl, .refl, .inl rfl⟩,
      ⟨rfl, rfl, _, .nil .refl, .single ⟨_, _, [], h10, rfl, rfl⟩, .inr trivial⟩⟩ [] (.ended none)
  have h2 : Run release lastCall [] (.ended none) :=
    .ended (t := after release lastCall) ⟨100, by decide +kernel⟩
  have h3 : Next release lastOperand (.err .eof) (after release lastOperand) := ⟨100, by decide +kernel⟩
  generalize ho : Outcome.ended none = out at h1 h2
  have h4 := h1.mp h2
  cases h4 with
  | ended h5 => have := (next_unique h3 h5).1; cases this
  | failed => cases ho

/-- `10 20 rmoveto -107 callsubr endchar`, where the subroutine is `15 hlineto return`, and
`10 20 rmoveto 15 hlineto endchar` -/
example : Inlined release (Program.new [149, 159, 21, 32, 10, 14] [] [[154, 6, 11]])
    (Program.new [149, 159, 21, 154, 6, 14] [] [[154, 6, 11]]) (· ≠ []) := by
  have h10 : Operand (F32.ofInt 10) [149] := operand_byte 149 (by decide) (by decide)
  have h20 : Operand (F32.ofInt 20) [159] := operand_byte 159 (by decide) (by decide)
  have h15 : Operand (F32.ofInt 15) [154] := operand_byte 154 (by decide) (by decide)
  have hcall : Operand (F32.ofInt (-107)) [32] := operand_byte 32 (by decide) (by decide)
  refine ⟨[149, 159, 21], [32], [154, 6], [], [14], .opCallSubr, [[154, 6, 11]], F32.ofInt (-107), -107, 0,
    view (Program.new [] [] [[154, 6, 11]]), view (Program.new [] [] [[154, 6, 11]]),
    [((.opRMoveTo, [F32.ofInt 10, F32.ofInt 20]), none, 0)], [((.opHLineTo, [F32.ofInt 15]), none, 0)], rfl, hcall,
    isInt_of (by decide +kernel) (by decide +kernel) (by decide), rfl, rfl, rfl, rfl, ⟨rfl, rfl, _, ?_, .refl, .inl rfl⟩,
    ⟨rfl, rfl, _, ?_, .refl, .inl rfl⟩⟩
  · refine .cons (υ := ⟨[21], [], [], [[154, 6, 11]], [F32.ofInt 10, F32.ofInt 20], 0, none⟩) .refl
      (.head ⟨_, _, _, h10, rfl, rfl⟩ (.single ⟨_, _, _, h20, rfl, rfl⟩))
      (.path (op := .opRMoveTo) (rest := []) (below := []) (by decide) rfl ⟨rfl, rfl, fun a ha _ => ha.length_le⟩)
      (.nil .refl)
  · refine .cons (υ := ⟨[6], [], [], [[154, 6, 11]], [F32.ofInt 15], 0, none⟩) .refl
      (.single ⟨_, _, _, h15, rfl, rfl⟩)
      (.path (op := .opHLineTo) (rest := []) (below := []) (by decide) rfl ⟨rfl, le_refl _, fun a ha _ => ha.length_le⟩)
      (.nil .refl)

/-! ## C47 -/

theorem ends_frames {rest : List UInt8} {cs : List (List UInt8)} :
    (∃ k main, rest :: cs = List.replicate k [] ++ [main]) ↔ ∀ c ∈ (rest :: cs).dropLast, c = [] := by
  constructor
  · rintro ⟨k, main, h⟩ c hc
    rw [h, List.dropLast_concat] at hc
    exact List.eq_of_mem_replicate hc
  · intro h
    refine ⟨(rest :: cs).dropLast.length, (rest :: cs).getLast (by simp), ?_⟩
    conv_lhs => rw [← List.dropLast_append_getLast (l := rest :: cs) (by simp)]
    rw [← List.eq_replicate_iff.mpr ⟨rfl, h⟩]

/-- `endchar` in terms of what is left of the routine and its callers. -/
theorem endchar_cases {cfg : Config} {s : Program} (hs : Sound s) {xs : List F32} {rest : List UInt8}
    (h : Ahead s xs .opEndChar rest) :
    ((∀ c ∈ (rest :: s.callers.map left).dropLast, c = []) ∧
      ∃ t, Next cfg s (.ok none) t ∧ Sound t ∧ t.callers = [] ∧
        some (left t.routine) = (rest :: s.callers.map left).getLast? ∧
        t.width = s.width.or (s.stack ++ xs).getLast?) ∨
    ((¬ ∀ c ∈ (rest :: s.callers.map left).dropLast, c = []) ∧
      ∃ t, Next cfg s (.err (.raised .trailingData)) t) := by
  obtain ⟨bs, hx, hl⟩ := h
  have he := step_fetch (cfg := cfg) hx hl
  obtain ⟨h1, h2⟩ := fetched hs hx hl
  have hr := left_adv hl xs
  have hc : (adv s xs (bs ++ bytes .opEndChar).length).callers = s.callers := rfl
  rw [← ends_frames]
  rcases dispatch_end cfg (sound_pos h1) with ⟨k, main, hm, hk, hd⟩ | ⟨hn, t, hd⟩
  · rw [hr, hc] at hk
    refine .inl ⟨⟨k, _, hk⟩, _, (next_ret (he.trans hd)).mpr ⟨rfl, rfl⟩, ?_, rfl, ?_, rfl⟩
    · have hn := (next_ret (he.trans hd)).mpr ⟨rfl, rfl⟩
      exact (next_ends hs hn).2
    · rw [hk]; simp
  · rw [hr, hc] at hn
    exact .inr ⟨fun ⟨k, main, h⟩ => hn k main h, t, (next_err (he.trans hd)).mpr ⟨rfl, rfl⟩⟩

/-- **C47.**  In a program that is not in a subroutine `endchar` makes `next` return
`None`. -/
theorem C47_main {cfg : Config} {s : Program} (hs : Sound s) {xs : List F32} {rest : List UInt8}
    (h : Ahead s xs .opEndChar rest) (hc : s.callers = []) : ∃ t, Next cfg s (.ok none) t := by
  rcases endchar_cases (cfg := cfg) hs h with ⟨_, t, h, _⟩ | ⟨h, _⟩
  · exact ⟨t, h⟩
  · exact absurd (by simp [hc]) h

/-- **C47.**  In a subroutine `endchar` makes `next` return `None` if and only if there
is nothing left of it and of every subroutine among its callers (all callers but
the outermost), and is an error otherwise. -/
theorem C47_subroutine {cfg : Config} {s : Program} (hs : Sound s) {xs : List F32} {rest : List UInt8}
    (h : Ahead s xs .opEndChar rest) (hc : s.callers ≠ []) :
    ((∃ t, Next cfg s (.ok none) t) ↔ rest = [] ∧ ∀ r ∈ s.callers.dropLast, left r = []) ∧
    (¬ (rest = [] ∧ ∀ r ∈ s.callers.dropLast, left r = []) → Fails cfg s) := by
  have hiff : (∀ c ∈ (rest :: s.callers.map left).dropLast, c = []) ↔
      rest = [] ∧ ∀ r ∈ s.callers.dropLast, left r = [] := by
    have : (rest :: s.callers.map left).dropLast = rest :: s.callers.dropLast.map left := by
      rw [List.dropLast_cons_of_ne_nil (by simpa using hc), List.map_dropLast]
    rw [this]
    simp only [List.mem_cons, List.mem_map, forall_eq_or_imp, forall_exists_index, and_imp, forall_apply_eq_imp_iff₂]
  rw [← hiff]
  rcases endchar_cases (cfg := cfg) hs h with ⟨h1, t, h2, _⟩ | ⟨h1, t, h2⟩
  · exact ⟨⟨fun _ => h1, fun _ => ⟨t, h2⟩⟩, fun h => absurd h1 h⟩
  · exact ⟨⟨fun ⟨t', h3⟩ => by have := (next_unique h2 h3).1; simp at this, fun h => absurd h h1⟩, fun _ => ⟨_, t, h2⟩⟩

/-- `-107 callsubr` with the subroutine `endchar` ends; with `endchar return` it fails. -/
example : (∃ t, Next release (Program.new [32, 10, 14] [] [[14]]) (.ok none) t) ∧
    Fails release (Program.new [32, 10, 14] [] [[14, 11]]) :=
  ⟨⟨after release (Program.new [32, 10, 14] [] [[14]]), 100, by decide +kernel⟩,
    .raised .trailingData, after release (Program.new [32, 10, 14] [] [[14, 11]]), 100, by decide +kernel⟩
/-- The hypotheses of `C47_subroutine`. -/
example : Ahead { Program.new [14] [] [] with callers := [⟨[32, 10, 14], 2⟩] } [] .opEndChar [] :=
  ⟨[], .nil, rfl⟩

/-! ## C48 -/

/-- **C48**, the full statement: after `None` there are only `None`s, and the width
does not change. -/
def C48Statement : Prop := ∀ {cfg : Config} {s t u : Program} {r : Res (Option Operation)}, Sound s →
  Next cfg s (.ok none) t → Next cfg t r u → r = .ok none ∧ u.width = t.width

/-- `endchar 10 hmoveto` -/
def afterEnd : Program := Program.new [14, 149, 22] [] []

/-- **C48** is false: code behind `endchar` is executed by the following calls. -/
theorem C48_false : ¬ C48Statement := by
  intro h
  have h1 := h (cfg := release) (s := afterEnd) (t := after release afterEnd)
    (u := after release (after release afterEnd)) (r := .ok (some (.opHMoveTo, [F32.ofInt 10])))
    (sound_new (by decide) (by decide) (by decide)) ⟨100, by decide +kernel⟩ ⟨100, by decide +kernel⟩
  exact absurd h1.1 (by decide)

/-- **C48**, in part: if there is no code left, all later calls return `None` and
change nothing.  Missing: code behind the `endchar` in the main program, for which
it is false. -/
theorem C48_stays_partial {cfg : Config} {s t u : Program} (hs : Sound s) (h : Next cfg s (.ok none) t)
    (hl : left t.routine = []) (hu : History cfg t u) :
    u = t ∧ ∀ r v, Next cfg u r v → r = .ok none ∧ v = t := by
  have ht := (next_ends hs h).2
  have hn : ∀ r v, Next cfg t r v → r = .ok none ∧ v = t := fun r v hv =>
    (next_ret (step_done ht.routine hl)).mp hv
  have : u = t := by
    induction hu with
    | refl => rfl
    | tail _ hlast ih =>
      obtain ⟨r, hr⟩ := hlast
      rw [ih] at hr
      exact (hn r _ hr).2
  subst this
  exact ⟨rfl, hn⟩

/-- **C48.**  After `None` there is code left only behind an `endchar` of the main
program: an `endchar` has been executed, and the code left is that behind it, or
behind the call that led to it. -/
theorem C48_left {cfg : Config} {s t : Program} (hs : Sound s) (h : Next cfg s (.ok none) t)
    (hl : left t.routine ≠ []) :
    t.callers = [] ∧ ∃ τ υ rest, Turns cfg.checks (view s) τ ∧ Pushes τ υ ∧ υ.code = bytes .opEndChar ++ rest ∧
      (rest :: υ.callers).getLast? = some (left t.routine) := by
  obtain ⟨τ, ht, ⟨hc, he⟩ | ⟨υ, hp, he⟩⟩ := (next_ends hs h).1
  · rw [← he] at hc; exact absurd hc hl
  · generalize hv : view t = σ at he
    cases he with
    | @endchar rest main k hc hr =>
      have e1 : t.callers.map left = [] := congrArg State.callers hv
      have e2 : left t.routine = main := congrArg State.code hv
      exact ⟨by simpa using e1, τ, υ, rest, ht, hp, hc, by rw [hr, e2]; simp⟩

/-- A program without code behind its end. -/
example : (∃ t, Next release (Program.new [14] [] []) (.ok none) t ∧ left t.routine = []) :=
  ⟨after release (Program.new [14] [] []), ⟨100, by decide +kernel⟩, by decide +kernel⟩

/-! ## C51 -/

/-- **C51.**  `next` fails with `UnexpectedEof` if and only if execution comes to a
place, with code left, where the code ends inside an operand or an operator, after
operands, or inside a mask.  (The last hypothesis is about masks of `2^63` bytes and
more, for which a build that reserves memory first panics.) -/
theorem C51_eof_iff {cfg : Config} {s : Program} (hs : Sound s)
    (hm : cfg.prealloc = true → ∀ τ υ, Turns cfg.checks (view s) τ → Pushes τ υ → υ.stems + υ.stack.length < 2 ^ 63) :
    (∃ t, Next cfg s (.err .eof) t) ↔
      ∃ τ υ, Turns cfg.checks (view s) τ ∧ τ.code ≠ [] ∧ Pushes τ υ ∧ (Cut υ.code ∨ MaskCut υ) := by
  constructor
  · rintro ⟨t, h⟩
    obtain ⟨s1, ht, hs1, hn, hl⟩ := next_turns hs h
    rcases step_cases cfg hs1 with ⟨_, he⟩ | ⟨op, t', hst, hp, he⟩ | ⟨hne, ⟨υ, hp, hc⟩, s2, he⟩ | ⟨_, s2, he⟩
    · have := (next_ret he).mp hn; simp at this
    · rcases dispatch_cases cfg op hst with ⟨s2, h', _⟩ | ⟨o', s2, h', _⟩ | ⟨s2, h', _⟩ |
        ⟨_, ⟨r, s2, h'⟩ | ⟨hma, hlt, s2, h'⟩ | ⟨_, _, _, s2, h'⟩ | ⟨_, _, s2, h'⟩⟩ <;> rw [← he] at h'
      · exact absurd h' (hl _)
      · have := (next_ret h').mp hn; simp at this
      · have := (next_ret h').mp hn; simp at this
      · have := (next_err h').mp hn; simp at this
      · refine ⟨_, _, ht, ?_, hp, .inr ⟨op, _, hma, rfl, hlt⟩⟩
        intro hnil
        obtain ⟨xs, bs, _, hc, _⟩ := pushes_iff.mp hp
        rw [hnil] at hc
        have := congrArg List.length hc
        have := List.length_pos_of_ne_nil (bytes_ne_nil op)
        simp only [before, List.length_append, List.length_nil] at *
        omega
      · have := (next_panic h').mp hn; simp at this
      · have := (next_panic h').mp hn; simp at this
    · exact ⟨_, υ, ht, hne, hp, .inl hc⟩
    · have := (next_err he).mp hn; simp at this
  · rintro ⟨τ, υ, ht, hne, hp, hc⟩
    obtain ⟨s1, rfl, hs1, hn⟩ := turns_steps ht rfl hs
    obtain ⟨xs, bs, hx, hcode, hυ⟩ := pushes_iff.mp hp
    have hcode' : left s1.routine = bs ++ υ.code := hcode
    rcases hc with hc | ⟨op, rest, hma, hop, hlt⟩
    · obtain ⟨s2, he⟩ := step_eof (cfg := cfg) hx hs1.routine hcode' (by rw [← hcode']; exact hne) hc
      exact ⟨s2, (hn _ _).mpr ((next_err he).mpr ⟨rfl, rfl⟩)⟩
    · have hl : left s1.routine = bs ++ bytes op ++ rest := by rw [hcode', hop, List.append_assoc]
      have he := step_fetch (cfg := cfg) hx hl
      obtain ⟨h1, h2⟩ := fetched hs1 hx hl
      have hr := left_adv hl xs
      have e1 : υ.stack = s1.stack ++ xs := congrArg State.stack hυ
      have e2 : υ.stems = s1.stems := congrArg State.stems hυ
      have hlen : maskLength (adv s1 xs (bs ++ bytes op).length) = (υ.stems + υ.stack.length / 2 + 7) / 8 := by
        rw [e1, e2]; rfl
      rcases dispatch_mask hma cfg _ h1.routine (h1.size _ (by simp)) with ⟨hle, _⟩ | ⟨_, ⟨s2, hd⟩, _⟩ | ⟨hbig, hpre, _⟩
      · rw [hr, hlen] at hle; omega
      · exact ⟨s2, (hn _ _).mpr ((next_err (he.trans hd)).mpr ⟨rfl, rfl⟩)⟩
      · have := hm hpre _ _ ht hp
        rw [hlen] at hbig
        omega

/-- **C51.**  What the calls of `next` return for a program that is cut off somewhere,
they return for the complete program: the operations are determined by the bytes
that are present. -/
theorem C51_present {cfg : Config} {code r : List UInt8} {global «local» : List (List UInt8)} {ops : List Operation}
    {s : Program} (h1 : (code ++ r).length < 2 ^ 63)
    (h2 : ∀ c ∈ global ++ «local», c.length < 2 ^ 63) (h3 : global.length ≤ 2 ^ 31 ∧ «local».length ≤ 2 ^ 31)
    (h : Calls cfg (Program.new code global «local») ops s) :
    ∃ t, Calls cfg (Program.new (code ++ r) global «local») ops t ∧ t.width = s.width ∧ t.stems = s.stems := by
  obtain ⟨t, g1, _, g2, g3, _⟩ := C52_prefix h (sound_new (by simp at h1; omega) h2 h3) rfl
    (sound_new (code := code ++ r) h1 h2 h3) (r := r) (K := []) rfl
  exact ⟨t, g1, g3, g2⟩

/-- `10 20`, cut off before its operator, and `1 2 hstemhm hintmask` without its mask. -/
example : (∃ t, Next release (Program.new [149, 159] [] []) (.err .eof) t) ∧
    ∃ s t, Calls release (Program.new [140, 141, 18, 19] [] []) [(.opHStemHM, [1, 2].map F32.ofInt)] s ∧
      Next release s (.err .eof) t :=
  ⟨⟨after release (Program.new [149, 159] [] []), 100, by decide +kernel⟩,
    after release (Program.new [140, 141, 18, 19] [] []),
    after release (after release (Program.new [140, 141, 18, 19] [] [])),
    .cons ⟨100, by decide +kernel⟩ (.nil _), 100, by decide +kernel⟩

/-- The program `10 20 rmoveto 5 hlineto endchar`, from the first operator on. -/
example (cfg : Config) (x : List Observation) (out : Outcome) :
    Run cfg (Program.new [149, 159, 21, 144, 6, 14] [] []) x out ↔
      ∃ y, x = [((.opRMoveTo, [F32.ofInt 10, F32.ofInt 20]), none, 0)] ++ y ∧ Run cfg (Program.new [144, 6, 14] [] []) y out := by
  have h10 : Operand (F32.ofInt 10) [149] := operand_byte 149 (by decide) (by decide)
  have h20 : Operand (F32.ofInt 20) [159] := operand_byte 159 (by decide) (by decide)
  refine C52_compose (a := [149, 159, 21]) (r := [144, 6, 14]) (τ := ⟨[], [], [], [], [], 0, none⟩)
    (sound_new (by decide) (by decide) (by decide)) (sound_new (by decide) (by decide) (by decide))
    ⟨rfl, rfl, _, ?_, .refl, .inl rfl⟩ rfl rfl x out
  exact .cons (υ := ⟨[21], [], [], [], [F32.ofInt 10, F32.ofInt 20], 0, none⟩) .refl
    (.head ⟨_, _, _, h10, rfl, rfl⟩ (.single ⟨_, _, _, h20, rfl, rfl⟩))
    (.path (op := .opRMoveTo) (rest := []) (below := []) (by decide) rfl ⟨rfl, rfl, fun a ha _ => ha.length_le⟩) (.nil .refl)

/-- What a program shows, it shows with more code after it. -/
example : ∃ t', Calls release (Program.new ([149, 22] ++ [1, 2, 3]) [] []) [(.opHMoveTo, [F32.ofInt 10])] t' ∧ t'.stack = [] ∧
    t'.stems = 0 ∧ t'.width = none := by
  have h : Calls release (Program.new [149, 22] [] []) [(.opHMoveTo, [F32.ofInt 10])] (after release (Program.new [149, 22] [] [])) :=
    .cons ⟨100, by decide +kernel⟩ (.nil _)
  obtain ⟨t', h1, h2, h3, h4, -⟩ := C52_prefix h (sound_new (by decide) (by decide) (by decide)) rfl
    (t := Program.new ([149, 22] ++ [1, 2, 3]) [] []) (r := [1, 2, 3]) (K := []) (sound_new (by decide) (by decide) (by decide)) rfl
  exact ⟨t', h1, h2.trans (by decide +kernel), h3.trans (by decide +kernel), h4.trans (by decide +kernel)⟩

end PS.Type2
