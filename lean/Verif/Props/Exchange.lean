import Verif.Spec.Exchange
import Verif.Props.Flat
/-!
# Properties C65 and C66: fragments that can be exchanged, subroutines that can be spared
-/
namespace PS.Type2
open PS.Spec hiding Operand Operation
open PS.Type2.Spec

/-! ## C65 -/

/-- **C65.**  In a program, be it called from elsewhere or not, the fragment `f` behind
`a` can be exchanged for `g` if, from the state after `a`, both are executed
completely, show the same and lead to the same state.  (If a fragment ends with
operands there has to be something behind it: operands at the end of all code are an
error.) -/
theorem C65_exchange {cfg : Config} {s t : Program} (hs : Sound s) (ht : Sound t) {a f g r : List UInt8}
    {l l' : List Observation} {σ τ : State} (hl : left s.routine = a ++ (f ++ r))
    (hv : view t = { view s with code := a ++ (g ++ r) })
    (h1 : Consumes cfg.checks { view s with code := a, callers := [] } l σ (f ++ r ≠ [] ∧ g ++ r ≠ []))
    (h2 : Consumes cfg.checks { σ with code := f } l' τ (r ≠ []))
    (h3 : Consumes cfg.checks { σ with code := g } l' τ (r ≠ [])) (x : List Observation) (out : Outcome) :
    Run cfg s x out ↔ Run cfg t x out := by
  have hc : t.callers.map left = s.callers.map left := congrArg State.callers hv
  obtain ⟨s1, p1, v1, _, r1⟩ := run_consumes (cfg := cfg) hs (consumes_mono h1 And.left) hl
  obtain ⟨s2, p2, v2, _, r2⟩ := run_consumes (cfg := cfg) p1 (a := f) (r := r) (l := l') (τ := τ)
    (by rw [v1]; simp only [← h1.2.1]; exact h2) (congrArg State.code v1)
  obtain ⟨t1, q1, w1, _, u1⟩ := run_consumes (cfg := cfg) ht (a := a) (r := g ++ r) (l := l) (τ := σ)
    (by rw [hv]; exact consumes_mono h1 And.right) (congrArg State.code hv)
  obtain ⟨t2, q2, w2, _, u2⟩ := run_consumes (cfg := cfg) q1 (a := g) (r := r) (l := l') (τ := τ)
    (by rw [w1]; simp only [← h1.2.1]; exact h3) (congrArg State.code w1)
  have hfin : view s2 = view t2 := by
    have e1 : s1.callers.map left = s.callers.map left := congrArg State.callers v1
    have e2 : t1.callers.map left = t.callers.map left := congrArg State.callers w1
    rw [v2, w2, e1, e2, hc]
  rw [r1, u1]
  simp only [r2, u2, run_view_iff p2 q2 hfin]

/-- `exch exch` can be dropped before `rlineto`. -/
example (cfg : Config) (x : List Observation) (out : Outcome) :
    Run cfg (Program.new [144, 149, 12, 28, 12, 28, 5, 14] [] []) x out ↔ Run cfg (Program.new [144, 149, 5, 14] [] []) x out := by
  have h5 : Operand (F32.ofInt 5) [144] := operand_byte 144 (by decide) (by decide)
  have h10 : Operand (F32.ofInt 10) [149] := operand_byte 149 (by decide) (by decide)
  refine C65_exchange (a := [144, 149]) (f := [12, 28, 12, 28]) (g := []) (r := [5, 14]) (l := []) (l' := [])
    (σ := ⟨[], [], [], [], [F32.ofInt 5, F32.ofInt 10], 0, none⟩) (τ := ⟨[], [], [], [], [F32.ofInt 5, F32.ofInt 10], 0, none⟩)
    (sound_new (by decide) (by decide) (by decide)) (sound_new (by decide) (by decide) (by decide)) rfl rfl
    ⟨rfl, rfl, _, .nil .refl, .head ⟨_, _, _, h5, rfl, rfl⟩ (.single ⟨_, _, _, h10, rfl, rfl⟩), .inr (by decide)⟩
    ⟨rfl, rfl, _, .nil (.head (b := ⟨[12, 28], [], [], [], [F32.ofInt 10, F32.ofInt 5], 0, none⟩) ?_ (.single ?_)), .refl, .inl rfl⟩
    ⟨rfl, rfl, _, .nil .refl, .refl, .inl rfl⟩ x out
  · exact ⟨_, .refl, .stack (rest := [12, 28]) rfl (.exch [] (F32.ofInt 5) (F32.ofInt 10))⟩
  · exact ⟨_, .refl, .stack (rest := []) rfl (.exch [] (F32.ofInt 10) (F32.ofInt 5))⟩

theorem consumes_operands {c : Bool} {σ : State} (hc : σ.callers = []) {xs : List F32} {bs : List UInt8}
    (h : Seq Operand xs bs) {p : Prop} (hp : xs = [] ∨ p) :
    Consumes c { σ with code := bs } [] { σ with code := [], stack := σ.stack ++ xs } p := by
  refine ⟨rfl, hc, { σ with code := bs }, .nil .refl, pushes_iff.mpr ⟨xs, bs, h, by simp, rfl⟩, ?_⟩
  rcases hp with rfl | hp
  · cases h
    exact .inl (by simp)
  · exact .inr hp

/-- **C65.**  Only the value of operands matters, not how they are encoded. -/
theorem C65_operands {cfg : Config} {s t : Program} (hs : Sound s) (ht : Sound t) {a b b' r : List UInt8} {xs : List F32}
    {l : List Observation} {σ : State} (hl : left s.routine = a ++ (b ++ r))
    (hv : view t = { view s with code := a ++ (b' ++ r) })
    (h1 : Consumes cfg.checks { view s with code := a, callers := [] } l σ (r ≠ []))
    (hb : Seq Operand xs b) (hb' : Seq Operand xs b') (hr : r ≠ []) (x : List Observation) (out : Outcome) :
    Run cfg s x out ↔ Run cfg t x out :=
  C65_exchange hs ht hl hv (consumes_mono h1 fun _ => by simp [hr]) (consumes_operands h1.2.1 hb (.inr hr))
    (consumes_operands h1.2.1 hb' (.inr hr)) x out

/-- **C65.**  An arithmetic, conditional or stack operator behind operands can be replaced
by its result: if it turns the operands `xs`, with whatever is below them, into `ys`,
then `xs op` can be exchanged for `ys`. -/
theorem C65_folding {cfg : Config} {s t : Program} (hs : Sound s) (ht : Sound t) {a b b' r : List UInt8} {xs ys : List F32}
    {op : Operator} {l : List Observation} {σ : State} (hl : left s.routine = a ++ (b ++ bytes op ++ r))
    (hv : view t = { view s with code := a ++ (b' ++ r) })
    (h1 : Consumes cfg.checks { view s with code := a, callers := [] } l σ (r ≠ []))
    (hb : Seq Operand xs b) (hb' : Seq Operand ys b') (hop : StackOp cfg.checks op (σ.stack ++ xs) (σ.stack ++ ys))
    (hr : r ≠ []) (x : List Observation) (out : Outcome) : Run cfg s x out ↔ Run cfg t x out := by
  refine C65_exchange hs ht hl hv (consumes_mono h1 fun _ => by simp [hr]) (l' := []) ?_
    (consumes_operands h1.2.1 hb' (.inr hr)) x out
  refine ⟨rfl, h1.2.1, _, .nil (.single ⟨{ σ with code := bytes op, stack := σ.stack ++ xs }, ?_, ?_⟩), .refl, .inl rfl⟩
  · exact pushes_iff.mpr ⟨xs, b, hb, rfl, rfl⟩
  · exact .stack (rest := []) (by simp) hop

/-- **C65.**  `exch exch`, `dup drop` and `neg neg` can be left out where there are
enough operands. -/
theorem C65_cancelling {cfg : Config} {s t : Program} (hs : Sound s) (ht : Sound t) {a r : List UInt8} {ops : List Operator}
    {n : Nat} {l : List Observation} {σ : State} (hops : (ops, n) ∈ cancelling)
    (hl : left s.routine = a ++ (ops.flatMap bytes ++ r)) (hv : view t = { view s with code := a ++ r })
    (h1 : Consumes cfg.checks { view s with code := a, callers := [] } l σ (r ≠ [])) (hn : n ≤ σ.stack.length)
    (x : List Observation) (out : Outcome) : Run cfg s x out ↔ Run cfg t x out := by
  have one : 1 ≤ σ.stack.length → ∃ st x, σ.stack = st ++ [x] := fun h =>
    ⟨σ.stack.dropLast, σ.stack.getLast (by rintro h'; simp [h'] at h), (List.dropLast_append_getLast _).symm⟩
  have two : 2 ≤ σ.stack.length → ∃ st x y, σ.stack = st ++ [x, y] := by
    intro h
    obtain ⟨st, y, hy⟩ := one (by omega)
    have : st ≠ [] := by rintro rfl; simp [hy] at h
    refine ⟨st.dropLast, st.getLast this, y, ?_⟩
    rw [hy]
    conv_lhs => rw [← List.dropLast_append_getLast this]
    simp
  have stop : ∀ {υ υ' : State} {op : Operator} {rest : List UInt8} {st : List F32}, υ.code = bytes op ++ rest →
      StackOp cfg.checks op υ.stack st → υ' = { υ with code := rest, stack := st } → Turn cfg.checks υ υ' := by
    rintro υ _ op rest st h h' rfl
    exact ⟨υ, .refl, .stack h h'⟩
  have hneg : ∀ x : F32, opposite (opposite x) = x := by rintro (_ | _ | _) <;> simp [opposite]
  have hturns : Turns cfg.checks { σ with code := ops.flatMap bytes } { σ with code := [] } := by
    simp only [cancelling, List.mem_cons, List.not_mem_nil, or_false, Prod.mk.injEq] at hops
    rcases hops with ⟨rfl, rfl⟩ | ⟨rfl, rfl⟩ | ⟨rfl, rfl⟩
    · obtain ⟨st, x, y, he⟩ := two hn
      refine .head (stop (op := .opExch) (rest := bytes .opExch) rfl (by rw [he]; exact .exch st x y) rfl)
        (.single (stop (op := .opExch) (rest := []) rfl (.exch st y x) ?_))
      rw [← he]
    · obtain ⟨st, x, he⟩ := one hn
      refine .head (stop (op := .opDup) (rest := bytes .opDrop) rfl (by rw [he]; exact .dup st x) rfl)
        (.single (stop (op := .opDrop) (rest := []) (st := st ++ [x]) rfl ?_ ?_))
      · have := StackOp.drop (checks := cfg.checks) (st ++ [x]) x
        rwa [List.append_assoc] at this
      · rw [← he]
    · obtain ⟨st, x, he⟩ := one hn
      refine .head (stop (op := .opNeg) (rest := bytes .opNeg) rfl (by rw [he]; exact .neg st x) rfl)
        (.single (stop (op := .opNeg) (rest := []) rfl (.neg st (opposite x)) ?_))
      rw [hneg, ← he]
  refine C65_exchange (g := []) (l' := []) (τ := { σ with code := [] }) hs ht hl (by simpa using hv)
    (consumes_mono h1 fun h => by simp [h]) ⟨rfl, h1.2.1, _, .nil hturns, .refl, .inl rfl⟩
    ⟨rfl, h1.2.1, _, .nil .refl, .refl, .inl rfl⟩ x out

/-- `10 20 rmoveto 5 neg neg hlineto`, where `10 20 rmoveto 5` leaves an operand -/
example : ∃ σ l, Consumes false { view (Program.new [149, 159, 21, 144, 12, 14, 12, 14, 6] [] []) with
    code := [149, 159, 21, 144], callers := [] } l σ ([6] ≠ []) ∧ 1 ≤ σ.stack.length := by
  have h10 : Operand (F32.ofInt 10) [149] := operand_byte 149 (by decide) (by decide)
  have h20 : Operand (F32.ofInt 20) [159] := operand_byte 159 (by decide) (by decide)
  have h5 : Operand (F32.ofInt 5) [144] := operand_byte 144 (by decide) (by decide)
  refine ⟨⟨[], [], [], [], [F32.ofInt 5], 0, none⟩, _, ⟨rfl, rfl, ⟨[144], [], [], [], [], 0, none⟩,
    .cons (υ := ⟨[21, 144], [], [], [], [F32.ofInt 10, F32.ofInt 20], 0, none⟩) .refl
      (.head ⟨_, _, _, h10, rfl, rfl⟩ (.single ⟨_, _, _, h20, rfl, rfl⟩))
      (.path (op := .opRMoveTo) (rest := [144]) (below := []) (by decide) rfl ⟨rfl, rfl, fun a ha _ => ha.length_le⟩)
      (.nil .refl), .single ⟨_, _, _, h5, rfl, rfl⟩, .inr (by simp)⟩, by decide⟩

/-- 5 in one byte, in three and in five. -/
example : Operand (F32.ofInt 5) [144] ∧ Operand (F32.ofInt 5) [28, 0, 5] ∧ Operand (F32.ofInt 5) [255, 0, 5, 0, 0] := by
  refine ⟨operand_byte 144 (by decide) (by decide), operand_iff.mpr (.inl ⟨5, .word 5 (by decide) (by decide), rfl⟩),
    operand_iff.mpr (.inr ⟨5 * 65536, by decide, by decide, rfl, by decide +kernel⟩)⟩

/-- `3 4 exch` is `4 3`. -/
example (c : Bool) (st : List F32) : StackOp c .opExch (st ++ [F32.ofInt 3, F32.ofInt 4]) (st ++ [F32.ofInt 4, F32.ofInt 3]) :=
  .exch st _ _

/-! ## C66 -/

theorem no_operand {x : F32} {bs rest : List UInt8} (h : Operand x bs) : [0] ≠ bs ++ rest := by
  obtain ⟨b, l, rfl, hb⟩ := operand_head h
  intro h
  injection h with h _
  subst h
  simp [isOperandByte] at hb

theorem no_operator {op : Operator} {rest : List UInt8} : [0] ≠ bytes op ++ rest := by
  cases op <;> simp [bytes]

/-- There is no way on from a subroutine that cannot be executed. -/
theorem stuck_pushes {σ υ : State} (h : Pushes σ υ) (hc : σ.code = [0]) : υ = σ := by
  induction h with
  | refl => rfl
  | tail _ h ih =>
    subst ih
    obtain ⟨x, bs, rest, ho, h, _⟩ := h
    exact absurd (hc.symm.trans h) (no_operand ho)

theorem stuck_turns {c : Bool} {σ τ : State} (h : Turns c σ τ) (hc : σ.code = [0]) : τ = σ := by
  induction h with
  | refl => rfl
  | tail _ h ih =>
    subst ih
    obtain ⟨υ, hp, hq⟩ := h
    obtain rfl := stuck_pushes hp hc
    cases hq <;> exact absurd (hc.symm.trans ‹_›) no_operator

/-- The state with all the subroutines. -/
def fill (g l : List (List UInt8)) (σ : State) : State := { σ with global := g, «local» := l }

theorem fill_pushes {g l : List (List UInt8)} {σ υ : State} (h : Pushes σ υ) : Pushes (fill g l σ) (fill g l υ) := by
  obtain ⟨xs, bs, h1, h2, h3⟩ := pushes_iff.mp h
  refine pushes_iff.mpr ⟨xs, bs, h1, h2, ?_⟩
  rw [h3]
  rfl

theorem fill_quiet {c : Bool} {g l : List (List UInt8)} {σ τ : State} (hg : Spared σ.global g) (hl : Spared σ.local l)
    (h : Quiet c σ τ) : Quiet c (fill g l σ) (fill g l τ) ∨ τ.code = [0] := by
  cases h with
  | stack h1 h2 => exact .inl (.stack (σ := fill g l σ) h1 h2)
  | callLocal h1 h2 h3 h4 h5 =>
    rcases hl.2 _ _ h5 with h | h
    · exact .inr h
    · exact .inl (.callLocal (σ := fill g l σ) h1 h2 h3 (by rw [← h4, hl.1]; rfl) h)
  | callGlobal h1 h2 h3 h4 h5 =>
    rcases hg.2 _ _ h5 with h | h
    · exact .inr h
    · exact .inl (.callGlobal (σ := fill g l σ) h1 h2 h3 (by rw [← h4, hg.1]; rfl) h)
  | «return» h1 h2 => exact .inl (.return (σ := fill g l σ) h1 h2)

theorem fill_turns {c : Bool} {g l : List (List UInt8)} {σ τ : State} (hg : Spared σ.global g) (hl : Spared σ.local l)
    (h : Turns c σ τ) (hτ : τ.code ≠ [0]) : Turns c (fill g l σ) (fill g l τ) := by
  induction h using Relation.ReflTransGen.head_induction_on with
  | refl => exact .refl
  | head h h' ih =>
    obtain ⟨υ, hp, hq⟩ := h
    obtain ⟨_, p1, p2, _⟩ := pushes_eq hp
    obtain ⟨q1, q2, _⟩ := quiet_eq hq
    rcases fill_quiet (g := g) (l := l) (by rw [p1]; exact hg) (by rw [p2]; exact hl) hq with h | h
    · exact .head ⟨_, fill_pushes hp, h⟩ (ih (by rw [q1, p1]; exact hg) (by rw [q2, p2]; exact hl))
    · exact absurd (by rw [stuck_turns h' h]; exact h) hτ

theorem fill_yields {c : Bool} {g l : List (List UInt8)} {σ σ' : State} {o : Operation} (hg : Spared σ.global g)
    (hl : Spared σ.local l) (h : Yields c σ o σ') : Yields c (fill g l σ) o (fill g l σ') := by
  obtain ⟨τ, υ, h1, h2, h3⟩ := h
  refine ⟨fill g l τ, fill g l υ, fill_turns hg hl h1 ?_, fill_pushes h2, ?_⟩
  · intro hc
    obtain rfl := stuck_pushes h2 hc
    cases h3 with
    | path _ h _ => exact absurd (hc.symm.trans h) no_operator
    | stem _ h _ => exact absurd (hc.symm.trans h) no_operator
    | mask _ h _ => exact absurd (hc.symm.trans (h.trans (List.append_assoc _ _ _))) no_operator
  · cases h3 with
    | path h1 h2 h3 => exact .path (σ := fill g l υ) h1 h2 h3
    | stem h1 h2 h3 => exact .stem (σ := fill g l υ) h1 h2 h3
    | mask h1 h2 h3 => exact .mask (σ := fill g l υ) h1 h2 h3

theorem fill_ends {c : Bool} {g l : List (List UInt8)} {σ σ' : State} (hg : Spared σ.global g)
    (hl : Spared σ.local l) (h : Ends c σ σ') : Ends c (fill g l σ) (fill g l σ') := by
  obtain ⟨τ, h1, ⟨h2, rfl⟩ | ⟨υ, h2, h3⟩⟩ := h
  · exact ⟨_, fill_turns hg hl h1 (by simp [h2]), .inl ⟨h2, rfl⟩⟩
  · refine ⟨fill g l τ, fill_turns hg hl h1 ?_, .inr ⟨fill g l υ, fill_pushes h2, ?_⟩⟩
    · intro hc
      obtain rfl := stuck_pushes h2 hc
      cases h3 with
      | endchar h _ => exact absurd (hc.symm.trans h) no_operator
    · cases h3 with
      | endchar h1 h2 => exact .endchar (σ := fill g l υ) h1 h2

/-- **C66.**  A program that runs to its end although some subroutines are blanked out, or
missing at the end of the INDEX, runs the same with all of them: whatever they are,
they do not matter. -/
theorem C66_spared {cfg : Config} {code : List UInt8} {global «local» global' local' : List (List UInt8)}
    (hs : Sound (Program.new code global «local»)) (hs' : Sound (Program.new code global' local'))
    (hg : Spared global' global) (hl : Spared local' «local») {x : List Observation} {w : Option F32}
    (h : Run cfg (Program.new code global' local') x (.ended w)) : Run cfg (Program.new code global «local») x (.ended w) := by
  have key : ∀ {x : List Observation} {s' : Program} {out}, Run cfg s' x out → out = .ended w → Sound s' → s'.global = global' → s'.local = local' →
      ∀ {s : Program}, Sound s → view s = fill global «local» (view s') → Run cfg s x out := by
    intro x s' out h
    induction h with
    | ended hn =>
      rintro - hp rfl rfl s hs hv
      obtain ⟨h1, _⟩ := next_ends hp hn
      have h2 := fill_ends (g := global) (l := «local») hg hl h1
      rw [← hv] at h2
      obtain ⟨t, h3, h4, _⟩ := ends_next hs h2
      have : t.width = _ := congrArg State.width h4
      have h5 := Run.ended h3
      rw [this] at h5
      exact h5
    | failed => rintro ⟨⟩
    | more hn _ ih =>
      rintro ho hp rfl rfl s hs hv
      obtain ⟨h1, hs1⟩ := next_yields hp hn
      obtain ⟨τ, υ, k1, k2, k3⟩ := id h1
      have h2 := fill_yields (g := global) (l := «local») hg hl h1
      rw [← hv] at h2
      obtain ⟨t, h3, h4, ht⟩ := yields_next hs h2
      have e1 : t.width = _ := congrArg State.width h4
      have e2 : t.stems = _ := congrArg State.stems h4
      obtain ⟨a1, a2, _⟩ := turns_eq k1
      obtain ⟨_, b1, b2, _⟩ := pushes_eq k2
      obtain ⟨_, c1, c2⟩ := emit_eq k3
      have := Run.more h3 (ih ho hs1 (c1.trans (b1.trans a1)) (c2.trans (b2.trans a2)) ht h4)
      rw [e1, e2] at this
      exact this
  exact key h rfl hs' rfl rfl hs rfl

/-- **C66.**  In particular a subroutine whose replacement by the byte 0 is not noticed can
have any body. -/
theorem C66_any_body {cfg : Config} {code : List UInt8} {global «local» : List (List UInt8)} {i : Nat} {body : List UInt8}
    (hs : Sound (Program.new code global («local».set i body))) {x : List Observation} {w : Option F32}
    (h : Run cfg (Program.new code global («local».set i [0])) x (.ended w)) :
    Run cfg (Program.new code global («local».set i body)) x (.ended w) := by
  refine C66_spared hs ?_ ⟨rfl, fun _ _ h => .inr h⟩ ⟨by simp, fun j b hb => ?_⟩ h
  · refine { hs with subroutines := ?_, counts := ⟨hs.counts.1, by simpa [Program.new] using hs.counts.2⟩ }
    intro c hc
    rcases List.mem_append.mp hc with hc | hc
    · exact hs.subroutines c (List.mem_append_left _ hc)
    · obtain ⟨j, hj, rfl⟩ := List.getElem_of_mem hc
      by_cases hij : i = j
      · subst hij
        simp [Program.new]
      · refine hs.subroutines _ (List.mem_append_right _ ?_)
        simp only [Program.new, List.length_set] at hj
        rw [List.mem_iff_getElem]
        refine ⟨j, by simpa [Program.new] using hj, ?_⟩
        simp [Program.new, hij]
  · by_cases hij : i = j
    · subst hij
      rw [List.getElem?_set_self'] at hb
      cases h : «local»[i]? <;> simp [h] at hb
      exact .inl hb.symm
    · rw [List.getElem?_set_ne hij] at hb ⊢
      exact .inr hb

/-- `-106 callsubr endchar`, where the subroutine called is `10 hmoveto return`, and nothing is
known of the other one. -/
example (body : List UInt8) (hb : body.length < 2 ^ 63) :
    Run release (Program.new [33, 10, 14] [] [body, [149, 22, 11]]) [((.opHMoveTo, [F32.ofInt 10]), none, 0)] (.ended none) := by
  refine C66_any_body (i := 0) («local» := [[], [149, 22, 11]]) (body := body) ?_ ?_
  · exact sound_new (by decide) (by simpa using hb) ⟨by decide, by simp⟩
  · exact run_cons (t := after release (Program.new [33, 10, 14] [] [[0], [149, 22, 11]])) ⟨100, by decide +kernel⟩ (by decide +kernel)
      (run_nil (t := after release (after release (Program.new [33, 10, 14] [] [[0], [149, 22, 11]]))) ⟨100, by decide +kernel⟩
        (by decide +kernel))

/-- Subroutines at the end that are not needed can be missing. -/
example : Spared [[149, 22, 11]] [[149, 22, 11], [14], [11]] :=
  ⟨rfl, fun i b h => by rcases i with _ | i <;> simp_all⟩

end PS.Type2
