import Verif.Lemmas.Type2Width
import Verif.Props.Type2Numbers
/-!
# Properties C39–C42 and C54: operations, width and hints
-/
namespace PS.Type2
open PS.Spec hiding Operand Operation
open PS.Type2.Spec

/-- A release build, for the examples. -/
def release : Config := ⟨false, false, 0, fun _ _ => 0⟩

/-- A build with overflow checks. -/
def checked : Config := { release with checks := true }

/-- The state after a call of `next` that takes at most 100 turns. -/
def after (cfg : Config) (s : Program) : Program := ((nextFuel 100 cfg s).map (·.2)).getD s

/-! ## C54 -/

/-- **C54.**  A new program is in good order. -/
theorem C54_new {code : List UInt8} {global «local» : List (List UInt8)} (h1 : code.length < 2 ^ 63)
    (h2 : ∀ c ∈ global ++ «local», c.length < 2 ^ 63) (h3 : global.length ≤ 2 ^ 31 ∧ «local».length ≤ 2 ^ 31) :
    Sound (Program.new code global «local») ∧
    view (Program.new code global «local») =
      { code, callers := [], global, «local», stack := [], stems := 0, width := none } :=
  ⟨sound_new h1 h2 h3, rfl⟩

/-- **C54.**  `next` returns an operation if and only if the machine yields it,
and leaves the program in the state of the machine. -/
theorem C54_operation_iff {cfg : Config} {s : Program} (hs : Sound s) (o : Operation) (σ' : State) :
    (∃ s', Next cfg s (.ok (some o)) s' ∧ view s' = σ' ∧ Sound s') ↔ Yields cfg.checks (view s) o σ' := by
  constructor
  · rintro ⟨s', h, rfl, _⟩
    exact (next_yields hs h).1
  · exact yields_next hs

/-- **C54.**  `next` returns `None` if and only if the machine ends. -/
theorem C54_end_iff {cfg : Config} {s : Program} (hs : Sound s) (σ' : State) :
    (∃ s', Next cfg s (.ok none) s' ∧ view s' = σ' ∧ Sound s') ↔ Ends cfg.checks (view s) σ' := by
  constructor
  · rintro ⟨s', h, rfl, _⟩
    exact (next_ends hs h).1
  · exact ends_next hs

/-- **C54.**  `next` returns one result only, and whatever it returns without an
error leaves the program in good order. -/
theorem C54_deterministic {cfg : Config} {s : Program} (hs : Sound s) {r r' : Res (Option Operation)} {t t' : Program}
    (h : Next cfg s r t) (h' : Next cfg s r' t') : (r = r' ∧ t = t') ∧ ∀ o, r = .ok o → Sound t := by
  refine ⟨next_unique h h', ?_⟩
  rintro (_ | o) rfl
  · exact (next_ends hs h).2
  · exact (next_yields hs h).2

/-- **C54.**  `next` fails or panics if and only if the machine comes to a state in
which there is code left, but of which nothing comes. -/
theorem C54_failure_iff {cfg : Config} {s : Program} (hs : Sound s) :
    (∃ s', (∃ e, Next cfg s (.err e) s') ∨ ∃ x, Next cfg s (.panic x) s') ↔
      ∃ τ, Turns cfg.checks (view s) τ ∧ τ.code ≠ [] ∧
        ∀ υ, Pushes τ υ → (∀ σ, ¬ Quiet cfg.checks υ σ) ∧ (∀ o σ, ¬ Emit υ o σ) ∧ ∀ σ, ¬ End υ σ := by
  have fwd : ∀ r s', (∀ o, r ≠ .ok o) → Next cfg s r s' → ∃ τ, Turns cfg.checks (view s) τ ∧ τ.code ≠ [] ∧
      ∀ υ, Pushes τ υ → (∀ σ, ¬ Quiet cfg.checks υ σ) ∧ (∀ o σ, ¬ Emit υ o σ) ∧ ∀ σ, ¬ End υ σ := by
    intro r s' hr h
    obtain ⟨s1, ht, hs1, hn, hl⟩ := next_turns hs h
    refine ⟨_, ht, ?_, ?_⟩
    · intro hc
      exact hr _ ((next_ret (step_done hs1.routine hc)).mp hn).1
    · intro υ hp
      refine ⟨fun σ hq => ?_, fun o σ he => ?_, fun σ he => ?_⟩
      · obtain ⟨s2, h2, _⟩ := step_of_turn cfg hs1 ⟨υ, hp, hq⟩
        exact hl _ h2
      · obtain ⟨s2, h2, _⟩ := step_of_emit cfg hs1 hp he
        exact hr _ ((next_ret h2).mp hn).1
      · obtain ⟨s2, h2, _⟩ := step_of_end cfg hs1 hp he
        exact hr _ ((next_ret h2).mp hn).1
  constructor
  · rintro ⟨s', ⟨e, h⟩ | ⟨x, h⟩⟩
    · exact fwd _ s' (by simp) h
    · exact fwd _ s' (by simp) h
  · rintro ⟨τ, ht, hc, hstuck⟩
    obtain ⟨s1, rfl, hs1, hn⟩ := turns_steps ht rfl hs
    rcases hst : step cfg s1 with ⟨(f | e | x), s2⟩
    · exfalso
      rcases step_cases cfg hs1 with ⟨h, _⟩ | ⟨op, t, hst', hp, he⟩ | ⟨_, _, s3, he⟩ | ⟨_, s3, he⟩
      · exact hc h
      · obtain ⟨h1, h2, h3⟩ := hstuck _ hp
        rcases dispatch_cases cfg op hst' with ⟨s3, h', hq, _⟩ | ⟨o, s3, h', hq, _⟩ | ⟨s3, h', hq, _⟩ |
          ⟨_, ⟨r, s3, h'⟩ | ⟨_, _, s3, h'⟩ | ⟨_, _, _, s3, h'⟩ | ⟨_, _, s3, h'⟩⟩
        · exact h1 _ hq
        · exact h2 _ _ hq
        · exact h3 _ hq
        all_goals
          rw [he, h'] at hst
          simp at hst
      · rw [hst] at he; simp at he
      · rw [hst] at he; simp at he
    · exact ⟨s2, .inl ⟨e, (hn _ _).mpr ((next_err hst).mpr ⟨rfl, rfl⟩)⟩⟩
    · exact ⟨s2, .inr ⟨x, (hn _ _).mpr ((next_panic hst).mpr ⟨rfl, rfl⟩)⟩⟩

/-- The program `50 10 20 rmoveto endchar`. -/
def sample : Program := Program.new [189, 149, 159, 21, 14] [] []

example : Sound sample := sound_new (by decide) (by decide) (by decide)
/-- It yields the operation and the width. -/
example : Next release sample (.ok (some (.opRMoveTo, [10, 20].map F32.ofInt))) (after release sample) :=
  ⟨100, by decide +kernel⟩
example : Next release (after release sample) (.ok none) (after release (after release sample)) :=
  ⟨100, by decide +kernel⟩

/-! ## C39 -/

/-- **C39.**  The operands of an operation of a path or stem operator are the
longest suffix, of the operands there are when the operator is executed, that the
operator accepts, and afterwards the stack is empty. -/
theorem C39_longest {cfg : Config} {s s' : Program} (hs : Sound s) {op : Operator} {args : List F32}
    (h : Next cfg s (.ok (some (op, args))) s') (hop : Path op ∨ Stem op) :
    ∃ τ υ below, Turns cfg.checks (view s) τ ∧ Pushes τ υ ∧ υ.code = bytes op ++ left s'.routine ∧
      υ.stack = below ++ args ∧ Accepts op args.length ∧
      (∀ args', args' <:+ υ.stack → Accepts op args'.length → args'.length ≤ args.length) ∧ s'.stack = [] := by
  obtain ⟨⟨τ, υ, ht, hp, hem⟩, hs'⟩ := next_yields hs h
  generalize hv : view s' = σ at hem
  cases hem with
  | path hop' hc hl =>
    refine ⟨τ, υ, _, ht, hp, ?_, hl.1, hl.2.1, hl.2.2, congrArg State.stack hv⟩
    rw [hc, show left s'.routine = _ from congrArg State.code hv]
  | stem hop' hc hl =>
    refine ⟨τ, υ, _, ht, hp, ?_, hl.1, hl.2.1, hl.2.2, congrArg State.stack hv⟩
    rw [hc, show left s'.routine = _ from congrArg State.code hv]
  | mask hop' _ _ =>
    exfalso
    simp only [Mask, List.mem_cons, List.not_mem_nil, or_false] at hop'
    rcases hop' with rfl | rfl <;> exact absurd hop (by decide)

/-- **C39.**  A path or stem operator after the operands `xs` fails if and only if
it accepts no suffix of the stack, and yields an operation otherwise. -/
theorem C39_fails_iff {cfg : Config} {s : Program} {op : Operator} (hop : Path op ∨ Stem op) {xs : List F32}
    {bs rest : List UInt8} (hx : Seq Operand xs bs) (hl : left s.routine = bs ++ bytes op ++ rest) :
    ((∃ s' r, Next cfg s (.err r) s') ↔ ∀ args, args <:+ s.stack ++ xs → ¬ Accepts op args.length) ∧
    ((∃ s' args, Next cfg s (.ok (some (op, args))) s') ↔ ∃ args, args <:+ s.stack ++ xs ∧ Accepts op args.length) := by
  have he := step_fetch (cfg := cfg) hx hl
  have key : (∃ below args s', Longest op (s.stack ++ xs) below args ∧ step cfg s = (.ok (.ret (some (op, args))), s')) ∨
      ((∀ args, args <:+ s.stack ++ xs → ¬ Accepts op args.length) ∧ ∃ s', step cfg s = (.err (.raised .malformedOperands), s')) := by
    rw [he]
    rcases hop with hop | hop
    · rcases dispatch_path hop cfg (adv s xs (bs ++ bytes op).length) with ⟨b, a, h1, h2⟩ | ⟨h1, h2⟩
      · exact .inl ⟨b, a, _, h1, h2⟩
      · exact .inr ⟨h1, _, h2⟩
    · rcases dispatch_stem hop cfg (adv s xs (bs ++ bytes op).length) with ⟨b, a, h1, h2⟩ | ⟨h1, h2⟩
      · exact .inl ⟨b, a, _, h1, h2⟩
      · exact .inr ⟨h1, _, h2⟩
  rcases key with ⟨b, a, s', h1, h2⟩ | ⟨h1, s', h2⟩
  · refine ⟨⟨?_, ?_⟩, ⟨?_, ?_⟩⟩
    · rintro ⟨t, r, ht⟩
      have := ((next_ret h2).mp ht).1
      simp at this
    · intro hn
      exact absurd h1.2.1 (hn _ ⟨b, h1.1.symm⟩)
    · intro _; exact ⟨a, ⟨b, h1.1.symm⟩, h1.2.1⟩
    · intro _; exact ⟨s', a, (next_ret h2).mpr ⟨rfl, rfl⟩⟩
  · refine ⟨⟨fun _ => h1, fun _ => ⟨s', _, (next_err h2).mpr ⟨rfl, rfl⟩⟩⟩, ⟨?_, ?_⟩⟩
    · rintro ⟨t, a, ht⟩
      have := ((next_err h2).mp ht).1
      simp at this
    · rintro ⟨a, ha, hacc⟩
      exact absurd hacc (h1 a ha)

/-- `10 20 30 40 50 hhcurveto` takes all five operands, and `10 hhcurveto` fails. -/
example : ∃ s', Next release (Program.new [149, 159, 169, 179, 189, 27] [] [])
    (.ok (some (.opHHCurveTo, [10, 20, 30, 40, 50].map F32.ofInt))) s' :=
  ⟨after release (Program.new [149, 159, 169, 179, 189, 27] [] []), 100, by decide +kernel⟩
example : ∃ s', Next release (Program.new [149, 27] [] []) (.err (.raised .malformedOperands)) s' :=
  ⟨after release (Program.new [149, 27] [] []), 100, by decide +kernel⟩

/-! ## C40 -/

/-- **C40.**  A width, once there, stays for ever: over any number of calls of
`next`, whether they succeed, fail or panic, from any state. -/
theorem C40_width_stays {cfg : Config} {s s' : Program} (h : History cfg s s') {w : F32} (hw : s.width = some w) :
    s'.width = some w := by
  induction h with
  | refl => exact hw
  | tail _ h ih =>
    obtain ⟨r, h⟩ := h
    have := next_width h
    rcases r with o | e | x
    · obtain ⟨v, hv⟩ := this
      rw [hv, ih]; rfl
    · rw [show _ = _ from this, ih]
    · rw [show _ = _ from this, ih]

/-- **C40.**  A call that fails or panics leaves the width as it is. -/
theorem C40_width_error {cfg : Config} {s s' : Program} {r : Res (Option Operation)} (h : Next cfg s r s')
    (hr : ∀ o, r ≠ .ok o) : s'.width = s.width := by
  have := next_width h
  rcases r with o | e | x
  · exact absurd rfl (hr o)
  · exact this
  · exact this

/-- **C40.**  There is no width in the beginning.  A call that returns an operation
sets it, if there is none, to the operand just below those of the operation, if
there is one. -/
theorem C40_width_operation {cfg : Config} {s s' : Program} (hs : Sound s) {op : Operator} {args : List F32}
    (h : Next cfg s (.ok (some (op, args))) s') :
    ∃ τ υ rest below, Turns cfg.checks (view s) τ ∧ Pushes τ υ ∧ υ.code = bytes op ++ rest ∧ υ.stack = below ++ args ∧
      s'.width = (match s.width with | some w => some w | none => below.getLast?) := by
  obtain ⟨⟨τ, υ, ht, hp, hem⟩, hs'⟩ := next_yields hs h
  have hw : υ.width = s.width := by
    rw [(pushes_eq hp).2.2.2.2, (turns_eq ht).2.2.2]; rfl
  have hor : ∀ below : List F32, newWidth υ.width below = (match s.width with | some w => some w | none => below.getLast?) := by
    intro below
    rw [hw]
    unfold newWidth
    cases s.width <;> rfl
  generalize hv : view s' = σ at hem
  cases hem with
  | path hop' hc hl => exact ⟨τ, υ, _, _, ht, hp, hc, hl.1, (congrArg State.width hv).trans (hor _)⟩
  | stem hop' hc hl => exact ⟨τ, υ, _, _, ht, hp, hc, hl.1, (congrArg State.width hv).trans (hor _)⟩
  | mask hop' hc _ =>
    exact ⟨τ, υ, _, υ.stack, ht, hp, hc.trans (List.append_assoc _ _ _), by simp, (congrArg State.width hv).trans (hor _)⟩

/-- **C40.**  A call that returns `None` sets the width, if there is none, only if
the program ends with `endchar` and operands are left, to the topmost of them. -/
theorem C40_width_end {cfg : Config} {s s' : Program} (hs : Sound s) (h : Next cfg s (.ok none) s') :
    ∃ τ, Turns cfg.checks (view s) τ ∧
      ((τ.code = [] ∧ s'.width = s.width) ∨
       ∃ υ rest, Pushes τ υ ∧ υ.code = bytes .opEndChar ++ rest ∧
        s'.width = (match s.width with | some w => some w | none => υ.stack.getLast?)) := by
  obtain ⟨⟨τ, ht, hem⟩, hs'⟩ := next_ends hs h
  refine ⟨τ, ht, ?_⟩
  rcases hem with ⟨hc, hv⟩ | ⟨υ, hp, hend⟩
  · left
    refine ⟨hc, ?_⟩
    have h1 : s'.width = τ.width := congrArg State.width hv
    rw [h1, (turns_eq ht).2.2.2]; rfl
  · right
    have hw : υ.width = s.width := by
      rw [(pushes_eq hp).2.2.2.2, (turns_eq ht).2.2.2]; rfl
    generalize hv : view s' = σ at hend
    cases hend with
    | endchar hc _ =>
      refine ⟨υ, _, hp, hc, (congrArg State.width hv).trans ?_⟩
      show newWidth υ.width υ.stack = _
      rw [hw]
      unfold newWidth
      cases s.width <;> rfl

theorem C40_width_new (code : List UInt8) (global «local» : List (List UInt8)) :
    (Program.new code global «local»).width = none := rfl

/-- The width of `50 10 20 rmoveto 1 2 3 rmoveto` stays 50. -/
example : ∃ s1 s2, Next release (Program.new [189, 149, 159, 21, 140, 141, 142, 21] [] [])
      (.ok (some (.opRMoveTo, [10, 20].map F32.ofInt))) s1 ∧
    Next release s1 (.ok (some (.opRMoveTo, [2, 3].map F32.ofInt))) s2 ∧
    s1.width = some (F32.ofInt 50) ∧ s2.width = some (F32.ofInt 50) :=
  ⟨after release (Program.new [189, 149, 159, 21, 140, 141, 142, 21] [] []),
   after release (after release (Program.new [189, 149, 159, 21, 140, 141, 142, 21] [] [])),
   ⟨100, by decide +kernel⟩, ⟨100, by decide +kernel⟩, by decide +kernel, by decide +kernel⟩

/-! ## C41 -/

/-- **C41** as stated: after the first operation the width is the extra operand,
or none. -/
def C41Statement : Prop :=
  ∀ (cfg : Config) (s s' : Program) (op : Operator) (xs args : List F32) (bs rest : List UInt8) (width : Option F32),
    Sound s → s.width = none → Seq Operand xs bs → left s.routine = bs ++ bytes op ++ rest →
    FirstOperands op width (s.stack ++ xs) → Next cfg s (.ok (some (op, args))) s' → s'.width = width

theorem two_operands : Seq Operand [F32.ofInt 1, F32.ofInt 2] [140, 141] := by
  have h1 : Operand (F32.ofInt 1) [140] := operand_iff.mpr (.inl ⟨1, .oneByte 140 (by decide) (by decide), rfl⟩)
  have h2 : Operand (F32.ofInt 2) [141] := operand_iff.mpr (.inl ⟨2, .oneByte 141 (by decide) (by decide), rfl⟩)
  exact Seq.cons h1 (Seq.cons h2 Seq.nil)

/-- **C41** is false: the glyph `1 2 hintmask` carries no width, its operands are a
vertical stem, but `width()` returns 2. -/
theorem C41_width_false : ¬ C41Statement := by
  intro h
  have h1 := h release (Program.new [140, 141, 19, 128] [] []) (after release (Program.new [140, 141, 19, 128] [] []))
    .opHintMask [F32.ofInt 1, F32.ofInt 2] [] [140, 141] [128] none
    (sound_new (by decide) (by decide) (by decide)) rfl
    two_operands
    rfl ⟨[F32.ofInt 1, F32.ofInt 2], rfl, .inr (.inr ⟨by decide, rfl⟩)⟩ ⟨100, by decide +kernel⟩
  exact absurd h1 (by decide +kernel)

/-- **C41**, in part: for a moveto or a stem operator, and for a mask without
implicit stems.  Missing: masks with implicit stems, for which it is false. -/
theorem C41_width_partial {cfg : Config} {s s' : Program} {op : Operator} {xs args : List F32} {bs rest : List UInt8}
    {width : Option F32} (hs : Sound s) (hw : s.width = none) (hx : Seq Operand xs bs)
    (hl : left s.routine = bs ++ bytes op ++ rest) (hf : FirstOperands op width (s.stack ++ xs))
    (hm : ¬ Mask op ∨ (s.stack ++ xs).length ≤ 1) (h : Next cfg s (.ok (some (op, args))) s') : s'.width = width := by
  have he := step_fetch (cfg := cfg) hx hl
  obtain ⟨args', hst, hop⟩ := hf
  have hlong : ∀ below a, (∀ n, Accepts op n → n % 2 = args'.length % 2) →
      Longest op (s.stack ++ xs) below a → Accepts op args'.length → below = width.toList := by
    intro below a hpar hlo hacc
    have h1 := hlo.2.2 args' ⟨width.toList, hst.symm⟩ hacc
    have h2 := hpar _ hlo.2.1
    have h3 := hlo.1
    rw [hst] at h3
    have h4 := congrArg List.length h3
    simp only [List.length_append] at h4
    have h5 : width.toList.length ≤ 1 := by cases width <;> simp
    exact (List.append_inj' h3 (by omega)).1.symm
  have hnew : ∀ below, below = width.toList → newWidth s.width below = width := by
    rintro _ rfl
    rw [hw]
    cases width <;> rfl
  rcases hop with ⟨hop, hacc⟩ | ⟨hop, hacc⟩ | ⟨hop, hacc⟩
  · have hpath : Path op := by
      simp only [List.mem_cons, List.not_mem_nil, or_false] at hop
      rcases hop with rfl | rfl | rfl <;> decide
    rcases dispatch_path hpath cfg (adv s xs (bs ++ bytes op).length) with ⟨b, a, h1, h2⟩ | ⟨h1, h2⟩
    · obtain ⟨_, rfl⟩ := (next_ret (he.trans h2)).mp h
      refine hnew b (hlong b a ?_ h1 hacc)
      intro n hn
      simp only [List.mem_cons, List.not_mem_nil, or_false] at hop
      rcases hop with rfl | rfl | rfl <;> simp only [Accepts] at hn hacc <;> omega
    · have := ((next_err (he.trans h2)).mp h).1
      simp at this
  · rcases dispatch_stem hop cfg (adv s xs (bs ++ bytes op).length) with ⟨b, a, h1, h2⟩ | ⟨h1, h2⟩
    · obtain ⟨_, rfl⟩ := (next_ret (he.trans h2)).mp h
      refine hnew b (hlong b a ?_ h1 hacc)
      intro n hn
      simp only [Stem, List.mem_cons, List.not_mem_nil, or_false] at hop
      rcases hop with rfl | rfl | rfl | rfl <;> simp only [Accepts] at hn hacc <;>
      · obtain ⟨k, _, rfl⟩ := hn
        obtain ⟨k', _, hk⟩ := hacc
        omega
    · have := ((next_err (he.trans h2)).mp h).1
      simp at this
  · have hm' : (s.stack ++ xs).length ≤ 1 := hm.resolve_left (fun h => h hop)
    have ha : args' = [] := by
      have := congrArg List.length hst
      simp only [List.length_append] at this hm'
      exact List.length_eq_zero_iff.mp (by omega)
    subst ha
    have hsound : Sound (adv s xs (bs ++ bytes op).length) := (fetched hs hx hl).1
    rcases dispatch_mask hop cfg _ hsound.routine (hsound.size _ (by simp)) with ⟨_, h2⟩ | ⟨_, ⟨s2, h2⟩, _⟩ | ⟨_, _, s2, h2⟩
    · obtain ⟨_, rfl⟩ := (next_ret (he.trans h2)).mp h
      refine hnew _ ?_
      simpa [adv] using hst
    · have := ((next_err (he.trans h2)).mp h).1
      simp at this
    · have := ((next_panic (he.trans h2)).mp h).1
      simp at this

/-- **C41**, in part: for a glyph that ends with `endchar` at once, with nothing or
the width in front of it.  Missing: `endchar` with the four operands of an accented
character, for which the last of them would be taken. -/
theorem C41_endchar_partial {cfg : Config} {s s' : Program} {xs : List F32} {bs rest : List UInt8} {width : Option F32}
    (hs : Sound s) (hw : s.width = none) (hx : Seq Operand xs bs) (hl : left s.routine = bs ++ bytes .opEndChar ++ rest)
    (hf : s.stack ++ xs = width.toList) (h : Next cfg s (.ok none) s') : s'.width = width := by
  have he := step_fetch (cfg := cfg) hx hl
  have hsound : Sound (adv s xs (bs ++ bytes .opEndChar).length) := (fetched hs hx hl).1
  rcases dispatch_end cfg (sound_pos hsound) with ⟨k, main, _, _, h2⟩ | ⟨_, s2, h2⟩
  · obtain ⟨_, rfl⟩ := (next_ret (he.trans h2)).mp h
    show newWidth s.width (s.stack ++ xs) = width
    rw [hw, hf]
    cases width <;> rfl
  · have := ((next_err (he.trans h2)).mp h).1
    simp at this

/-- **C41**, what happens to a first mask with operands of any number: none of them is shown
and the width is the last of them. -/
theorem C41_mask {cfg : Config} {s s' : Program} {op : Operator} {xs args : List F32} {bs rest : List UInt8}
    (hs : Sound s) (hw : s.width = none) (hop : Mask op) (hx : Seq Operand xs bs) (hl : left s.routine = bs ++ bytes op ++ rest)
    (h : Next cfg s (.ok (some (op, args))) s') : args = [] ∧ s'.width = (s.stack ++ xs).getLast? := by
  have he := step_fetch (cfg := cfg) hx hl
  have hsound : Sound (adv s xs (bs ++ bytes op).length) := (fetched hs hx hl).1
  rcases dispatch_mask hop cfg _ hsound.routine (hsound.size _ (by simp)) with ⟨_, h2⟩ | ⟨_, ⟨s2, h2⟩, _⟩ | ⟨_, _, s2, h2⟩
  · obtain ⟨h3, rfl⟩ := (next_ret (he.trans h2)).mp h
    refine ⟨?_, ?_⟩
    · simpa using h3
    · show newWidth s.width (s.stack ++ xs) = _
      rw [hw]
      rfl
  · have := ((next_err (he.trans h2)).mp h).1
    simp at this
  · have := ((next_panic (he.trans h2)).mp h).1
    simp at this

/-- **C41**, what happens at the end of a glyph that had no width: the last operand in front
of `endchar` is taken, also if there are the four operands of an accented character. -/
theorem C41_endchar {cfg : Config} {s s' : Program} {xs : List F32} {bs rest : List UInt8}
    (hs : Sound s) (hw : s.width = none) (hx : Seq Operand xs bs) (hl : left s.routine = bs ++ bytes .opEndChar ++ rest)
    (h : Next cfg s (.ok none) s') : s'.width = (s.stack ++ xs).getLast? := by
  have he := step_fetch (cfg := cfg) hx hl
  have hsound : Sound (adv s xs (bs ++ bytes .opEndChar).length) := (fetched hs hx hl).1
  rcases dispatch_end cfg (sound_pos hsound) with ⟨k, main, _, _, h2⟩ | ⟨_, s2, h2⟩
  · obtain ⟨_, rfl⟩ := (next_ret (he.trans h2)).mp h
    show newWidth s.width (s.stack ++ xs) = _
    rw [hw]
    rfl
  · have := ((next_err (he.trans h2)).mp h).1
    simp at this

/-- The glyph `1 2 hintmask` meets the hypotheses of `C41_mask`. -/
example : (after release (Program.new [140, 141, 19, 128] [] [])).width = some (F32.ofInt 2) :=
  (C41_mask (cfg := release) (s := Program.new [140, 141, 19, 128] [] []) (op := .opHintMask) (args := []) (rest := [128])
    (sound_new (by decide) (by decide) (by decide)) rfl (by decide) two_operands rfl ⟨100, by decide +kernel⟩).2

/-- The glyph `1 2 endchar` meets the hypotheses of `C41_endchar`. -/
example : (after release (Program.new [140, 141, 14] [] [])).width = some (F32.ofInt 2) :=
  C41_endchar (cfg := release) (s := Program.new [140, 141, 14] [] []) (rest := [])
    (sound_new (by decide) (by decide) (by decide)) rfl two_operands rfl ⟨100, by decide +kernel⟩

example : FirstOperands .opRMoveTo (some (F32.ofInt 50)) ([50, 10, 20].map F32.ofInt) :=
  ⟨[10, 20].map F32.ofInt, rfl, .inl ⟨by decide, rfl⟩⟩
example : FirstOperands .opHStem none ([10, 20].map F32.ofInt) :=
  ⟨[10, 20].map F32.ofInt, rfl, .inr (.inl ⟨by decide, 1, by decide, rfl⟩)⟩

/-! ## C42 -/

theorem emit_stems {υ σ : State} {o : Operation} (h : Emit υ o σ) :
    σ.stems = υ.stems + (if Stem o.1 ∨ Mask o.1 then υ.stack.length / 2 else 0) := by
  cases h with
  | @path op rest below args hop hc hl =>
    have : ¬ (Stem op ∨ Mask op) := by
      simp only [Path, List.mem_cons, List.not_mem_nil, or_false] at hop
      rcases hop with rfl | rfl | rfl | rfl | rfl | rfl | rfl | rfl | rfl | rfl | rfl | rfl | rfl | rfl | rfl | rfl | rfl <;> decide
    rw [if_neg this]; rfl
  | stem hop hc hl => rw [if_pos (.inl hop)]
  | mask hop hc hl => rw [if_pos (.inr hop)]

theorem trace_stems {c : Bool} {σ σ' : State} {l : List (Operation × Nat)} (h : Trace c σ l σ') :
    σ'.stems = σ.stems + pairs l := by
  induction h with
  | nil => rfl
  | cons ht hp he _ ih =>
    rw [ih, emit_stems he, (pushes_eq hp).2.2.2.1, (turns_eq ht).2.2.1, pairs, Nat.add_assoc]

theorem calls_trace {cfg : Config} {s s' : Program} {ops : List Operation} (h : Calls cfg s ops s') (hs : Sound s) :
    (∃ l, l.map Prod.fst = ops ∧ Trace cfg.checks (view s) l (view s')) ∧ Sound s' := by
  induction h with
  | nil s => exact ⟨⟨[], rfl, .nil _⟩, hs⟩
  | cons hn _ ih =>
    obtain ⟨⟨τ, υ, ht, hp, hem⟩, hs1⟩ := next_yields hs hn
    obtain ⟨⟨l, hl, htr⟩, hs2⟩ := ih hs1
    exact ⟨⟨_ :: l, by rw [List.map_cons, hl], .cons ht hp hem htr⟩, hs2⟩

/-- **C42.**  After any calls of `next` on a new program that returned operations,
the operators of which are traced by `l`, let a call return a hint mask.  Then the
bytes between the operator and what is left of the code are as many as needed for
one bit for each of the pairs of operands given to the hint operators so far,
including those of the mask itself. -/
theorem C42_mask_skipped {cfg : Config} {code : List UInt8} {global «local» : List (List UInt8)}
    (hs : Sound (Program.new code global «local»)) {ops : List Operation} {s s' : Program}
    (hc : Calls cfg (Program.new code global «local») ops s) {op : Operator} {args : List F32} (hop : Mask op)
    (h : Next cfg s (.ok (some (op, args))) s') :
    ∃ l τ υ mask, l.map Prod.fst = ops ∧ Trace cfg.checks (view (Program.new code global «local»)) l (view s) ∧
      Turns cfg.checks (view s) τ ∧ Pushes τ υ ∧ υ.code = bytes op ++ mask ++ left s'.routine ∧
      pairs l + υ.stack.length / 2 ≤ 8 * mask.length ∧ 8 * mask.length < pairs l + υ.stack.length / 2 + 8 := by
  obtain ⟨⟨l, hl, htr⟩, hss⟩ := calls_trace hc hs
  obtain ⟨⟨τ, υ, ht, hp, hem⟩, hs'⟩ := next_yields hss h
  have hst : υ.stems = pairs l := by
    rw [(pushes_eq hp).2.2.2.1, (turns_eq ht).2.2.1, trace_stems htr]
    simp [view, Program.new]
  generalize hv : view s' = σ at hem
  cases hem with
  | path hop' _ _ =>
    exfalso
    simp only [Mask, List.mem_cons, List.not_mem_nil, or_false] at hop
    rcases hop with rfl | rfl <;> exact absurd hop' (by decide)
  | stem hop' _ _ =>
    exfalso
    simp only [Mask, List.mem_cons, List.not_mem_nil, or_false] at hop
    rcases hop with rfl | rfl <;> exact absurd hop' (by decide)
  | @mask _ mask rest _ hcode hm =>
    refine ⟨l, τ, υ, mask, hl, htr, ht, hp, ?_, ?_, ?_⟩
    · rw [hcode, show left s'.routine = rest from congrArg State.code hv]
    · rw [hm, hst]; omega
    · rw [hm, hst]; omega

/-- **C42.**  What the bytes of a mask are does not matter: with other bytes in
their place `next` returns the same and leaves the same behind. -/
theorem C42_mask_ignored {cfg : Config} {s t : Program} (hs : Sound s) (ht : Sound t) {xs : List F32}
    {bs m1 m2 rest : List UInt8} {op : Operator} (hop : Mask op) (hx : Seq Operand xs bs)
    (h1 : left s.routine = bs ++ bytes op ++ m1 ++ rest) (h2 : left t.routine = bs ++ bytes op ++ m2 ++ rest)
    (heq : view t = { view s with code := left t.routine })
    (hm1 : m1.length = (s.stems + (s.stack ++ xs).length / 2 + 7) / 8) (hm2 : m2.length = m1.length) :
    ∃ s' t', Next cfg s (.ok (some (op, []))) s' ∧ Next cfg t (.ok (some (op, []))) t' ∧
      view s' = view t' ∧ left s'.routine = rest := by
  have y1 : Yields cfg.checks (view s) (op, []) _ :=
    ⟨_, { view s with code := bytes op ++ m1 ++ rest, stack := s.stack ++ xs }, .refl,
      pushes_iff.mpr ⟨xs, bs, hx, by simp [view, h1], rfl⟩, .mask hop rfl hm1⟩
  have e1 : t.stems = s.stems := congrArg State.stems heq
  have e2 : t.stack = s.stack := congrArg State.stack heq
  have y2 : Yields cfg.checks (view t) (op, []) _ :=
    ⟨_, { view t with code := bytes op ++ m2 ++ rest, stack := t.stack ++ xs }, .refl,
      pushes_iff.mpr ⟨xs, bs, hx, by simp [view, h2], rfl⟩, .mask hop rfl (by rw [hm2, hm1, ← e1, ← e2]; rfl)⟩
  obtain ⟨s', n1, v1, _⟩ := yields_next hs y1
  obtain ⟨t', n2, v2, _⟩ := yields_next ht y2
  refine ⟨s', t', n1, n2, ?_, ?_⟩
  · rw [v1, v2, heq, e2]
  · exact congrArg State.code v1

/-- `1 2 hstemhm 3 4 hintmask <80> 0 hmoveto`: two stems, a mask of one byte that
would be an operand. -/
example : ∃ s1 s2, Calls release (Program.new [140, 141, 18, 142, 143, 19, 128, 139, 22] [] [])
    [(.opHStemHM, [1, 2].map F32.ofInt)] s1 ∧ Next release s1 (.ok (some (.opHintMask, []))) s2 ∧ left s2.routine = [139, 22] :=
  ⟨after release (Program.new [140, 141, 18, 142, 143, 19, 128, 139, 22] [] []),
   after release (after release (Program.new [140, 141, 18, 142, 143, 19, 128, 139, 22] [] [])),
   .cons ⟨100, by decide +kernel⟩ (.nil _), ⟨100, by decide +kernel⟩, by decide +kernel⟩

end PS.Type2
