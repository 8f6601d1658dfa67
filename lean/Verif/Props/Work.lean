import Verif.Lemmas.Work
import Verif.Props.Words
/-!
# Properties: the work of executing programs
-/
namespace PS.Type2
open PS.Spec hiding Operand Operation
open PS.Type2.Spec

/-! ## C86 -/

/-- **C86**, the full statement: executing a program without subroutines takes at most a hundred
steps for each byte of it, and another hundred. -/
def C86Statement : Prop := ∀ {cfg : Config} {code : List UInt8} {l : List Observation} {out : Outcome} {w : Effort},
  code.length < 2 ^ 63 → Spends cfg (Program.new code [] []) l out w → w.total ≤ 100 * (code.length + 1)

/-- **C86.**  Counting does not change what programs do, and there is one count. -/
theorem C86_same {cfg : Config} {s : Program} :
    (∀ r t, (∃ w, Timed.Next cfg s r t w) ↔ Next cfg s r t) ∧
    (∀ l out, (∃ w, Spends cfg s l out w) ↔ Run cfg s l out) ∧
    (∀ {r t w r' t' w'}, Timed.Next cfg s r t w → Timed.Next cfg s r' t' w' → w = w') ∧
    (∀ {l out w l' out' w'}, Spends cfg s l out w → Spends cfg s l' out' w' → w = w') :=
  ⟨fun _ _ => Timed.next_iff, fun _ _ => spends_run, fun h h' => (Timed.next_unique h h').2.2, spends_unique⟩

/-- **C86.**  An operator that does not yield an operation takes one activation, one iteration
for each operand read, and the moves of a roll: `n` operands rolled by `j` take `n |j|`. -/
theorem C86_turn {cfg : Config} {s : Program} (hs : Sound s) {υ σ : State} (hp : Pushes (view s) υ) {op : Operator} {rest : List UInt8}
    (hc : υ.code = bytes op ++ rest) (hq : Quiet cfg.checks υ σ) {m : Nat} (hm : Moves op υ.stack m) :
    ∃ s1, Sound s1 ∧ view s1 = σ ∧ ∀ r t w, Timed.Next cfg s r t w ↔
      ∃ w', Timed.Next cfg s1 r t w' ∧ w = ⟨1 + (υ.stack.length - s.stack.length), m⟩ + w' := by
  obtain ⟨s1, h1, h2, h3⟩ := step_of_turn cfg hs ⟨υ, hp, hq⟩
  refine ⟨s1, h3, h2, fun r t w => ?_⟩
  have h4 := Timed.step_exact hs h1 hp hc hm
  have h5 : Timed.step cfg s = ((.ok .again, s1), ⟨1 + (υ.stack.length - s.stack.length), m⟩) := by
    rw [← h4, ← h1, ← Timed.erases_step cfg s]
  constructor
  · rintro ⟨n | n, h⟩
    · simp [Timed.nextFuel] at h
    · rw [Timed.nextFuel, h5] at h
      obtain ⟨⟨q, w'⟩, h6, h7⟩ := Option.map_eq_some_iff.mp h
      simp only [Prod.mk.injEq] at h7
      obtain ⟨rfl, rfl⟩ := h7
      exact ⟨w', ⟨n, h6⟩, rfl⟩
  · rintro ⟨w', ⟨n, h⟩, rfl⟩
    refine ⟨n + 1, ?_⟩
    rw [Timed.nextFuel, h5]
    simp only
    rw [h]
    rfl

/-- **C86.**  The end of a program takes one activation, one iteration for each operand read, and
one for each subroutine being executed. -/
theorem C86_ends {cfg : Config} {s : Program} (hs : Sound s) {υ σ : State} (hp : Pushes (view s) υ) (he : End υ σ) :
    ∃ s1, view s1 = σ ∧ ∀ r t w, Timed.Next cfg s r t w ↔
      r = .ok none ∧ t = s1 ∧ w = ⟨1 + (υ.stack.length - s.stack.length) + υ.callers.length, 0⟩ := by
  obtain ⟨s1, h1, h2, h3⟩ := step_of_end cfg hs hp he
  obtain ⟨rest, hc⟩ := end_code he
  have h5 : Timed.step cfg s = ((.ok (.ret none), s1), ⟨1 + (υ.stack.length - s.stack.length) + υ.callers.length, 0⟩) := by
    rw [← Timed.step_end hs h1 hp hc, ← h1, ← Timed.erases_step cfg s]
  refine ⟨s1, h2, fun r t w => ⟨?_, ?_⟩⟩
  · rintro ⟨n | n, h⟩
    · simp [Timed.nextFuel] at h
    · rw [Timed.nextFuel, h5] at h
      simp only [Option.some.injEq, Prod.mk.injEq] at h
      obtain ⟨⟨rfl, rfl⟩, rfl⟩ := h
      exact ⟨rfl, rfl, rfl⟩
  · rintro ⟨rfl, rfl, rfl⟩
    exact ⟨1, by rw [Timed.nextFuel, h5]⟩

/-- The case of a subroutine that ends the program, called where nothing follows. -/
example (cfg : Config) : ∃ s : Program, Sound s ∧ ∃ σ, Pushes (view s) (view s) ∧ End (view s) σ ∧ (view s).callers.length = 1 ∧
    ∃ r t, Timed.Next cfg s r t ⟨2, 0⟩ := by
  have hs : Sound { Program.new [] [] [] with routine := ⟨[14], 0⟩, callers := [⟨[32, 10], 2⟩] } :=
    ⟨by decide, by decide, by decide, by decide, by decide, by simp [Program.new]⟩
  have he := End.endchar (σ := view { Program.new [] [] [] with routine := ⟨[14], 0⟩, callers := [⟨[32, 10], 2⟩] })
    (rest := []) (main := []) (k := 1) rfl rfl
  obtain ⟨s1, -, h⟩ := C86_ends (cfg := cfg) hs .refl he
  exact ⟨_, hs, _, .refl, he, rfl, _, _, (h _ _ _).mpr ⟨rfl, rfl, rfl⟩⟩

theorem quiet_moves {c : Bool} {υ σ : State} (h : Quiet c υ σ) : ∃ op rest m, υ.code = bytes op ++ rest ∧ Moves op υ.stack m := by
  cases h with
  | @stack op rest st hc hs =>
    generalize υ.stack = st0 at hs
    by_cases hop : op = .opRoll
    · subst hop
      cases hs with
      | @roll st as bs x y n j hx hy hn hj hr =>
        by_cases h31 : j = -2 ^ 31
        · subst h31
          exact ⟨_, _, _, hc, .rollLeast st as hx hy hn⟩
        · exact ⟨_, _, _, hc, .roll st as hx hy hn h31⟩
      | rollLeast st as x y _ hx hy hn => exact ⟨_, _, _, hc, .rollLeast st as hx hy hn⟩
    · exact ⟨_, _, _, hc, .other _ hop⟩
  | callLocal hc => exact ⟨_, _, _, hc, .other _ (by decide)⟩
  | callGlobal hc => exact ⟨_, _, _, hc, .other _ (by decide)⟩
  | «return» hc => exact ⟨_, _, _, hc, .other _ (by decide)⟩

/-- **C86.**  A call of `next` that comes to roll `n` operands by `j` moves `n |j|` operands at
least. -/
theorem C86_roll {cfg : Config} {s : Program} (hs : Sound s) {τ υ σ : State} (ht : Turns cfg.checks (view s) τ) (hp : Pushes τ υ)
    {rest : List UInt8} (hc : υ.code = bytes .opRoll ++ rest) (hq : Quiet cfg.checks υ σ) {m : Nat} (hm : Moves .opRoll υ.stack m)
    {r : Res (Option Operation)} {t : Program} {w : Effort} (h : Timed.Next cfg s r t w) : m ≤ w.moves := by
  generalize hv : view s = σ0 at ht
  induction ht using Relation.ReflTransGen.head_induction_on generalizing s w with
  | refl =>
    subst hv
    obtain ⟨s1, -, -, h1⟩ := C86_turn hs hp hc hq hm
    obtain ⟨w', -, rfl⟩ := (h1 _ _ _).mp h
    exact Nat.le_add_right _ _
  | head ht _ ih =>
    subst hv
    obtain ⟨υ', hp', hq'⟩ := ht
    obtain ⟨op, rest', m', hc', hm'⟩ := quiet_moves hq'
    obtain ⟨s1, hs1, hv1, h1⟩ := C86_turn hs hp' hc' hq' hm'
    obtain ⟨w', h2, rfl⟩ := (h1 _ _ _).mp h
    exact Nat.le_trans (ih hs1 h2 hv1) (Nat.le_add_left _ _)

theorem rest_new (L D : Nat) (code : List UInt8) (global «local» : List (List UInt8)) :
    Timed.rest L D (Program.new code global «local») = code.length * (L + 1) ^ D := by
  simp [Timed.rest, Program.new, left, Routine.new, weight]

/-- **C86.**  With calls nested `D` deep at most and subroutines of `L` bytes at most, executing a
program takes at most `7 |code| (L + 1)^D + D + 7` activations and iterations other than those of
rolls, and at least one for each operation and each operand shown. -/
theorem C86_loops {cfg : Config} {code : List UInt8} {global «local» : List (List UInt8)} {L D : Nat}
    (hs : Sound (Program.new code global «local»)) (hL : ∀ b ∈ global ++ «local», b.length ≤ L)
    (hD : ∀ l τ, Executes cfg.checks (view (Program.new code global «local»)) l τ → τ.callers.length ≤ D)
    {l : List Observation} {out : Outcome} {w : Effort} (h : Spends cfg (Program.new code global «local») l out w) :
    output l + 1 ≤ w.loops ∧ w.loops ≤ 7 * (code.length * (L + 1) ^ D) + D + 7 := by
  have h1 := (spends_within h hs hL hD (Nat.le_refl _)).1
  rw [rest_new] at h1
  have e : (Program.new code global «local»).stack.length = 0 := rfl
  exact ⟨spends_least h hs, by omega⟩

/-- **C86.**  The rolls of a program move at most `2^31 N (N + 1)` operands, with `N` being
`|code| (L + 1)^D`, and none if there is no roll operator in the code and the subroutines. -/
theorem C86_moves {cfg : Config} {code : List UInt8} {global «local» : List (List UInt8)}
    (hs : Sound (Program.new code global «local»)) {l : List Observation} {out : Outcome} {w : Effort}
    (h : Spends cfg (Program.new code global «local») l out w) :
    (∀ {L D : Nat}, (∀ b ∈ global ++ «local», b.length ≤ L) →
      (∀ l τ, Executes cfg.checks (view (Program.new code global «local»)) l τ → τ.callers.length ≤ D) →
      w.moves ≤ 2 ^ 31 * (code.length * (L + 1) ^ D) * (code.length * (L + 1) ^ D + 1)) ∧
    ((∀ b ∈ code :: (global ++ «local»), ¬ bytes .opRoll <:+: b) → w.moves = 0) := by
  refine ⟨fun {L D} hL hD => ?_, fun hr => spends_still h hs ?_⟩
  · have h1 := (spends_within h hs hL hD (Nat.le_refl _)).2
    have e : (Program.new code global «local»).stack.length = 0 := rfl
    rw [rest_new, e, Nat.zero_add] at h1
    exact h1
  · intro b hb
    refine hr b ?_
    simpa [view, Program.new, left, Routine.new] using hb

/-- **C86**, what holds instead: a program without subroutines and rolls takes at most seven steps
for each byte of it, and another seven.  What is missing: `roll` does not reduce the shift
modulo the number of operands. -/
theorem C86_plain_partial {cfg : Config} {code : List UInt8} (hc : code.length < 2 ^ 63) (hr : ¬ bytes .opRoll <:+: code)
    {l : List Observation} {out : Outcome} {w : Effort} (h : Spends cfg (Program.new code [] []) l out w) :
    w.total ≤ 7 * (code.length + 1) := by
  have hs : Sound (Program.new code [] []) := sound_new hc (by simp) (by simp)
  have h1 := (C86_loops (L := 0) (D := 0) hs (by simp) (fun l τ h => by rw [executes_flat h]; simp) h).2
  have h2 := (C86_moves hs h).2 (by simpa using hr)
  unfold Effort.total
  rw [h2]
  simp at h1
  omega

/-- **C86.**  Executing a glyph of a font set whose subroutines are in layers takes work cubic in
the size of the font set, rolls aside. -/
theorem C86_glyph (cfg : Config) (data : List UInt8) (hdata : data.length < 2 ^ 61) (base q : Nat) (fs : FontSet)
    (h : FontSet.read (tape cfg data) base = (.ok fs, q)) (k : Nat) (cs : Index) (r : Record) («local» : Index)
    (code : List UInt8) (hcs : fs.characterStrings[k]? = some cs) (hr : fs.records[k]? = some r) (hl : LocalOf r «local»)
    (hcode : code ∈ cs.data) (hlayers : Layered fs.subroutines.data «local».data) {l : List Observation} {out : Outcome} {w : Effort}
    (hrun : Spends cfg (Program.new code fs.subroutines.data «local».data) l out w) :
    w.loops ≤ 7 * (data.length * (data.length + 1) ^ 2) + 9 := by
  have hlaid := (C32_layout_iff cfg data hdata base fs).mp ⟨q, h⟩
  obtain ⟨g1, g2, g3⟩ := program_sound cfg data hdata base fs hlaid k cs r hcs hr code hcode «local» hl
  have small := program_small cfg data base fs hlaid k cs r hcs hr code hcode «local» hl
  have := (C86_loops (sound_new g1 g2 g3) small.2.1 (fun _ _ hx => depth_of_layers hlayers hx) hrun).2
  have := Nat.mul_le_mul_right ((data.length + 1) ^ 2) small.1
  omega

/-- A font set whose subroutines are in layers. -/
example : ∃ fs q cs r, FontSet.read (tape checkedBuild (codeDef [[14], [32, 10, 14]] [[149, 22, 11]] [[32, 29, 11]]).write) 0 =
    (.ok fs, q) ∧ fs.characterStrings[0]? = some cs ∧ fs.records[0]? = some (.characterNameKeyed r) ∧ [32, 10, 14] ∈ cs.data ∧
    Layered fs.subroutines.data r.subroutines.data := by
  obtain ⟨fs, q, cs, r, h1, h2, h3, h4, h5, h6⟩ := codeDef_read (codes := [[14], [32, 10, 14]]) (global := [[149, 22, 11]])
    («local» := [[32, 29, 11]]) ⟨by decide, by decide, by decide, by decide⟩ ⟨by decide, by decide, by decide, by decide⟩
    ⟨by decide, by decide, by decide, by decide⟩ (by decide +kernel)
  refine ⟨fs, q, cs, r, h1, h2, h3, by rw [h4]; simp, ?_⟩
  rw [h5, h6]
  exact ⟨by decide, by decide, .inr (by decide)⟩

instance : DecidableEq (Res (Option Operation) × Program) := instDecidableEqProd

instance : DecidableEq ((Res (Option Operation) × Program) × Effort) := instDecidableEqProd

/-- `10 20 30 3 1 roll hlineto endchar`: two activations, five operands read, six rules and three
operands collected; and three operands moved once. -/
example : ∃ t, Timed.Next release (Program.new [149, 159, 169, 142, 140, 12, 30, 6, 14] [] [])
    (.ok (some (.opHLineTo, [30, 10, 20].map F32.ofInt))) t ⟨16, 3⟩ :=
  ⟨after release (Program.new [149, 159, 169, 142, 140, 12, 30, 6, 14] [] []), 100, by decide +kernel⟩

/-- A call: three activations, one operand read here and two there, a rule for each of the two
operands, and both of them collected. -/
example : ∃ t, Timed.Next release (Program.new [32, 10, 14] [] [[149, 159, 21, 11]])
    (.ok (some (.opRMoveTo, [10, 20].map F32.ofInt))) t ⟨9, 0⟩ :=
  ⟨after release (Program.new [32, 10, 14] [] [[149, 159, 21, 11]]), 100, by decide +kernel⟩

/-- The subroutine does not call, hence the bounds. -/
example (cfg : Config) {l : List Observation} {out : Outcome} {w : Effort}
    (h : Spends cfg (Program.new [32, 10, 14] [] [[149, 159, 21, 11]]) l out w) : w.loops ≤ 7 * (3 * (4 + 1) ^ 2) + 2 + 7 :=
  (C86_loops (sound_new (by decide) (by decide) (by decide)) (by decide)
    (fun _ _ hx => depth_of_layers ⟨by decide, by decide, .inl (by decide)⟩ hx) h).2

/-- Programs without subroutines come to an end, and take work. -/
example (cfg : Config) : ∃ w, Spends cfg (Program.new [139, 139, 1, 14] [] []) [((.opHStem, [F32.ofInt 0, F32.ofInt 0]), none, 1)] (.ended none) w ∧
    w.total ≤ 35 := by
  have hs : Sound (Program.new [139, 139, 1, 14] [] []) := sound_new (by decide) (by simp) (by simp)
  obtain ⟨w, h⟩ := spends_run.mpr (run_endchar (cfg := cfg) hs (.cons .refl zeros_push hstem_emit (.nil .refl)) .refl rfl rfl)
  exact ⟨w, h, C86_plain_partial (by decide) (by decide) h⟩

/-! ### A program that takes long -/

/-- What there is after `0 1 32767 32767 mul 2 mul`. -/
theorem rolling_turns : ∃ t, Turns release.checks (view (Program.new rolling [] [])) (view t) ∧ (view t).code = [12, 30, 14] ∧
    (view t).callers = [] ∧ (view t).stack = [] ++ [F32.ofInt 0] ++ [F32.ofInt 1, F32.ofInt 2147352576] := by
  have hs : Sound (Program.new rolling [] []) := sound_new (by decide) (by simp) (by simp)
  have h1 : Type2.step release (Program.new rolling [] []) = (.ok .again, (Type2.step release (Program.new rolling [] [])).2) := by
    decide +kernel
  obtain ⟨t1, hs1⟩ := step_again_turn hs h1
  have h2 : Type2.step release (Type2.step release (Program.new rolling [] [])).2 =
      (.ok .again, (Type2.step release (Type2.step release (Program.new rolling [] [])).2).2) := by decide +kernel
  obtain ⟨t2, -⟩ := step_again_turn hs1 h2
  exact ⟨_, .tail (.single t1) t2, by decide +kernel, by decide +kernel, by decide +kernel⟩

theorem one_arg : IntArg (F32.ofInt 1) 1 := isInt_arg (isInt_of (by decide +kernel) (by decide +kernel) (by decide)) (by decide) (by decide)

theorem many_arg : IntArg (F32.ofInt 2147352576) 2147352576 :=
  isInt_arg (isInt_of (by decide +kernel) (by decide +kernel) (by decide)) (by decide) (by decide)

/-- **C86.**  A program of 16 bytes moves more than two billion operands, and shows nothing. -/
theorem C86_rolling : rolling.length = 16 ∧ ∃ out w, Spends release (Program.new rolling [] []) [] out w ∧ 2147352576 ≤ w.moves := by
  refine ⟨rfl, ?_⟩
  have hs : Sound (Program.new rolling [] []) := sound_new (by decide) (by simp) (by simp)
  obtain ⟨t, ht, e1, e2, e5⟩ := rolling_turns
  generalize view t = τ at ht e1 e2 e5
  have h1 := many_arg
  obtain ⟨j, hj⟩ : ∃ j : Int, j = 2147352576 := ⟨_, rfl⟩
  rw [← hj] at e5 h1
  generalize F32.ofInt j = x at e5 h1
  obtain ⟨bs, hb, -⟩ := (C44_rolled j [F32.ofInt 0]).1
  have hq : Quiet release.checks τ { τ with code := [14], stack := [] ++ bs } := by
    refine .stack (op := .opRoll) (rest := [14]) e1 ?_
    rw [e5]
    exact .roll [] [F32.ofInt 0] bs _ _ one_arg h1 rfl (.inl (by omega)) hb
  obtain ⟨out, hrun⟩ : ∃ out, Run release (Program.new rolling [] []) [] out :=
    ⟨_, run_endchar hs (.nil (.tail ht ⟨_, .refl, hq⟩)) .refl rfl e2⟩
  obtain ⟨w, hw⟩ := spends_run.mpr hrun
  refine ⟨out, w, hw, ?_⟩
  have hm : Moves .opRoll τ.stack (1 * j.natAbs) := by
    rw [e5]
    exact .roll [] [F32.ofInt 0] one_arg h1 rfl (by omega)
  have key : ∀ {r t}, Timed.Next release (Program.new rolling [] []) r t w → 2147352576 ≤ w.moves := fun h => by
    have := C86_roll hs ht .refl (rest := [14]) e1 hq hm h
    omega
  cases hw with
  | ended h => exact key h
  | failed h _ => exact key h

/-- **C86** as stated is false. -/
theorem C86_false : ¬ C86Statement := by
  intro h
  obtain ⟨h1, out, w, h2, h3⟩ := C86_rolling
  have h4 := h (by rw [h1]; decide) h2
  rw [h1] at h4
  unfold Effort.total at h4
  omega

end PS.Type2
