import Verif.Spec.Frame
import Verif.Props.Exchange
/-!
# Property C67: computations do not depend on what is below their operands
-/
namespace PS.Type2
open PS.Spec hiding Operand Operation
open PS.Type2.Spec

/-- The same state with more operands below, and with other hints. -/
def raised (below : List F32) (stems : Nat) (width : Option F32) (σ : State) : State :=
  { σ with stack := below ++ σ.stack, stems, width }

theorem frame_stackOp {c : Bool} {op : Operator} {st st' : List F32} (b : List F32) (h : StackOp c op st st') :
    StackOp c op (b ++ st) (b ++ st') := by
  cases h <;> simp only [← List.append_assoc]
  case abs st x => exact .abs _ _
  case neg => exact .neg _ _
  case sqrt h => exact .sqrt _ h
  case add h => exact .add _ h
  case sub h => exact .sub _ h
  case mul h => exact .mul _ h
  case div h => exact .div _ h
  case drop => exact .drop _ _
  case exch => exact .exch _ _ _
  case dup => exact .dup _ _
  case index h1 h2 => exact .index _ _ _ _ h1 h2
  case indexNegative h1 h2 => exact .indexNegative _ _ _ h1 h2
  case roll h1 h2 h3 h4 h5 => exact .roll _ _ _ _ _ h1 h2 h3 h4 h5
  case rollLeast h1 h2 h3 h4 => exact .rollLeast _ _ _ _ h1 h2 h3 h4
  case and => exact .and _ _ _
  case or => exact .or _ _ _
  case not => exact .not _ _
  case eq => exact .eq _ _ _
  case ifElse => exact .ifElse _ _ _ _ _

theorem frame_quiet {c : Bool} {σ τ : State} (b : List F32) (n : Nat) (w : Option F32) (h : Quiet c σ τ) :
    Quiet c (raised b n w σ) (raised b n w τ) := by
  cases h with
  | stack h1 h2 => exact .stack (σ := raised b n w σ) h1 (frame_stackOp b h2)
  | @callLocal _ st x _ _ _ h1 h2 h3 h4 h5 =>
    refine .callLocal (σ := raised b n w σ) (st := b ++ st) (x := x) h1 ?_ h3 h4 h5
    simp [raised, h2]
  | @callGlobal _ st x _ _ _ h1 h2 h3 h4 h5 =>
    refine .callGlobal (σ := raised b n w σ) (st := b ++ st) (x := x) h1 ?_ h3 h4 h5
    simp [raised, h2]
  | «return» h1 h2 => exact .return (σ := raised b n w σ) h1 h2

theorem frame_pushes {σ τ : State} (b : List F32) (n : Nat) (w : Option F32) (h : Pushes σ τ) :
    Pushes (raised b n w σ) (raised b n w τ) := by
  refine h.lift _ ?_
  rintro σ _ ⟨x, bs, rest, h1, h2, rfl⟩
  exact ⟨x, bs, rest, h1, h2, by simp [raised]⟩

theorem frame_turns {c : Bool} {σ τ : State} (b : List F32) (n : Nat) (w : Option F32) (h : Turns c σ τ) :
    Turns c (raised b n w σ) (raised b n w τ) := by
  refine h.lift _ ?_
  rintro σ τ ⟨υ, h1, h2⟩
  exact ⟨_, frame_pushes b n w h1, frame_quiet b n w h2⟩

/-- **C67.**  Code that only computes, from the operands `xs` the operands `ys`, does so
wherever it is executed: whatever operands are below, whatever hints and width there
are, they remain. -/
theorem C67_frame {c : Bool} {f : List UInt8} {xs ys : List F32} {σ : State}
    (h : Computes c σ.global σ.local f xs ys) (hc : σ.callers = []) {below : List F32} (hs : σ.stack = below ++ xs) :
    Consumes c { σ with code := f } [] { σ with code := [], stack := below ++ ys } True := by
  obtain ⟨-, -, υ, h1, h2, h3⟩ := h
  cases h1 with
  | nil h1 =>
    have e1 := frame_turns below σ.stems σ.width h1
    have e2 := frame_pushes below σ.stems σ.width h2
    refine ⟨rfl, hc, raised below σ.stems σ.width υ, .nil ?_, ?_, .inr trivial⟩
    · convert e1 using 1
      cases σ
      simp_all [raised]
    · convert e2 using 1
      cases σ
      simp_all [raised]

/-- **C67.**  Constants can be computed beforehand: a piece of code that computes `ys` from
nothing can be exchanged for the operands `ys` in any program at any point, without a
visible difference. -/
theorem C67_constant {cfg : Config} {s t : Program} (hs : Sound s) (ht : Sound t) {a f b r : List UInt8} {ys : List F32}
    {l : List Observation} {σ : State} (hl : left s.routine = a ++ (f ++ r))
    (hv : view t = { view s with code := a ++ (b ++ r) })
    (h1 : Consumes cfg.checks { view s with code := a, callers := [] } l σ (r ≠ []))
    (hf : Computes cfg.checks s.global s.local f [] ys) (hb : Seq Operand ys b) (hr : r ≠ [])
    (x : List Observation) (out : Outcome) : Run cfg s x out ↔ Run cfg t x out := by
  obtain ⟨g1, g2⟩ : σ.global = s.global ∧ σ.local = s.local := by
    have := consumes_eq h1
    simp_all [view]
  refine C65_exchange hs ht hl hv (consumes_mono h1 fun _ => by simp [hr]) (l' := [])
    (consumes_mono (C67_frame (σ := σ) (by rw [g1, g2]; exact hf) h1.2.1 (below := σ.stack) (by simp)) fun _ => hr) ?_ x out
  exact consumes_operands h1.2.1 hb (.inr hr)

/-- `-107 callsubr`, where the subroutine is `3 4 add return`, computes 7. -/
theorem computes_sample : Computes true [] [[142, 143, 12, 10, 11]] [32, 10] [] [F32.ofInt 7] := by
  let inside (code : List UInt8) (callers : List (List UInt8)) (stack : List F32) : State :=
    { code, callers, global := [], «local» := [[142, 143, 12, 10, 11]], stack, stems := 0, width := none }
  have h1 : Turn true (inside [32, 10] [] []) (inside [142, 143, 12, 10, 11] [[]] []) := by
    refine ⟨inside [10] [] [F32.ofInt (-107)],
      .single ⟨_, [32], [10], operand_byte 32 (by decide) (by decide), rfl, by simp only [inside, List.nil_append]; congr 1⟩, ?_⟩
    exact .callLocal (σ := inside [10] [] [F32.ofInt (-107)]) (st := []) (rest := []) (x := F32.ofInt (-107))
      (a := -107) (i := 0) rfl rfl
      (.inl ⟨⟨true, 14024704, 132, by decide +kernel, by norm_num [val]⟩, by decide, by decide⟩) rfl rfl
  have h2 : Turn true (inside [142, 143, 12, 10, 11] [[]] []) (inside [11] [[]] [F32.ofInt 7]) := by
    refine ⟨inside [12, 10, 11] [[]] [F32.ofInt 3, F32.ofInt 4], pushes_iff.mpr ⟨[F32.ofInt 3, F32.ofInt 4], [142, 143], ?_, rfl, rfl⟩, ?_⟩
    · exact .cons (operand_byte 142 (by decide) (by decide)) (.cons (operand_byte 143 (by decide) (by decide)) .nil)
    · exact .stack (σ := inside [12, 10, 11] [[]] [F32.ofInt 3, F32.ofInt 4]) (op := .opAdd) rfl
        (.add [] (sum_iff.mpr (by decide +kernel)))
  have h3 : Turn true (inside [11] [[]] [F32.ofInt 7]) (inside [] [] [F32.ofInt 7]) :=
    ⟨_, .refl, .return (σ := inside [11] [[]] [F32.ofInt 7]) rfl rfl⟩
  exact ⟨rfl, rfl, _, .nil (.head h1 (.head h2 (.single h3))), .refl, .inl rfl⟩

/-- Behind `10`, where it is executed with an operand below: `10 (-107 callsubr) rmoveto endchar`
and `10 7 rmoveto endchar`. -/
example (x : List Observation) (out : Outcome) :
    Run checked (Program.new [149, 32, 10, 21, 14] [] [[142, 143, 12, 10, 11]]) x out ↔
    Run checked (Program.new [149, 146, 21, 14] [] [[142, 143, 12, 10, 11]]) x out := by
  refine C67_constant (a := [149]) (f := [32, 10]) (b := [146]) (r := [21, 14]) (ys := [F32.ofInt 7]) (l := [])
    (σ := ⟨[], [], [], [[142, 143, 12, 10, 11]], [F32.ofInt 10], 0, none⟩) ?_ ?_ rfl rfl ?_ computes_sample ?_ (by decide) x out
  · exact sound_new (by decide) (by decide) (by decide)
  · exact sound_new (by decide) (by decide) (by decide)
  · refine ⟨rfl, rfl, _, .nil .refl, .single ⟨F32.ofInt 10, [149], [], operand_byte 149 (by decide) (by decide), rfl, rfl⟩,
      .inr (by decide)⟩
  · exact .cons (bs := []) (operand_byte 146 (by decide) (by decide)) .nil

end PS.Type2
