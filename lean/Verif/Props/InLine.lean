import Verif.Props.Glyph
import Verif.Props.Fault
/-!
# Property C46: calls in line, wherever they are
-/
namespace PS.Type2
open PS.Spec hiding Operand Operation
open PS.Type2.Spec

/-- The case left open by `C46_inline_partial`: the body ends with operands, and nothing
follows the call. -/
theorem inline_last {cfg : Config} {s t : Program} (hs : Sound s) (ht : Sound t) {a enc b tail : List UInt8} {op : Operator}
    {subs : List (List UInt8)} {x : F32} {n : Int} {i : Nat} {σ τ υ : State} {l1 l2 : List Observation}
    (hsc : left s.routine = a ++ (enc ++ bytes op ++ [])) (hx : Operand x enc) (hn : IsInt x n)
    (hop : subroutinesOf op s = some subs) (hi : n + callBias subs.length = i)
    (hb : subs[i]? = some (b ++ (bytes .opReturn ++ tail))) (htv : view t = { view s with code := a ++ (b ++ []) })
    (h1 : Consumes cfg.checks { view s with code := a, callers := [] } l1 σ (b ++ [] ≠ []))
    (hτ : τ.code = []) (hτ' : τ.callers = []) (h2 : Executes cfg.checks { σ with code := b } l2 υ) (h3 : Pushes υ τ)
    (hne : υ ≠ τ) : Run cfg s (l1 ++ l2) (.ended τ.width) ∧ Run cfg t (l1 ++ l2) .failed := by
  have hne' : bytes op ≠ [] := bytes_ne_nil op
  have hσ := consumes_eq h1
  obtain ⟨s1, g1, v1, _, r1⟩ := run_consumes hs (consumes_mono h1 (fun _ => by simp [hne'])) hsc
  have hop1 : subroutinesOf op s1 = some subs := by
    have e1 : s1.global = s.global := (congrArg State.global v1).trans hσ.1
    have e2 : s1.local = s.local := (congrArg State.local v1).trans hσ.2
    cases op <;> first | (cases hop; done) | skip
    · rw [← hop]; simp only [subroutinesOf, e2]
    · rw [← hop]; simp only [subroutinesOf, e1]
  have hah : Ahead s1 [x] op [] := by
    refine ⟨enc, ?_, congrArg State.code v1⟩
    have := Seq.cons hx (Seq.nil (R := Operand))
    simpa using this
  obtain ⟨s2, g2, v2, n2⟩ := C45_call (cfg := cfg) g1 hop1 hah rfl hn (by rw [← hi]; rfl) hb
  have e3 : s1.stack = σ.stack := congrArg State.stack v1
  have hvb : { view s2 with code := b, callers := [] } = { σ with code := b } := by
    rw [v2, v1, e3, ← h1.2.1]
  have hl2 : left s2.routine = b ++ (bytes .opReturn ++ tail) := congrArg State.code v2
  obtain ⟨s3, g3, v3, _, r3⟩ := run_consumes (cfg := cfg) g2 (a := b) (r := bytes .opReturn ++ tail) (l := l2) (τ := τ)
    (by rw [hvb]; exact ⟨hτ, hτ', υ, h2, h3, .inr (by simp [bytes_ne_nil])⟩) hl2
  have e5 : s2.callers.map left = [] :: s1.callers.map left := congrArg State.callers v2
  have hret : Turn cfg.checks (view s3) { τ with code := [], callers := s1.callers.map left } := by
    refine ⟨view s3, .refl, ?_⟩
    rw [v3, e5]
    exact .return (rest := tail) rfl rfl
  obtain ⟨s4, v4, g4, n4⟩ := turns_steps (.single hret) rfl g3
  -- the body in place of the call
  have htl : left t.routine = a ++ (b ++ []) := congrArg State.code htv
  obtain ⟨t1, f1, w1, _, q1⟩ := run_consumes (cfg := cfg) ht (a := a) (r := b ++ []) (l := l1) (τ := σ)
    (by rw [htv]; exact h1) htl
  have hv : view t1 = ext [] (t.callers.map left) { σ with code := b } := by
    rw [w1]
    simp only [ext, extCode, extCallers, h1.2.1]
  obtain ⟨t2, w2, f2, _, q2⟩ := run_executes (ext_executes (r := []) (K := t.callers.map left) h2) hv f1
  have hp := ext_pushes (r := []) (K := t.callers.map left) h3
  have hfail : ∃ t3, Next cfg t2 (.err .eof) t3 := by
    refine (C71_error_iff f2 _).mpr ⟨_, ext [] (t.callers.map left) τ, .refl, ?_, by rw [w2]; exact hp, .cut ?_⟩
    · obtain ⟨xs, bs, hx, hc, he⟩ := pushes_iff.mp h3
      have hcal : υ.callers = [] := by rw [← (pushes_eq h3).1]; exact hτ'
      rw [w2]
      simp only [ext, extCode, hcal, List.append_nil]
      intro h0
      rw [hτ, List.append_nil] at hc
      cases hx with
      | nil =>
        apply hne
        rw [he, hτ]
        cases υ
        simp only [List.append_nil] at hc ⊢
        rw [hc]
      | cons h _ =>
        rw [hc] at h0
        exact operand_ne_nil h (List.append_eq_nil_iff.mp h0).1
    · refine .inr ⟨.opEndChar, ?_⟩
      simp only [ext, extCode, hτ, hτ']
      exact ⟨List.nil_prefix, by decide⟩
  obtain ⟨t3, hfail⟩ := hfail
  constructor
  · rw [r1]
    refine ⟨l2, rfl, ?_⟩
    rw [run_iff_of_next n2, r3]
    refine ⟨[], by simp, ?_⟩
    rw [run_iff_of_next n4]
    have e6 : s4.width = τ.width := congrArg State.width v4
    rw [← e6]
    exact .ended ((next_ret (step_done g4.routine (congrArg State.code v4))).mpr ⟨rfl, rfl⟩)
  · rw [q1]
    refine ⟨l2, rfl, ?_⟩
    rw [q2]
    exact ⟨[], by simp, .failed hfail (by simp)⟩

/-- **C46.**  For one call, wherever it is: either the two programs run alike, or they show
the same, and the one with the call ends well where the one without it fails. -/
theorem C46_last {cfg : Config} {s t : Program} (hs : Sound s) (ht : Sound t) (h : Inlined cfg s t (fun _ => True)) :
    (∀ l out, Run cfg s l out ↔ Run cfg t l out) ∨
    ∃ l w, Run cfg s l (.ended w) ∧ Run cfg t l .failed := by
  obtain ⟨a, enc, b, tail, rest, op, subs, x, n, i, σ, τ, l1, l2, hsc, hx, hn, hop, hi, hb, htv, h1, hτ, hτ', υ, h2, h3, -⟩ := h
  by_cases hc : υ = τ ∨ rest ≠ []
  · exact .inl (C46_inline_partial hs ht
      ⟨a, enc, b, tail, rest, op, subs, x, n, i, σ, τ, l1, l2, hsc, hx, hn, hop, hi, hb, htv, h1, hτ, hτ', υ, h2, h3, hc⟩)
  · push Not at hc
    obtain ⟨hne, rfl⟩ := hc
    exact .inr ⟨_, _, inline_last hs ht hsc hx hn hop hi hb htv h1 hτ hτ' h2 h3 hne⟩

/-- **C46.**  Wherever the calls are, and however many are replaced: the operations,
widths and numbers of stem hints shown are the same, and one program ends a run if and
only if the other does.  If the one without the calls ends well, so does the one with
them, with the same width; if the one with the calls fails, so does the other.  (The one
with the calls may end well where the other fails: `C46_false`.) -/
theorem C46_operations {cfg : Config} {s t : Program} (hs : Sound s)
    (h : Relation.ReflTransGen (fun s t => Sound t ∧ Inlined cfg s t (fun _ => True)) s t) (l : List Observation) :
    ((∃ out, Run cfg s l out) ↔ ∃ out, Run cfg t l out) ∧
    (∀ w, Run cfg t l (.ended w) → Run cfg s l (.ended w)) ∧
    (Run cfg s l .failed → Run cfg t l .failed) := by
  suffices key : Sound t ∧ _ from key.2
  induction h with
  | refl => exact ⟨hs, Iff.rfl, fun _ h => h, id⟩
  | tail _ h ih =>
    obtain ⟨h0, h1, h2, h3⟩ := ih
    refine ⟨h.1, ?_⟩
    rcases C46_last h0 h.1 h.2 with he | ⟨l', w, hr, hf⟩
    · exact ⟨h1.trans (exists_congr fun _ => he _ _), fun w hw => h2 w ((he _ _).mpr hw), fun hw => (he _ _).mp (h3 hw)⟩
    · refine ⟨h1.trans ⟨?_, ?_⟩, fun w hw => ?_, fun hw => ?_⟩
      · rintro ⟨out, ho⟩
        obtain ⟨rfl, -⟩ := run_unique hr ho
        exact ⟨_, hf⟩
      · rintro ⟨out, ho⟩
        obtain ⟨rfl, -⟩ := run_unique hf ho
        exact ⟨_, hr⟩
      · cases (run_unique hf hw).2
      · cases (run_unique hr (h3 hw)).2

/-- `-107 callsubr` at the end of the code, where the subroutine is `10 return`, and `10`. -/
example : Inlined release lastCall lastOperand (fun _ => True) ∧ Run release lastCall [] (.ended none) ∧
    Run release lastOperand [] .failed := by
  have h10 : Operand (F32.ofInt 10) [149] := operand_byte 149 (by decide) (by decide)
  have hcall : Operand (F32.ofInt (-107)) [32] := operand_byte 32 (by decide) (by decide)
  exact ⟨⟨[], [32], [149], [], [], .opCallSubr, [[149, 11]], F32.ofInt (-107), -107, 0, view (Program.new [] [] [[149, 11]]),
      { view (Program.new [] [] [[149, 11]]) with stack := [F32.ofInt 10] }, [], [], rfl, hcall,
      isInt_of (by decide +kernel) (by decide +kernel) (by decide), rfl, rfl, rfl, rfl, ⟨rfl, rfl, _, .nil .refl, .refl, .inl rfl⟩,
      ⟨rfl, rfl, _, .nil .refl, .single ⟨_, _, [], h10, rfl, rfl⟩, .inr trivial⟩⟩,
    .ended (t := after release lastCall) ⟨100, by decide +kernel⟩,
    .failed (t := after release lastOperand) (r := .err .eof) ⟨100, by decide +kernel⟩ (by simp)⟩

end PS.Type2
