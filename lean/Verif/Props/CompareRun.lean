import Verif.Props.Compare
import Verif.Props.Flat
/-!
# Property C92: comparing the operations of programs
-/
namespace PS.Type2
open PS.Spec hiding Operand Operation
open PS.Type2.Spec

theorem operation_self {o : Operation} : operationEq o o = true ↔ F32.nan ∉ o.2 := by
  unfold operationEq
  rw [Bool.and_eq_true, sliceEq_iff, List.forall₂_same]
  simp only [beq_self_eq_true, true_and, ← equal_iff, equal_self]
  exact ⟨fun h hn => h _ hn rfl, fun h x hx he => h (he ▸ hx)⟩

/-- **C92.**  Two operations of programs are equal if and only if their operators are, and
their operands one by one as IEEE 754 compares them. -/
theorem C92_operation (a b : Operation) : operationEq a b = true ↔ a.1 = b.1 ∧ List.Forall₂ Equal a.2 b.2 := by
  unfold operationEq
  rw [Bool.and_eq_true, sliceEq_iff, beq_iff_eq]
  have : (fun x y => F32.beq x y = true) = Equal := funext fun _ => funext fun _ => propext equal_iff.symm
  rw [this]

/-- **C92.**  Operations of programs that are free of escapes, which is to say of
arithmetic, are equal to themselves, whatever subroutines are called. -/
theorem C92_plain {cfg : Config} {code : List UInt8} {global «local» : List (List UInt8)} (h1 : code.length < 2 ^ 63)
    (h2 : ∀ c ∈ global ++ «local», c.length < 2 ^ 63) (h3 : global.length ≤ 2 ^ 31 ∧ «local».length ≤ 2 ^ 31)
    (he : ∀ c ∈ code :: (global ++ «local»), (12 : UInt8) ∉ c)
    {l : List Observation} {w : Option F32} (h : Run cfg (Program.new code global «local») l (.ended w)) :
    ∀ o ∈ l, operationEq o.1 o.1 = true := by
  have hw := simple_run h rfl (sound_new h1 h2 h3)
    ⟨by simpa [view, Program.new, left, Routine.new] using he, by simp [view, Program.new], by simp [view, Program.new]⟩
  intro o ho
  refine operation_self.mpr fun hn => ?_
  obtain ⟨bs, hb⟩ := hw .nan (.inl ⟨o, ho, hn⟩)
  cases hb with
  | int _ h => exact h
  | fixed _ _ _ h => exact h

/-- **C92.**  With arithmetic they need not be: the program `0 0 div hmoveto endchar` shows an
operation that differs from itself. -/
theorem C92_not_a_number : ∃ o, Run release (Program.new [139, 139, 12, 12, 22, 14] [] []) [o] (.ended none) ∧
    operationEq o.1 o.1 = false := by
  exact ⟨((.opHMoveTo, [.nan]), none, 0), run_cons (t := after release (Program.new [139, 139, 12, 12, 22, 14] [] [])) ⟨100, by decide +kernel⟩ (by decide +kernel)
      (run_nil (t := after release (after release (Program.new [139, 139, 12, 12, 22, 14] [] []))) ⟨100, by decide +kernel⟩
        (by decide +kernel)), by decide +kernel⟩

/-- A program without escapes and with a subroutine, which runs to its end. -/
example : ∃ l, Run release (Program.new [32, 10, 14] [] [[149, 22, 11]]) l (.ended none) ∧ l.length = 1 ∧
    ∀ o ∈ l, operationEq o.1 o.1 = true := by
  have h : Run release (Program.new [32, 10, 14] [] [[149, 22, 11]]) [((.opHMoveTo, [F32.ofInt 10]), none, 0)] (.ended none) :=
    run_cons (t := after release (Program.new [32, 10, 14] [] [[149, 22, 11]])) ⟨100, by decide +kernel⟩ (by decide +kernel)
      (run_nil (t := after release (after release (Program.new [32, 10, 14] [] [[149, 22, 11]]))) ⟨100, by decide +kernel⟩
        (by decide +kernel))
  exact ⟨_, h, rfl, C92_plain (by decide) (by decide) (by decide) (by decide) h⟩

end PS.Type2
