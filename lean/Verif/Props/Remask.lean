import Verif.Lemmas.Remask
import Verif.Props.Type2Halt
import Verif.Props.Uncalled
/-!
# Property C98: neither the contents of masks nor the way operands are encoded is seen
-/
namespace PS.Type2
open PS.Spec hiding Operand Operation
open PS.Type2.Spec

/-- **C98.**  Neither the contents of masks nor the way operands are encoded is seen.  Two programs
that differ in nothing else, neither in the code nor in the subroutines, show the same operations,
widths and stem hints, and end alike.  The masks shown are as long as they are taken to be in
the comparison of the two. -/
theorem C98_remasked {cfg : Config} {m : Nat} {code code' : List UInt8} {global global' «local» local' : List (List UInt8)}
    (hs : Sound (Program.new code global «local»)) (hs' : Sound (Program.new code' global' local'))
    (h : Remasked m code code') (hg : List.Forall₂ (Remasked m) global global') (hl : List.Forall₂ (Remasked m) «local» local')
    {x : List Observation} (hm : ∀ o ∈ x, Mask o.1.1 → (o.2.2 + 7) / 8 = m) (w : Option F32) :
    Run cfg (Program.new code global «local») x (.ended w) ↔ Run cfg (Program.new code' global' local') x (.ended w) :=
  ⟨fun hr => Remask.alike_run hr hs hs' (Remask.alike_new h hg hl) (Remask.ended_masks hs hr hm),
    fun hr => Remask.alike_run hr hs' hs (Remask.alike_undo (Remask.alike_new h hg hl)) (Remask.ended_masks hs' hr hm)⟩

/-- **C98.**  This is so for runs that fail too, if also a mask at which a program fails is as long
as it is taken to be. -/
theorem C98_failures {cfg : Config} {m : Nat} {code code' : List UInt8} {global global' «local» local' : List (List UInt8)}
    (hs : Sound (Program.new code global «local»)) (hs' : Sound (Program.new code' global' local'))
    (h : Remasked m code code') (hg : List.Forall₂ (Remasked m) global global') (hl : List.Forall₂ (Remasked m) «local» local')
    (hm : Masks cfg.checks (view (Program.new code global «local»)) m) (x : List Observation) (out : Outcome) :
    Run cfg (Program.new code global «local») x out ↔ Run cfg (Program.new code' global' local') x out :=
  ⟨fun hr => Remask.alike_run hr hs hs' (Remask.alike_new h hg hl) hm,
    fun hr => Remask.alike_run hr hs' hs (Remask.alike_undo (Remask.alike_new h hg hl)) (Remask.masks_alike (Remask.alike_new h hg hl) hm)⟩

/-- **C98.**  Subroutines that are not called can be different. -/
theorem C98_called {cfg : Config} {m : Nat} {code code' : List UInt8} {global global' «local» local' : List (List UInt8)}
    (hs : Sound (Program.new code global «local»)) (hs' : Sound (Program.new code' global' local'))
    (h : Remasked m code code') (hg : global.length = global'.length) (hl : «local».length = local'.length)
    (hcg : ∀ (i : Nat) b b', CallsGlobal cfg.checks (view (Program.new code global «local»)) i → global[i]? = some b →
      global'[i]? = some b' → Remasked m b b')
    (hcl : ∀ (i : Nat) b b', CallsLocal cfg.checks (view (Program.new code global «local»)) i → «local»[i]? = some b →
      local'[i]? = some b' → Remasked m b b')
    (hm : Masks cfg.checks (view (Program.new code global «local»)) m) (x : List Observation) (out : Outcome) :
    Run cfg (Program.new code global «local») x out ↔ Run cfg (Program.new code' global' local') x out :=
  Remask.called_run hs hs' h ⟨hg, hcg⟩ ⟨hl, hcl⟩ hm x out

/-! ## Examples -/

/-- `1 2 hstemhm 3 4 hintmask 5 hmoveto endchar`, with any mask, and with 5 in one byte or in three. -/
theorem hinted_remasked (a b : UInt8) :
    Remasked 1 [140, 141, 18, 142, 143, 19, a, 144, 22, 14] [140, 141, 18, 142, 143, 19, b, 28, 0, 5, 22, 14] := by
  have h1 : Operand (F32.ofInt 1) [140] := operand_byte 140 (by decide) (by decide)
  have h2 : Operand (F32.ofInt 2) [141] := operand_byte 141 (by decide) (by decide)
  have h3 : Operand (F32.ofInt 3) [142] := operand_byte 142 (by decide) (by decide)
  have h4 : Operand (F32.ofInt 4) [143] := operand_byte 143 (by decide) (by decide)
  have h5 : Operand (F32.ofInt 5) [144] := operand_byte 144 (by decide) (by decide)
  have h6 : Operand (F32.ofInt 5) [28, 0, 5] := operand_iff.mpr (.inl ⟨5, .word 5 (by decide) (by decide), rfl⟩)
  exact .operand h1 h1 (.operand h2 h2 (.operator (op := .opHStemHM) (by decide) (.operand h3 h3 (.operand h4 h4
    (.mask (op := .opHintMask) (mask := [a]) (mask' := [b]) (by decide) rfl rfl (.operand h5 h6 (.same _)))))))

/-- What is shown of it. -/
def hinted : List Observation :=
  [((.opHStemHM, [F32.ofInt 1, F32.ofInt 2]), none, 1), ((.opHintMask, []), some (F32.ofInt 4), 2),
    ((.opHMoveTo, [F32.ofInt 5]), some (F32.ofInt 4), 2)]

theorem hinted_run : Run release (Program.new [140, 141, 18, 142, 143, 19, 192, 144, 22, 14] [] []) hinted (.ended (some (F32.ofInt 4))) :=
  let s := Program.new [140, 141, 18, 142, 143, 19, 192, 144, 22, 14] [] []
  run_cons (t := after release s) ⟨100, by decide +kernel⟩ (by decide +kernel)
    (run_cons (t := after release (after release s)) ⟨100, by decide +kernel⟩ (by decide +kernel)
      (run_cons (t := after release (after release (after release s))) ⟨100, by decide +kernel⟩ (by decide +kernel)
        (run_nil (t := after release (after release (after release (after release s)))) ⟨100, by decide +kernel⟩ (by decide +kernel))))

theorem hinted_run_checked : Run checked (Program.new [140, 141, 18, 142, 143, 19, 192, 144, 22, 14] [] []) hinted (.ended (some (F32.ofInt 4))) :=
  let s := Program.new [140, 141, 18, 142, 143, 19, 192, 144, 22, 14] [] []
  run_cons (t := after checked s) ⟨100, by decide +kernel⟩ (by decide +kernel)
    (run_cons (t := after checked (after checked s)) ⟨100, by decide +kernel⟩ (by decide +kernel)
      (run_cons (t := after checked (after checked (after checked s))) ⟨100, by decide +kernel⟩ (by decide +kernel)
        (run_nil (t := after checked (after checked (after checked (after checked s)))) ⟨100, by decide +kernel⟩ (by decide +kernel))))

/-- The hypotheses of `C98_remasked` are met: whatever the mask is, the same is shown. -/
example (b : UInt8) :
    Run release (Program.new [140, 141, 18, 142, 143, 19, b, 28, 0, 5, 22, 14] [] []) hinted (.ended (some (F32.ofInt 4))) :=
  (C98_remasked (m := 1) (sound_new (by decide) (by simp) (by decide)) (sound_new (by simp) (by simp) (by decide)) (hinted_remasked 192 b)
    .nil .nil (by decide) _).mp hinted_run

/-- The hypotheses of `C98_failures` are met by programs that end. -/
example (a b : UInt8) (ha : a = 192) (x : List Observation) (out : Outcome) :
    Run release (Program.new [140, 141, 18, 142, 143, 19, a, 144, 22, 14] [] []) x out ↔
      Run release (Program.new [140, 141, 18, 142, 143, 19, b, 28, 0, 5, 22, 14] [] []) x out := by
  subst ha
  have hs : Sound (Program.new [140, 141, 18, 142, 143, 19, 192, 144, 22, 14] [] []) := sound_new (by decide) (by simp) (by decide)
  exact C98_failures hs (sound_new (by simp) (by simp) (by decide)) (hinted_remasked 192 b) .nil .nil
    (Remask.ended_masks hs hinted_run (by decide)) x out

/-- The hypotheses of `C98_called` are met: of the two subroutines, only the first is called, and the
other is different. -/
example : (∀ i b b', CallsGlobal release.checks (view (Program.new [32, 10, 14] [] inner)) i → ([] : List (List UInt8))[i]? = some b →
      ([] : List (List UInt8))[i]? = some b' → Remasked 0 b b') ∧
    (∀ i b b', CallsLocal release.checks (view (Program.new [32, 10, 14] [] inner)) i → inner[i]? = some b → inner'[i]? = some b' →
      Remasked 0 b b') ∧
    Remasked 0 [32, 10, 14] [28, 255, 149, 10, 14] ∧ Masks release.checks (view (Program.new [32, 10, 14] [] inner)) 0 := by
  refine ⟨by simp, fun i b b' hi h1 h2 => ?_, ?_, ?_⟩
  · obtain rfl := (inner_calls _).2 i hi
    obtain rfl : [11] = b := by simpa [inner] using h1
    obtain rfl : [11] = b' := by simpa [inner'] using h2
    exact .same _
  · exact .operand (operand_byte 32 (by decide) (by decide)) (operand_iff.mpr (.inl ⟨-107, .word (-107) (by decide) (by decide), rfl⟩)) (.same _)
  · refine maskless_masks (fun d hd => ?_) 0
    have hd : d = [32, 10, 14] ∨ d ∈ inner := by simpa [view, left, Program.new, Routine.new] using hd
    simp only [inner, List.mem_cons, List.not_mem_nil, or_false] at hd
    rcases hd with rfl | rfl | rfl <;> decide

/-- They are met by programs that fail, such as `1` and a reserved byte. -/
example : Remasked 0 [140, 2] [28, 0, 1, 2] ∧ (∀ c, Masks c (view (Program.new [140, 2] [] [])) 0) ∧
    Run release (Program.new [28, 0, 1, 2] [] []) [] .failed := by
  refine ⟨.operand (operand_byte 140 (by decide) (by decide)) (operand_iff.mpr (.inl ⟨1, .word 1 (by decide) (by decide), rfl⟩)) (.same _),
    fun c => maskless_masks (fun d hd => ?_) 0, ?_⟩
  · obtain rfl : d = [140, 2] := by simpa [view, left, Program.new, Routine.new] using hd
    decide
  · exact .failed (r := .err (.raised .unknownOperator)) (t := after release (Program.new [28, 0, 1, 2] [] [])) ⟨100, by decide +kernel⟩ (by simp)

end PS.Type2
