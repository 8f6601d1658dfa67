import Verif.Spec.OutlineSet
import Verif.Props.Outline
import Verif.Props.Recode
/-!
# Property C97, of font sets
-/
namespace PS
open PS.Spec

/-- **C97.**  A font set that is read can be written with fragments of its code in new
subroutines.  All the glyphs show the same, in any build, and nothing else is different. -/
theorem C97_fonts (cfg : Config) (data : List UInt8) (hdata : data.length < 2 ^ 61) (base q : Nat) (fs : FontSet)
    (h : FontSet.read (tape cfg data) base = (.ok fs, q)) (G : List (List UInt8)) (L : Nat → Nat → List (List UInt8))
    (C : Nat → List (List UInt8)) (hfit : CodeFits G L C fs)
    (hsize : 100 * (data.length + 1) * (1 + fs.operations.length + FontSet.privates fs) + codeBulk G L C fs < 2 ^ 31)
    (hc : ∀ checks, OutlinedCode checks G L C fs) :
    ∃ bytes : List UInt8, bytes.length < 2 ^ 31 ∧
      ∀ (cfg' : Config) (pre post : List UInt8), (pre ++ bytes ++ post).length < 2 ^ 61 →
        pre.length + 2 ^ 31 ≤ cfg'.maxSeek →
        ∃ fs' q', FontSet.read (tape cfg' (pre ++ bytes ++ post)) pre.length = (.ok fs', q') ∧ Recoded G L C fs fs' ∧
          ∀ (cfg'' : Config) (k i : Nat) (x : List Type2.Spec.Observation) (out : Type2.Spec.Outcome),
            Shows cfg'' fs' k i x out ↔ Shows cfg'' fs k i x out := by
  obtain ⟨bytes, h1, h2⟩ := C91_file cfg data hdata base q fs h G L C hfit hsize
  refine ⟨bytes, h1, fun cfg' pre post h3 h4 => ?_⟩
  obtain ⟨fs', q', h5, h6⟩ := h2 cfg' pre post h3 h4
  refine ⟨fs', q', h5, h6, fun cfg'' k i x out => ?_⟩
  exact recoded_shows cfg cfg' cfg'' data _ hdata h3 base _ q q' fs fs' h h5 G L C hfit h6 k i x out
    fun d cs r code code' priv a1 a2 a3 a4 a5 a6 hs hs' => by
      obtain ⟨m, g, l, qg, ql, w1, w2, w3⟩ := hc cfg''.checks k i d cs r code code' priv a1 a2 a3 a4 a5 a6
      exact Type2.C97_outlined (G := ⟨fs.subroutines.data, G, g, qg⟩) (L := ⟨priv.subroutines.data, L k d, l, ql⟩) hs hs' w1 w2 w3 x out

/-- The subroutines there are, and a new one, `0 callsubr endchar`. -/
def lengthened : List (List UInt8) := [[33, 10, 33, 10, 11], [139, 22, 11], [32, 10, 14]]

/-- The hypotheses of `C97_fonts` are met: the whole glyph is put into a subroutine. -/
theorem nested_outlined : ∃ fs q, FontSet.read (tape checkedBuild nestedDef.write) 0 = (.ok fs, q) ∧
    CodeFits [] (fun _ _ => lengthened) (fun _ => [[34, 10]]) fs ∧
    100 * (nestedDef.write.length + 1) * (1 + fs.operations.length + FontSet.privates fs) +
      codeBulk [] (fun _ _ => lengthened) (fun _ => [[34, 10]]) fs < 2 ^ 31 ∧
    ∀ checks, OutlinedCode checks [] (fun _ _ => lengthened) (fun _ => [[34, 10]]) fs := by
  obtain ⟨fs, q, cs, r, h, h0, h1, h2, h3, h4, h5⟩ := nested_read
  refine ⟨fs, q, h, ⟨?_, by simp, by simp [lengthened]⟩, ?_, ?_⟩
  · intro k cs' hk
    rw [h2] at hk
    have : cs' = cs := by simpa using List.mem_of_getElem? hk
    rw [this, h3]
    rfl
  · have h6 : FontSet.privates fs = 1 := by simp [FontSet.privates, privates, h4]
    have h7 : nestedDef.write.length ≤ 1000 := by decide +kernel
    have h8 : codeBulk [] (fun _ _ => lengthened) (fun _ => [[34, 10]]) fs ≤ 1000 := by
      unfold codeBulk
      rw [h4]
      simp [privateList, indexBulk, lengthened]
    rw [h0, h6]
    omega
  · intro checks k i d cs' r' code code' priv a1 a2 a3 a4 a5 a6
    have hk : k = 0 := by
      have := (List.getElem?_eq_some_iff.mp a1).1
      rw [h2] at this
      simpa using this
    subst hk
    rw [h2] at a1
    rw [h4] at a2
    injection a1 with a1
    injection a2 with a2
    subst a1 a2
    have hi : i = 0 := by
      have := (List.getElem?_eq_some_iff.mp a4).1
      simpa using this
    subst hi
    rw [h3] at a3
    injection a3 with a3
    injection a4 with a4
    obtain rfl : d = 0 := a5
    injection a6 with a6
    subst a3 a4 a6
    rw [h1, h5]
    have h139 : Type2.Spec.Operand (F32.ofInt 0) [139] := Type2.operand_byte 139 (by decide) (by decide)
    have hd : Type2.drawing 1 = [[33, 10, 33, 10, 11], [139, 22, 11]] := by decide +kernel
    have z := Type2.swapped_zero
    have z' := Type2.shared_numbers
    refine ⟨0, fun _ _ => False, fun i j => i = j ∧ i < 2, fun _ => False, fun i => i < 2, ?_, ?_, ?_⟩
    · intro R hR i j hij
      simp only [List.mem_cons, List.not_mem_nil, or_false] at hR
      rcases hR with rfl | rfl
      · exact absurd hij id
      · obtain ⟨rfl, hi⟩ : i = j ∧ i < 2 := hij
        rcases (by omega : i = 0 ∨ i = 1) with rfl | rfl
        · refine ⟨[33, 10, 33, 10, 11], [33, 10, 33, 10, 11], by rw [hd]; rfl, rfl, ?_, fun _ => ?_⟩
          · rw [hd]
            exact .call (b := [33]) (b' := [33]) (op := .opCallSubr) (i := 1) (j := 1) rfl z.2.2.1 z'.2.2.1 ⟨rfl, by decide⟩ (.inr (.inl rfl))
              (.call (b := [33]) (b' := [33]) (op := .opCallSubr) (i := 1) (j := 1) rfl z.2.2.1 z'.2.2.1 ⟨rfl, by decide⟩ (.inr (.inl rfl))
                (.return (.inl rfl) .nil))
          · rw [hd]
            exact .call (b := [33]) (b' := [33]) (op := .opCallSubr) (i := 1) (j := 1) rfl z.2.2.1 z'.2.2.1 ⟨rfl, by decide⟩ (.inl (by decide : 1 < 2))
              (.call (b := [33]) (b' := [33]) (op := .opCallSubr) (i := 1) (j := 1) rfl z.2.2.1 z'.2.2.1 ⟨rfl, by decide⟩ (.inl (by decide : 1 < 2))
                (.return (.inr rfl) .nil))
        · exact ⟨[139, 22, 11], [139, 22, 11], by rw [hd]; rfl, rfl,
            .operand h139 h139 (.operator (op := .opHMoveTo) (by decide) (by decide) (.return (.inl rfl) .nil)), fun _ =>
            .operand h139 h139 (.operator (op := .opHMoveTo) (by decide) (by decide) (.return (.inr rfl) .nil))⟩
    · rw [hd]
      exact .tail (b := [34]) (op := .opCallSubr) (j := 2) (f := [32, 10, 14]) (f' := [32, 10, 14]) rfl z'.2.2.2 rfl (by simp) (.inl rfl)
        (.call (b := [32]) (b' := [32]) (op := .opCallSubr) (i := 0) (j := 0) rfl z.1 z'.2.1 ⟨rfl, by decide⟩ (.inl (by decide : 0 < 2))
          (.endchar (.inr ⟨rfl, rfl⟩) .nil))
    · refine Type2.maskless_masks (fun c hc => ?_) 0
      have hc : c = [32, 10, 14] ∨ c ∈ Type2.drawing 1 := by
        simpa [Type2.Spec.view, Type2.Spec.left, Type2.Program.new, Type2.Routine.new] using hc
      rw [hd] at hc
      simp only [List.mem_cons, List.not_mem_nil, or_false] at hc
      rcases hc with rfl | rfl | rfl <;> decide

end PS
