import Verif.Spec.RemaskSet
import Verif.Props.Remask
import Verif.Props.Recode
/-!
# Property C98, of font sets
-/
namespace PS
open PS.Spec

/-- **C98.**  A font set that is read can be written with other masks and operands encoded in other
ways.  All the glyphs show the same, in any build, and nothing else is different. -/
theorem C98_fonts (cfg : Config) (data : List UInt8) (hdata : data.length < 2 ^ 61) (base q : Nat) (fs : FontSet)
    (h : FontSet.read (tape cfg data) base = (.ok fs, q)) (G : List (List UInt8)) (L : Nat → Nat → List (List UInt8))
    (C : Nat → List (List UInt8)) (hfit : CodeFits G L C fs)
    (hsize : 100 * (data.length + 1) * (1 + fs.operations.length + FontSet.privates fs) + codeBulk G L C fs < 2 ^ 31)
    (hc : ∀ checks, RemaskedCode checks G L C fs) :
    ∃ bytes : List UInt8, bytes.length < 2 ^ 31 ∧
      ∀ (cfg' : Config) (pre post : List UInt8), (pre ++ bytes ++ post).length < 2 ^ 61 →
        pre.length + 2 ^ 31 ≤ cfg'.maxSeek →
        ∃ fs' q', FontSet.read (tape cfg' (pre ++ bytes ++ post)) pre.length = (.ok fs', q') ∧ Recoded G L C fs fs' ∧
          ∀ (cfg'' : Config) (k i : Nat) (x : List Type2.Spec.Observation) (out : Type2.Spec.Outcome),
            Shows cfg'' fs' k i x out ↔ Shows cfg'' fs k i x out := by
  obtain ⟨bytes, h1, h2⟩ := C91_file cfg data hdata base q fs h G L C hfit hsize
  refine ⟨bytes, h1, fun cfg' pre post h3 h4 => ?_⟩
  obtain ⟨fs', q', h5, h6⟩ := h2 cfg' pre post h3 h4
  refine ⟨fs', q', h5, h6, fun cfg'' k i x out => ?_⟩
  exact recoded_shows cfg cfg' cfg'' data _ hdata h3 base _ q q' fs fs' h h5 G L C hfit h6 k i x out
    fun d cs r code code' priv a1 a2 a3 a4 a5 a6 hs hs' => by
      obtain ⟨w1, w2, σ, m, rfl, w3, w4, w5, w6⟩ := hc cfg''.checks k i d cs r code code' priv a1 a2 a3 a4 a5 a6
      exact Type2.C98_called hs hs' w3 w1 w2 w5 w6 w4 x out

/-- A font with the one glyph `1 2 hstemhm 3 4 hintmask 5 hmoveto endchar`. -/
def hintedDef : FontSetDef where
  names := [[65]]
  strings := []
  globals := []
  fonts := [
    { entries := ⟨[], []⟩
      codes := [[140, 141, 18, 142, 143, 19, 192, 144, 22, 14]]
      set := .isoAdobe
      encoding := .standard
      keying := .names ⟨⟨[], []⟩, []⟩ }]

theorem hintedDef_valid : hintedDef.Valid := by
  have fits : ∀ {items : List (List UInt8)}, items.length ≤ 65535 → 1 + items.flatten.length < 2 ^ 32 → IndexFits 4 items :=
    fun h1 h2 => ⟨h1, by omega, by omega, h2⟩
  refine ⟨fits (by decide) (by decide), fits (by decide) (by decide), fits (by decide) (by decide), by decide, ?_, by decide +kernel⟩
  intro f hf
  simp only [hintedDef, List.mem_cons, List.not_mem_nil, or_false] at hf
  subst hf
  exact ⟨⟨.nil, by decide⟩, fits (by decide) (by decide), .inl (.inl rfl), .inl (.inl rfl),
    ⟨.nil, by decide⟩, fits (by decide +kernel) (by decide +kernel)⟩

theorem hinted_read : ∃ fs q cs r, FontSet.read (tape checkedBuild hintedDef.write) 0 = (.ok fs, q) ∧ fs.operations.length = 1 ∧
    fs.subroutines.data = [] ∧ fs.characterStrings = [cs] ∧ cs.data = [[140, 141, 18, 142, 143, 19, 192, 144, 22, 14]] ∧
    fs.records = [.characterNameKeyed r] ∧ r.subroutines.data = [] := by
  obtain ⟨fs, q, h, hin⟩ := C60_round_trip hintedDef_valid checkedBuild [] [] (by decide +kernel) (by decide)
  rw [List.nil_append, List.append_nil] at h
  obtain ⟨-, -, i3, i4, i5, -, -, i8⟩ := hin
  have hr : ∃ r, fs.records = [.characterNameKeyed r] ∧ r.subroutines.data = [] := by
    generalize fs.records = rs at i8
    simp only [hintedDef] at i8
    cases i8 with
    | @cons _ r _ rs a b =>
      cases b
      cases r with
      | characterIDKeyed r => exact a.elim
      | characterNameKeyed r => exact ⟨r, rfl, a.2⟩
  obtain ⟨r, hr, hl⟩ := hr
  have hc : ∃ cs, fs.characterStrings = [cs] ∧ cs.data = [[140, 141, 18, 142, 143, 19, 192, 144, 22, 14]] := by
    generalize fs.characterStrings = cs at i5
    simp only [hintedDef] at i5
    cases i5 with
    | @cons _ c _ cs a b =>
      cases b
      exact ⟨c, rfl, a⟩
  obtain ⟨cs, hc, hd⟩ := hc
  exact ⟨fs, q, cs, r, h, i4.length_eq.symm, i3, hc, hd, hr, hl⟩

/-- The hypotheses of `C98_fonts` are met, with any other mask. -/
example (b : UInt8) : ∃ fs q, FontSet.read (tape checkedBuild hintedDef.write) 0 = (.ok fs, q) ∧
    CodeFits [] (fun _ _ => []) (fun _ => [[140, 141, 18, 142, 143, 19, b, 28, 0, 5, 22, 14]]) fs ∧
    100 * (hintedDef.write.length + 1) * (1 + fs.operations.length + FontSet.privates fs) +
      codeBulk [] (fun _ _ => []) (fun _ => [[140, 141, 18, 142, 143, 19, b, 28, 0, 5, 22, 14]]) fs < 2 ^ 31 ∧
    ∀ checks, RemaskedCode checks [] (fun _ _ => []) (fun _ => [[140, 141, 18, 142, 143, 19, b, 28, 0, 5, 22, 14]]) fs := by
  obtain ⟨fs, q, cs, r, h, h0, h1, h2, h3, h4, h5⟩ := hinted_read
  refine ⟨fs, q, h, ⟨?_, by simp, by simp⟩, ?_, ?_⟩
  · intro k cs' hk
    rw [h2] at hk
    have : cs' = cs := by simpa using List.mem_of_getElem? hk
    rw [this, h3]
    rfl
  · have h6 : FontSet.privates fs = 1 := by simp [FontSet.privates, privates, h4]
    have h7 : hintedDef.write.length ≤ 1000 := by decide +kernel
    have h8 : codeBulk [] (fun _ _ => []) (fun _ => [[140, 141, 18, 142, 143, 19, b, 28, 0, 5, 22, 14]]) fs ≤ 1000 := by
      unfold codeBulk
      rw [h4]
      simp [privateList, indexBulk]
    rw [h0, h6]
    omega
  · intro checks k i d cs' r' code code' priv a1 a2 a3 a4 a5 a6
    have hk : k = 0 := by
      have := (List.getElem?_eq_some_iff.mp a1).1
      rw [h2] at this
      simpa using this
    subst hk
    rw [h2] at a1
    rw [h4] at a2
    injection a1 with a1
    injection a2 with a2
    subst a1 a2
    have hi : i = 0 := by
      have := (List.getElem?_eq_some_iff.mp a4).1
      simpa using this
    subst hi
    rw [h3] at a3
    injection a3 with a3
    injection a4 with a4
    obtain rfl : d = 0 := a5
    injection a6 with a6
    subst a3 a4 a6
    rw [h1, h5]
    have hs : Type2.Spec.Sound (Type2.Program.new [140, 141, 18, 142, 143, 19, 192, 144, 22, 14] [] []) :=
      Type2.sound_new (by decide) (by simp) (by decide)
    refine ⟨rfl, rfl, _, 1, rfl, Type2.hinted_remasked 192 b, ?_, by simp, by simp⟩
    cases checks with
    | false => exact Type2.Remask.ended_masks (cfg := Type2.release) hs Type2.hinted_run (by decide)
    | true => exact Type2.Remask.ended_masks (cfg := Type2.checked) hs Type2.hinted_run_checked (by decide)

end PS
