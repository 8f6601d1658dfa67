import Verif.Props.Recode
import Verif.Props.Showable
/-!
# Property C101: font sets without subroutines
-/
namespace PS
open PS.Spec

theorem free_code (cfg : Config) (data : List UInt8) (hdata : data.length < 2 ^ 61) (base q : Nat) (fs : FontSet)
    (h : FontSet.read (tape cfg data) base = (.ok fs, q)) (N : Nat) (hsize : glyphCount fs * (N + 4) < 2 ^ 31)
    (hrun : ∀ (k i : Nat) cs, fs.characterStrings[k]? = some cs → i < cs.data.length → ∃ l out, Comes cfg fs k i l out ∧
      (l.map Type2.Spec.effort).sum + 1001 ≤ N) :
    ∃ C : Nat → List (List UInt8), (∀ (k : Nat) cs, fs.characterStrings[k]? = some cs → (C k).length = cs.data.length) ∧
      (codeBulk [] (fun _ _ => []) C fs ≤ 7 * (1 + fs.operations.length + FontSet.privates fs) + glyphCount fs * (N + 4)) ∧
      ∀ fs', Recoded [] (fun _ _ => []) C fs fs' →
        ∀ cfg'' k i l out, Shows cfg'' fs' k i l out ↔ Shows cfg fs k i l out := by
  have hlay := (C32_layout_iff cfg data hdata base fs).mp ⟨q, h⟩
  -- the new character strings
  have hflat : ∀ k i : Nat, ∃ bs : List UInt8, ∀ cs, fs.characterStrings[k]? = some cs → i < cs.data.length →
      bs.length ≤ N ∧ (∃ r d p, fs.records[k]? = some r ∧ Chooses r i d ∧ (privateList r)[d]? = some p) ∧
      ∃ l out, Comes cfg fs k i l out ∧ ∀ cfg', Type2.Spec.Run cfg' (Type2.Program.new bs [] []) l out := by
    intro k i
    by_cases hk : ∃ cs, fs.characterStrings[k]? = some cs ∧ i < cs.data.length
    · obtain ⟨cs, hcs, hi⟩ := hk
      obtain ⟨l, out, h1, h3⟩ := hrun k i cs hcs hi
      obtain ⟨cs', r, code, loc, a1, a2, a3, a4, a5⟩ := (h1 l out).mpr ⟨rfl, rfl⟩
      obtain ⟨d, p, c1, c2, rfl⟩ := (localFor_iff _ _ _).mp a4
      obtain ⟨u1, u2, u3⟩ := program_sound cfg data hdata base fs hlay k cs' r a1 a2 code (List.mem_of_getElem? a3) _ (localOf_of_private c2)
      have hN : N < 2 ^ 31 := by
        have hpos : 1 ≤ glyphCount fs := by
          have : cs.data.length ≤ glyphCount fs :=
            List.single_le_sum (by simp) _ (List.mem_map_of_mem (List.mem_of_getElem? hcs))
          omega
        nlinarith
      obtain ⟨bs, b1, b2⟩ := Type2.C101_inlined u1 u2 u3 a5 (by omega)
      exact ⟨bs, fun cs'' hcs'' _ => ⟨by omega, ⟨r, d, p, a2, c1, c2⟩, l, out, h1, b2⟩⟩
    · exact ⟨[], fun cs hcs hi => absurd ⟨cs, hcs, hi⟩ hk⟩
  choose F hF using hflat
  have hget : ∀ (k : Nat) cs, fs.characterStrings[k]? = some cs → (fs.characterStrings[k]?.map fun cs => cs.data.length).getD 0 = cs.data.length := by
    intro k cs hcs
    rw [hcs]; rfl
  set C : Nat → List (List UInt8) := fun k =>
    (List.range ((fs.characterStrings[k]?.map fun cs => cs.data.length).getD 0)).map (F k) with hC
  have hlen : ∀ (k : Nat) cs, fs.characterStrings[k]? = some cs → (C k).length = cs.data.length := by
    intro k cs hcs
    rw [hC, List.length_map, List.length_range, hget k cs hcs]
  have hmem : ∀ (k : Nat) cs, fs.characterStrings[k]? = some cs → ∀ c ∈ C k, ∃ i, i < cs.data.length ∧ c = F k i := by
    intro k cs hcs c hc
    rw [hC] at hc
    obtain ⟨i, hi, rfl⟩ := List.mem_map.mp hc
    rw [hget k cs hcs, List.mem_range] at hi
    exact ⟨i, hi, rfl⟩
  have hrec : fs.records.length = fs.characterStrings.length := by
    obtain ⟨d, hin, -, -⟩ := def_of hlay
    rw [← hin.2.2.2.2.2.2.2.length_eq, ← hin.2.2.2.2.1.length_eq]
  have hops : fs.records.length = fs.operations.length := by
    obtain ⟨d, hin, -, -⟩ := def_of hlay
    rw [← hin.2.2.2.2.2.2.2.length_eq, ← hin.2.2.2.1.length_eq]
  have hb := Recoding.flat_bulk (N := N) (C := C) hrec fun k cs hcs => ⟨hlen k cs hcs, fun c hc => by
    obtain ⟨i, hi, rfl⟩ := hmem k cs hcs c hc
    exact (hF k i cs hcs hi).1⟩
  rw [hops] at hb
  refine ⟨C, hlen, hb, fun fs' h4 => ?_⟩
  · intro cfg'' k i l out
    obtain ⟨-, -, t3, -, t5, t6, -, -, t9, t10⟩ := h4
    by_cases hk : ∃ cs, fs.characterStrings[k]? = some cs ∧ i < cs.data.length
    · obtain ⟨cs, hcs, hi⟩ := hk
      obtain ⟨-, ⟨r, d, p, a2, c1, c2⟩, l0, w, b1, b2⟩ := hF k i cs hcs hi
      rw [b1 l out]
      have hCk : (C k)[i]? = some (F k i) := by
        rw [hC]
        simp only [List.getElem?_map]
        rw [hget k cs hcs, List.getElem?_range hi]
        rfl
      constructor
      · rintro ⟨cs', r', code', loc, e1, e2, e3, e4, e5⟩
        obtain ⟨d', p', f1, f2, rfl⟩ := (localFor_iff _ _ _).mp e4
        obtain ⟨-, -, w3⟩ := Recoding.new_records (t10 k r r' a2 e2)
        rw [t6 k cs' e1, hCk] at e3
        injection e3 with e3
        rw [t3, (w3 d' p' f2).1, ← e3] at e5
        exact Type2.run_unique e5 (b2 cfg'')
      · rintro ⟨rfl, rfl⟩
        obtain ⟨r', e2⟩ : ∃ r', fs'.records[k]? = some r' :=
          ⟨_, List.getElem?_eq_getElem (by rw [← t9]; exact (List.getElem?_eq_some_iff.mp a2).1)⟩
        obtain ⟨cs', e1⟩ : ∃ cs', fs'.characterStrings[k]? = some cs' :=
          ⟨_, List.getElem?_eq_getElem (by rw [t5]; exact (List.getElem?_eq_some_iff.mp hcs).1)⟩
        obtain ⟨w1, w2, -⟩ := Recoding.new_records (t10 k r r' a2 e2)
        obtain ⟨p', c3, c4⟩ := w2 d p c2
        refine ⟨cs', r', F k i, p'.subroutines, e1, e2, by rw [t6 k cs' e1]; exact hCk,
          (localFor_iff _ _ _).mpr ⟨d, p', (w1 i d).mp c1, c3, rfl⟩, ?_⟩
        rw [t3, c4]
        exact b2 cfg''
    · constructor
      · rintro ⟨cs', r', code', loc, e1, e2, e3, -, -⟩
        refine absurd ?_ hk
        have hk' : k < fs.characterStrings.length := by rw [← t5]; exact (List.getElem?_eq_some_iff.mp e1).1
        refine ⟨_, List.getElem?_eq_getElem hk', ?_⟩
        rw [← hlen k _ (List.getElem?_eq_getElem hk'), ← t6 k cs' e1]
        exact (List.getElem?_eq_some_iff.mp e3).1
      · rintro ⟨cs', r', code', loc, e1, e2, e3, -, -⟩
        exact absurd ⟨cs', e1, (List.getElem?_eq_some_iff.mp e3).1⟩ hk

/-- **C101.**  Every font set of which all glyphs come to their ends or to errors can be freed of subroutines:
there is a file of which reading gives the same font set without any subroutines and with other character
strings, and all the glyphs show the same, in any build.  `N` is a bound for the size of a glyph. -/
theorem C101_fonts (cfg : Config) (data : List UInt8) (hdata : data.length < 2 ^ 61) (base q : Nat) (fs : FontSet)
    (h : FontSet.read (tape cfg data) base = (.ok fs, q)) (N : Nat)
    (hsize : 107 * (data.length + 1) * (1 + fs.operations.length + FontSet.privates fs) + glyphCount fs * (N + 4) < 2 ^ 31)
    (hrun : ∀ (k i : Nat) cs, fs.characterStrings[k]? = some cs → i < cs.data.length → ∃ l out, Comes cfg fs k i l out ∧
      (l.map Type2.Spec.effort).sum + 1001 ≤ N) :
    ∃ bytes : List UInt8, bytes.length < 2 ^ 31 ∧
      ∀ (cfg' : Config) (pre post : List UInt8), (pre ++ bytes ++ post).length < 2 ^ 61 →
        pre.length + 2 ^ 31 ≤ cfg'.maxSeek →
        ∃ fs' q' C, FontSet.read (tape cfg' (pre ++ bytes ++ post)) pre.length = (.ok fs', q') ∧
          Recoded [] (fun _ _ => []) C fs fs' ∧ ∀ cfg'' k i l out, Shows cfg'' fs' k i l out ↔ Shows cfg fs k i l out := by
  obtain ⟨C, hlen, hb, hC⟩ := free_code cfg data hdata base q fs h N (by omega) hrun
  obtain ⟨bytes, hbytes, hread⟩ := C91_file cfg data hdata base q fs h [] (fun _ _ => []) C ⟨hlen, by simp, by simp⟩ (by nlinarith)
  refine ⟨bytes, hbytes, fun cfg' pre post h1 h2 => ?_⟩
  obtain ⟨fs', q', h3, h4⟩ := hread cfg' pre post h1 h2
  exact ⟨fs', q', C, h3, h4, hC fs' h4⟩

/-- The hypotheses of `C101_fonts` are met, with subroutines that call others. -/
example : ∃ fs q, FontSet.read (tape checkedBuild nestedDef.write) 0 = (.ok fs, q) ∧
    107 * (nestedDef.write.length + 1) * (1 + fs.operations.length + FontSet.privates fs) + glyphCount fs * (10000 + 4) < 2 ^ 31 ∧
    ∀ (k i : Nat) cs, fs.characterStrings[k]? = some cs → i < cs.data.length → ∃ l out, Comes checkedBuild fs k i l out ∧
      (l.map Type2.Spec.effort).sum + 1001 ≤ 10000 := by
  obtain ⟨fs, q, cs, r, h, h0, h1, h2, h3, h4, h5⟩ := nested_read
  refine ⟨fs, q, h, ?_, ?_⟩
  · have h6 : FontSet.privates fs = 1 := by simp [FontSet.privates, privates, h4]
    have h7 : nestedDef.write.length ≤ 1000 := by decide +kernel
    have h8 : glyphCount fs = 1 := by simp [glyphCount, h2, h3]
    rw [h0, h6, h8]
    omega
  · intro k i cs' hk hi
    have hk0 : k = 0 := by
      have := (List.getElem?_eq_some_iff.mp hk).1
      rw [h2] at this
      simpa using this
    subst hk0
    rw [h2] at hk
    injection hk with hk
    subst hk
    have hi0 : i = 0 := by rw [h3] at hi; simpa using hi
    subst hi0
    exact ⟨_, _, nested_shows h1 h2 h3 h4 h5 _, by decide +kernel⟩

end PS
