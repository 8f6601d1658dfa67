import Verif.Props.ShowableFonts
import Verif.Spec.Drawings
/-!
# Property C102: any drawings as glyphs
-/
namespace PS
open PS.Spec

theorem draw_code (D : Nat → Nat → List Type2.Spec.Observation × Type2.Spec.Outcome) (cfg : Config) (data : List UInt8) (hdata : data.length < 2 ^ 61) (base q : Nat) (fs : FontSet)
    (h : FontSet.read (tape cfg data) base = (.ok fs, q)) (N : Nat) (hsize : glyphCount fs * (N + 4) < 2 ^ 31)
    (hD : ∀ k i, Present fs k i → Drawable (D k i).1 (D k i).2 ∧ ((D k i).1.map Type2.Spec.effort).sum + 1001 ≤ N) :
    ∃ C : Nat → List (List UInt8), (∀ (k : Nat) cs, fs.characterStrings[k]? = some cs → (C k).length = cs.data.length) ∧
      (codeBulk [] (fun _ _ => []) C fs ≤ 7 * (1 + fs.operations.length + FontSet.privates fs) + glyphCount fs * (N + 4)) ∧
      ∀ fs', Recoded [] (fun _ _ => []) C fs fs' →
        ∀ cfg'' k i, Present fs k i → Comes cfg'' fs' k i (D k i).1 (D k i).2 := by
  have hlay := (C32_layout_iff cfg data hdata base fs).mp ⟨q, h⟩
  -- the new character strings
  have hnew : ∀ k i : Nat, ∃ bs : List UInt8, bs.length ≤ N ∧
      (Present fs k i → ∀ cfg', Type2.Spec.Run cfg' (Type2.Program.new bs [] []) (D k i).1 (D k i).2) := by
    intro k i
    by_cases hk : Present fs k i
    · obtain ⟨⟨w, d1, d2, d3⟩, d4⟩ := hD k i hk
      obtain ⟨cs, r, loc, hcs, hi, -, -⟩ := hk
      have hN : N < 2 ^ 31 := by
        have hpos : 1 ≤ glyphCount fs := by
          have : cs.data.length ≤ glyphCount fs :=
            List.single_le_sum (by simp) _ (List.mem_map_of_mem (List.mem_of_getElem? hcs))
          omega
        nlinarith
      obtain ⟨bs, b1, b2⟩ := Type2.C101_can d2 d3 (by omega) d1
      exact ⟨bs, by omega, fun _ cfg' => b2 cfg' [] [] (by simp) (by simp)⟩
    · exact ⟨[], Nat.zero_le _, fun h => absurd h hk⟩
  choose F hF using hnew
  have hget : ∀ (k : Nat) cs, fs.characterStrings[k]? = some cs → (fs.characterStrings[k]?.map fun cs => cs.data.length).getD 0 = cs.data.length := by
    intro k cs hcs
    rw [hcs]; rfl
  set C : Nat → List (List UInt8) := fun k =>
    (List.range ((fs.characterStrings[k]?.map fun cs => cs.data.length).getD 0)).map (F k) with hC
  have hlen : ∀ (k : Nat) cs, fs.characterStrings[k]? = some cs → (C k).length = cs.data.length := by
    intro k cs hcs
    rw [hC, List.length_map, List.length_range, hget k cs hcs]
  have hmem : ∀ (k : Nat) cs, fs.characterStrings[k]? = some cs → ∀ c ∈ C k, ∃ i, i < cs.data.length ∧ c = F k i := by
    intro k cs hcs c hc
    rw [hC] at hc
    obtain ⟨i, hi, rfl⟩ := List.mem_map.mp hc
    rw [hget k cs hcs, List.mem_range] at hi
    exact ⟨i, hi, rfl⟩
  have hrec : fs.records.length = fs.characterStrings.length := by
    obtain ⟨d, hin, -, -⟩ := def_of hlay
    rw [← hin.2.2.2.2.2.2.2.length_eq, ← hin.2.2.2.2.1.length_eq]
  have hops : fs.records.length = fs.operations.length := by
    obtain ⟨d, hin, -, -⟩ := def_of hlay
    rw [← hin.2.2.2.2.2.2.2.length_eq, ← hin.2.2.2.1.length_eq]
  have hb := Recoding.flat_bulk (N := N) (C := C) hrec fun k cs hcs => ⟨hlen k cs hcs, fun c hc => by
    obtain ⟨i, hi, rfl⟩ := hmem k cs hcs c hc
    exact (hF k i).1⟩
  rw [hops] at hb
  refine ⟨C, hlen, hb, fun fs' h4 => ?_⟩
  · intro cfg'' k i hp l out
    have b2 := (hF k i).2 hp
    obtain ⟨cs, r, loc, hcs, hi, a2, a4⟩ := hp
    obtain ⟨d, p, c1, c2, rfl⟩ := (localFor_iff _ _ _).mp a4
    obtain ⟨-, -, t3, -, t5, t6, -, -, t9, t10⟩ := h4
    have hCk : (C k)[i]? = some (F k i) := by
      rw [hC]
      simp only [List.getElem?_map]
      rw [hget k cs hcs, List.getElem?_range hi]
      rfl
    constructor
    · rintro ⟨cs', r', code', loc, e1, e2, e3, e4, e5⟩
      obtain ⟨d', p', f1, f2, rfl⟩ := (localFor_iff _ _ _).mp e4
      obtain ⟨-, -, w3⟩ := Recoding.new_records (t10 k r r' a2 e2)
      rw [t6 k cs' e1, hCk] at e3
      injection e3 with e3
      rw [t3, (w3 d' p' f2).1, ← e3] at e5
      exact Type2.run_unique e5 (b2 cfg'')
    · rintro ⟨rfl, rfl⟩
      obtain ⟨r', e2⟩ : ∃ r', fs'.records[k]? = some r' :=
        ⟨_, List.getElem?_eq_getElem (by rw [← t9]; exact (List.getElem?_eq_some_iff.mp a2).1)⟩
      obtain ⟨cs', e1⟩ : ∃ cs', fs'.characterStrings[k]? = some cs' :=
        ⟨_, List.getElem?_eq_getElem (by rw [t5]; exact (List.getElem?_eq_some_iff.mp hcs).1)⟩
      obtain ⟨w1, w2, -⟩ := Recoding.new_records (t10 k r r' a2 e2)
      obtain ⟨p', c3, c4⟩ := w2 d p c2
      refine ⟨cs', r', F k i, p'.subroutines, e1, e2, by rw [t6 k cs' e1]; exact hCk,
        (localFor_iff _ _ _).mpr ⟨d, p', (w1 i d).mp c1, c3, rfl⟩, ?_⟩
      rw [t3, c4]
      exact b2 cfg''

/-- **C102.**  The glyphs of a font set that was read can be exchanged for any drawings `D k i` that are in
order: there is a file of which reading gives the same font set but for the code, and in which the glyph `i` of
the font `k` shows `D k i`, in any build, and nothing else.  `N` is a bound for the size of a glyph. -/
theorem C102_draw (cfg : Config) (data : List UInt8) (hdata : data.length < 2 ^ 61) (base q : Nat) (fs : FontSet)
    (h : FontSet.read (tape cfg data) base = (.ok fs, q)) (N : Nat)
    (hsize : 107 * (data.length + 1) * (1 + fs.operations.length + FontSet.privates fs) + glyphCount fs * (N + 4) < 2 ^ 31)
    (D : Nat → Nat → List Type2.Spec.Observation × Type2.Spec.Outcome)
    (hD : ∀ k i, Present fs k i → Drawable (D k i).1 (D k i).2 ∧ ((D k i).1.map Type2.Spec.effort).sum + 1001 ≤ N) :
    ∃ bytes : List UInt8, bytes.length < 2 ^ 31 ∧
      ∀ (cfg' : Config) (pre post : List UInt8), (pre ++ bytes ++ post).length < 2 ^ 61 →
        pre.length + 2 ^ 31 ≤ cfg'.maxSeek →
        ∃ fs' q' C, FontSet.read (tape cfg' (pre ++ bytes ++ post)) pre.length = (.ok fs', q') ∧
          Recoded [] (fun _ _ => []) C fs fs' ∧ ∀ cfg'' k i, Present fs k i → Comes cfg'' fs' k i (D k i).1 (D k i).2 := by
  obtain ⟨C, hlen, hb, hC⟩ := draw_code D cfg data hdata base q fs h N (by omega) hD
  obtain ⟨bytes, hbytes, hread⟩ := C91_file cfg data hdata base q fs h [] (fun _ _ => []) C ⟨hlen, by simp, by simp⟩ (by nlinarith)
  refine ⟨bytes, hbytes, fun cfg' pre post h1 h2 => ?_⟩
  obtain ⟨fs', q', h3, h4⟩ := hread cfg' pre post h1 h2
  exact ⟨fs', q', C, h3, h4, hC fs' h4⟩

/-- **C102.**  And all glyphs of all font sets that were read are such drawings. -/
theorem C102_drawn (cfg : Config) (data : List UInt8) (hdata : data.length < 2 ^ 61) (base q : Nat) (fs : FontSet)
    (h : FontSet.read (tape cfg data) base = (.ok fs, q)) (cfg' : Config) (k i : Nat) (l : List Type2.Spec.Observation)
    (out : Type2.Spec.Outcome) (hs : Shows cfg' fs k i l out) : Present fs k i ∧ Drawable l out := by
  obtain ⟨cs, r, code, loc, a1, a2, a3, a4, a5⟩ := hs
  refine ⟨⟨cs, r, loc, a1, (List.getElem?_eq_some_iff.mp a3).1, a2, a4⟩, ?_⟩
  obtain ⟨d, p, c1, c2, rfl⟩ := (localFor_iff _ _ _).mp a4
  obtain ⟨u1, u2, u3⟩ := program_sound cfg data hdata base fs ((C32_layout_iff cfg data hdata base fs).mp ⟨q, h⟩) k cs r a1 a2 code
    (List.mem_of_getElem? a3) _ (localOf_of_private c2)
  exact Type2.C101_only u1 u2 u3 a5

/-- The hypotheses of `C102_draw` are met: the glyph of `nestedDef` can be exchanged for the oddities of
`Type2.oddities`, and for an error after them. -/
example : ∃ fs q, FontSet.read (tape checkedBuild nestedDef.write) 0 = (.ok fs, q) ∧ Present fs 0 0 ∧
    107 * (nestedDef.write.length + 1) * (1 + fs.operations.length + FontSet.privates fs) + glyphCount fs * (40000 + 4) < 2 ^ 31 ∧
    ∀ out, out = .ended (some .nan) ∨ out = .failed →
      Drawable Type2.oddities out ∧ (Type2.oddities.map Type2.Spec.effort).sum + 1001 ≤ 40000 := by
  obtain ⟨fs, q, cs, r, h, h0, h1, h2, h3, h4, h5⟩ := nested_read
  refine ⟨fs, q, h, ⟨cs, .characterNameKeyed r, r.subroutines, by rw [h2]; rfl, by rw [h3]; decide, by rw [h4]; rfl, rfl⟩, ?_, ?_⟩
  · have h6 : FontSet.privates fs = 1 := by simp [FontSet.privates, privates, h4]
    have h7 : nestedDef.write.length ≤ 1000 := by decide +kernel
    have h8 : glyphCount fs = 1 := by simp [glyphCount, h2, h3]
    rw [h0, h6, h8]
    omega
  · exact fun out ho => ⟨⟨_, ho, Type2.oddities_showable.1, Type2.oddities_showable.2.1⟩, by decide⟩

end PS
