import Verif.Lemmas.Recode
import Verif.Props.FlatNumbers
import Verif.Props.Limits
import Verif.Props.Renumber
import Verif.Props.Thin
/-!
# Property C91: the code of a font set can be replaced
-/
namespace PS
open Spec

/-- **C91.**  The code of a font set can be replaced: for every font set that was read from
any file, in any layout, and any new character strings for all the glyphs, any global
subroutines and any local subroutines for each private dictionary, there is a file of which
reading gives the same font set with the new code. -/
theorem C91_file (cfg : Config) (data : List UInt8) (hdata : data.length < 2 ^ 61) (base q : Nat) (fs : FontSet)
    (h : FontSet.read (tape cfg data) base = (.ok fs, q)) (G : List (List UInt8)) (L : Nat → Nat → List (List UInt8))
    (C : Nat → List (List UInt8)) (hfit : CodeFits G L C fs)
    (hsize : 100 * (data.length + 1) * (1 + fs.operations.length + FontSet.privates fs) + codeBulk G L C fs < 2 ^ 31) :
    ∃ bytes : List UInt8, bytes.length < 2 ^ 31 ∧
      ∀ (cfg' : Config) (pre post : List UInt8), (pre ++ bytes ++ post).length < 2 ^ 61 →
        pre.length + 2 ^ 31 ≤ cfg'.maxSeek →
        ∃ fs' q', FontSet.read (tape cfg' (pre ++ bytes ++ post)) pre.length = (.ok fs', q') ∧ Recoded G L C fs fs' := by
  obtain ⟨d, hin, hv, hw⟩ := def_of ((C32_layout_iff cfg data hdata base fs).mp ⟨q, h⟩)
  have hd : (Recoding.fontSet G L C d).Valid := by
    refine Recoding.valid (hv (by omega)) (fun k f hf => ?_) hfit.2.1 hfit.2.2 (by rw [Recoding.bulk_in hin]; omega)
    obtain ⟨cs, hcs, hc⟩ := forall₂_getElem? hin.2.2.2.2.1 hf
    rw [hfit.1 k cs hcs, hc]
  refine ⟨(Recoding.fontSet G L C d).write, hd.2.2.2.2.2, fun cfg' pre post h3 h4 => ?_⟩
  obtain ⟨fs', q', h5, h6⟩ := C60_round_trip hd cfg' pre post h3 h4
  exact ⟨fs', q', h5, Recoding.fontSet_in hin h6⟩

/-- If the new code of each glyph runs as the old one, all the glyphs show the same. -/
theorem recoded_shows (cfg cfg' cfg'' : Config) (data data' : List UInt8) (hdata : data.length < 2 ^ 61) (hdata' : data'.length < 2 ^ 61)
    (base base' q q' : Nat) (fs fs' : FontSet) (h : FontSet.read (tape cfg data) base = (.ok fs, q))
    (h' : FontSet.read (tape cfg' data') base' = (.ok fs', q')) (G : List (List UInt8)) (L : Nat → Nat → List (List UInt8))
    (C : Nat → List (List UInt8)) (hfit : CodeFits G L C fs) (ht : Recoded G L C fs fs') (k i : Nat)
    (x : List Type2.Spec.Observation) (out : Type2.Spec.Outcome)
    (hc : ∀ (d : Nat) cs r code code' priv, fs.characterStrings[k]? = some cs → fs.records[k]? = some r → cs.data[i]? = some code →
      (C k)[i]? = some code' → Chooses r i d → (privateList r)[d]? = some priv →
      Type2.Spec.Sound (Type2.Program.new code fs.subroutines.data priv.subroutines.data) →
      Type2.Spec.Sound (Type2.Program.new code' G (L k d)) →
      (Type2.Spec.Run cfg'' (Type2.Program.new code fs.subroutines.data priv.subroutines.data) x out ↔
        Type2.Spec.Run cfg'' (Type2.Program.new code' G (L k d)) x out)) :
    Shows cfg'' fs' k i x out ↔ Shows cfg'' fs k i x out := by
  obtain ⟨-, -, t3, -, t5, t6, -, -, t9, t10⟩ := ht
  have hlay := (C32_layout_iff cfg data hdata base fs).mp ⟨q, h⟩
  have hlay' := (C32_layout_iff cfg' data' hdata' base' fs').mp ⟨q', h'⟩
  have key : ∀ cs r cs' r' code code' d p p', fs.characterStrings[k]? = some cs → fs.records[k]? = some r → cs.data[i]? = some code →
      fs'.characterStrings[k]? = some cs' → fs'.records[k]? = some r' → cs'.data[i]? = some code' →
      Chooses r i d → (privateList r)[d]? = some p → (privateList r')[d]? = some p' → p'.subroutines.data = L k d →
      (Type2.Spec.Run cfg'' (Type2.Program.new code' fs'.subroutines.data p'.subroutines.data) x out ↔
        Type2.Spec.Run cfg'' (Type2.Program.new code fs.subroutines.data p.subroutines.data) x out) := by
    intro cs r cs' r' code code' d p p' a1 a2 a3 b1 b2 b3 c1 c2 c3 c4
    obtain ⟨u1, u2, u3⟩ := program_sound cfg data hdata base fs hlay k cs r a1 a2 code (List.mem_of_getElem? a3) _ (localOf_of_private c2)
    obtain ⟨v1, v2, v3⟩ := program_sound cfg' data' hdata' base' fs' hlay' k cs' r' b1 b2 code' (List.mem_of_getElem? b3) _ (localOf_of_private c3)
    have hs' := Type2.sound_new v1 v2 v3
    rw [t3, c4] at hs' ⊢
    exact (hc d cs r code code' p a1 a2 a3 (by rw [← t6 k cs' b1]; exact b3) c1 c2 (Type2.sound_new u1 u2 u3) hs').symm
  constructor
  · rintro ⟨cs', r', code', loc, b1, b2, b3, b4, b5⟩
    obtain ⟨d, p', c1, c3, rfl⟩ := (localFor_iff _ _ _).mp b4
    obtain ⟨cs, a1⟩ : ∃ cs, fs.characterStrings[k]? = some cs :=
      ⟨_, List.getElem?_eq_getElem (by rw [← t5]; exact (List.getElem?_eq_some_iff.mp b1).1)⟩
    obtain ⟨code, a3⟩ : ∃ code, cs.data[i]? = some code :=
      ⟨_, List.getElem?_eq_getElem (by rw [← hfit.1 k cs a1, ← t6 k cs' b1]; exact (List.getElem?_eq_some_iff.mp b3).1)⟩
    obtain ⟨r, a2⟩ : ∃ r, fs.records[k]? = some r :=
      ⟨_, List.getElem?_eq_getElem (by rw [t9]; exact (List.getElem?_eq_some_iff.mp b2).1)⟩
    obtain ⟨w1, -, w3⟩ := Recoding.new_records (t10 k r r' a2 b2)
    obtain ⟨c4, p, c2⟩ := w3 d p' c3
    have c1' := (w1 i d).mpr c1
    exact ⟨cs, r, code, p.subroutines, a1, a2, a3, (localFor_iff _ _ _).mpr ⟨d, p, c1', c2, rfl⟩,
      (key cs r cs' r' code code' d p p' a1 a2 a3 b1 b2 b3 c1' c2 c3 c4).mp b5⟩
  · rintro ⟨cs, r, code, loc, a1, a2, a3, a4, a5⟩
    obtain ⟨d, p, c1, c2, rfl⟩ := (localFor_iff _ _ _).mp a4
    obtain ⟨cs', b1⟩ : ∃ cs', fs'.characterStrings[k]? = some cs' :=
      ⟨_, List.getElem?_eq_getElem (by rw [t5]; exact (List.getElem?_eq_some_iff.mp a1).1)⟩
    obtain ⟨code', b3⟩ : ∃ code', cs'.data[i]? = some code' :=
      ⟨_, List.getElem?_eq_getElem (by rw [t6 k cs' b1, hfit.1 k cs a1]; exact (List.getElem?_eq_some_iff.mp a3).1)⟩
    obtain ⟨r', b2⟩ : ∃ r', fs'.records[k]? = some r' :=
      ⟨_, List.getElem?_eq_getElem (by rw [← t9]; exact (List.getElem?_eq_some_iff.mp a2).1)⟩
    obtain ⟨w1, w2, -⟩ := Recoding.new_records (t10 k r r' a2 b2)
    obtain ⟨p', c3, c4⟩ := w2 d p c2
    exact ⟨cs', r', code', p'.subroutines, b1, b2, b3, (localFor_iff _ _ _).mpr ⟨d, p', (w1 i d).mp c1, c3, rfl⟩,
      (key cs r cs' r' code code' d p p' a1 a2 a3 b1 b2 b3 c1 c2 c3 c4).mpr a5⟩

/-- **C91.**  If the new code is the old one but for the numbers of subroutines, all the
glyphs show the same, in any build. -/
theorem C91_renumbered (cfg cfg' cfg'' : Config) (data data' : List UInt8) (hdata : data.length < 2 ^ 61) (hdata' : data'.length < 2 ^ 61)
    (base base' q q' : Nat) (fs fs' : FontSet) (h : FontSet.read (tape cfg data) base = (.ok fs, q))
    (h' : FontSet.read (tape cfg' data') base' = (.ok fs', q')) (G : List (List UInt8)) (L : Nat → Nat → List (List UInt8))
    (C : Nat → List (List UInt8)) (hfit : CodeFits G L C fs) (ht : Recoded G L C fs fs')
    (hc : RenumberedCode cfg''.checks G L C fs)
    (k i : Nat) (x : List Type2.Spec.Observation) (out : Type2.Spec.Outcome) :
    Shows cfg'' fs' k i x out ↔ Shows cfg'' fs k i x out :=
  recoded_shows cfg cfg' cfg'' data data' hdata hdata' base base' q q' fs fs' h h' G L C hfit ht k i x out
    fun d cs r code code' priv a1 a2 a3 a4 a5 a6 hs hs' => by
      obtain ⟨m, g, l, w1, w2, w3⟩ := hc k i d cs r code code' priv a1 a2 a3 a4 a5 a6
      exact Type2.C82_failures hs hs' w1 w2 w3 x out

theorem flat_code (cfg : Config) (data : List UInt8) (hdata : data.length < 2 ^ 61) (base q : Nat) (fs : FontSet)
    (h : FontSet.read (tape cfg data) base = (.ok fs, q)) (N : Nat) (hsize : glyphCount fs * (N + 4) < 2 ^ 31)
    (hrun : ∀ (k i : Nat) cs, fs.characterStrings[k]? = some cs → i < cs.data.length → ∃ l w, Displays cfg fs k i l w ∧
      (∀ x, Type2.Spec.Shown l w x → Type2.Spec.Fixed x) ∧ (l.map Type2.Spec.bulk).sum + 6 ≤ N) :
    ∃ C : Nat → List (List UInt8), (∀ (k : Nat) cs, fs.characterStrings[k]? = some cs → (C k).length = cs.data.length) ∧
      (codeBulk [] (fun _ _ => []) C fs ≤ 7 * (1 + fs.operations.length + FontSet.privates fs) + glyphCount fs * (N + 4)) ∧
      ∀ fs', Recoded [] (fun _ _ => []) C fs fs' → Flattened fs fs' ∧
        ∀ cfg'' k i l out, Shows cfg'' fs' k i l out ↔ Shows cfg fs k i l out := by
  have hlay := (C32_layout_iff cfg data hdata base fs).mp ⟨q, h⟩
  -- the flat character strings
  have hflat : ∀ k i : Nat, ∃ bs : List UInt8, ∀ cs, fs.characterStrings[k]? = some cs → i < cs.data.length →
      bs.length ≤ N ∧ Type2.Spec.Flat 0 bs ∧ (∃ r d p, fs.records[k]? = some r ∧ Chooses r i d ∧ (privateList r)[d]? = some p) ∧
      ∃ l w, Displays cfg fs k i l w ∧ ∀ cfg', Type2.Spec.Run cfg' (Type2.Program.new bs [] []) l (.ended w) := by
    intro k i
    by_cases hk : ∃ cs, fs.characterStrings[k]? = some cs ∧ i < cs.data.length
    · obtain ⟨cs, hcs, hi⟩ := hk
      obtain ⟨l, w, h1, h2, h3⟩ := hrun k i cs hcs hi
      obtain ⟨cs', r, code, loc, a1, a2, a3, a4, a5⟩ := (h1 l (.ended w)).mpr ⟨rfl, rfl⟩
      obtain ⟨d, p, c1, c2, rfl⟩ := (localFor_iff _ _ _).mp a4
      obtain ⟨u1, u2, u3⟩ := program_sound cfg data hdata base fs hlay k cs' r a1 a2 code (List.mem_of_getElem? a3) _ (localOf_of_private c2)
      have hN : N < 2 ^ 31 := by
        have hpos : 1 ≤ glyphCount fs := by
          have : cs.data.length ≤ glyphCount fs :=
            List.single_le_sum (by simp) _ (List.mem_map_of_mem (List.mem_of_getElem? hcs))
          omega
        nlinarith
      obtain ⟨bs, b1, b2, b3⟩ := Type2.C64_flatten (Type2.sound_new u1 u2 u3) rfl rfl a5
        (fun x hx => (Type2.C64_writable x).mpr (h2 x hx)) (by omega)
      refine ⟨bs, fun cs'' hcs'' _ => ⟨by omega, b1, ⟨r, d, p, a2, c1, c2⟩, l, w, h1, fun cfg' => b3 cfg' [] [] (by simp) (by simp)⟩⟩
    · exact ⟨[], fun cs hcs hi => absurd ⟨cs, hcs, hi⟩ hk⟩
  choose F hF using hflat
  have hget : ∀ (k : Nat) cs, fs.characterStrings[k]? = some cs → (fs.characterStrings[k]?.map fun cs => cs.data.length).getD 0 = cs.data.length := by
    intro k cs hcs
    rw [hcs]; rfl
  set C : Nat → List (List UInt8) := fun k =>
    (List.range ((fs.characterStrings[k]?.map fun cs => cs.data.length).getD 0)).map (F k) with hC
  have hlen : ∀ (k : Nat) cs, fs.characterStrings[k]? = some cs → (C k).length = cs.data.length := by
    intro k cs hcs
    rw [hC, List.length_map, List.length_range, hget k cs hcs]
  have hmem : ∀ (k : Nat) cs, fs.characterStrings[k]? = some cs → ∀ c ∈ C k, ∃ i, i < cs.data.length ∧ c = F k i := by
    intro k cs hcs c hc
    rw [hC] at hc
    obtain ⟨i, hi, rfl⟩ := List.mem_map.mp hc
    rw [hget k cs hcs, List.mem_range] at hi
    exact ⟨i, hi, rfl⟩
  have hrec : fs.records.length = fs.characterStrings.length := by
    obtain ⟨d, hin, -, -⟩ := def_of hlay
    rw [← hin.2.2.2.2.2.2.2.length_eq, ← hin.2.2.2.2.1.length_eq]
  have hops : fs.records.length = fs.operations.length := by
    obtain ⟨d, hin, -, -⟩ := def_of hlay
    rw [← hin.2.2.2.2.2.2.2.length_eq, ← hin.2.2.2.1.length_eq]
  have hb := Recoding.flat_bulk (N := N) (C := C) hrec fun k cs hcs => ⟨hlen k cs hcs, fun c hc => by
    obtain ⟨i, hi, rfl⟩ := hmem k cs hcs c hc
    exact (hF k i cs hcs hi).1⟩
  rw [hops] at hb
  refine ⟨C, hlen, hb, fun fs' h4 => ⟨⟨C, h4, hlen, ?_⟩, ?_⟩⟩
  · intro k hk code hcode
    obtain ⟨i, hi, rfl⟩ := hmem k _ (List.getElem?_eq_getElem hk) code hcode
    exact (hF k i _ (List.getElem?_eq_getElem hk) hi).2.1
  · intro cfg'' k i l out
    obtain ⟨-, -, t3, -, t5, t6, -, -, t9, t10⟩ := h4
    by_cases hk : ∃ cs, fs.characterStrings[k]? = some cs ∧ i < cs.data.length
    · obtain ⟨cs, hcs, hi⟩ := hk
      obtain ⟨-, -, ⟨r, d, p, a2, c1, c2⟩, l0, w, b1, b2⟩ := hF k i cs hcs hi
      rw [b1 l out]
      have hCk : (C k)[i]? = some (F k i) := by
        rw [hC]
        simp only [List.getElem?_map]
        rw [hget k cs hcs, List.getElem?_range hi]
        rfl
      constructor
      · rintro ⟨cs', r', code', loc, e1, e2, e3, e4, e5⟩
        obtain ⟨d', p', f1, f2, rfl⟩ := (localFor_iff _ _ _).mp e4
        obtain ⟨-, -, w3⟩ := Recoding.new_records (t10 k r r' a2 e2)
        rw [t6 k cs' e1, hCk] at e3
        injection e3 with e3
        rw [t3, (w3 d' p' f2).1, ← e3] at e5
        exact Type2.run_unique e5 (b2 cfg'')
      · rintro ⟨rfl, rfl⟩
        obtain ⟨r', e2⟩ : ∃ r', fs'.records[k]? = some r' :=
          ⟨_, List.getElem?_eq_getElem (by rw [← t9]; exact (List.getElem?_eq_some_iff.mp a2).1)⟩
        obtain ⟨cs', e1⟩ : ∃ cs', fs'.characterStrings[k]? = some cs' :=
          ⟨_, List.getElem?_eq_getElem (by rw [t5]; exact (List.getElem?_eq_some_iff.mp hcs).1)⟩
        obtain ⟨w1, w2, -⟩ := Recoding.new_records (t10 k r r' a2 e2)
        obtain ⟨p', c3, c4⟩ := w2 d p c2
        refine ⟨cs', r', F k i, p'.subroutines, e1, e2, by rw [t6 k cs' e1]; exact hCk,
          (localFor_iff _ _ _).mpr ⟨d, p', (w1 i d).mp c1, c3, rfl⟩, ?_⟩
        rw [t3, c4]
        exact b2 cfg''
    · constructor
      · rintro ⟨cs', r', code', loc, e1, e2, e3, -, -⟩
        refine absurd ?_ hk
        have hk' : k < fs.characterStrings.length := by rw [← t5]; exact (List.getElem?_eq_some_iff.mp e1).1
        refine ⟨_, List.getElem?_eq_getElem hk', ?_⟩
        rw [← hlen k _ (List.getElem?_eq_getElem hk'), ← t6 k cs' e1]
        exact (List.getElem?_eq_some_iff.mp e3).1
      · rintro ⟨cs', r', code', loc, e1, e2, e3, -, -⟩
        exact absurd ⟨cs', e1, (List.getElem?_eq_some_iff.mp e3).1⟩ hk

/-- **C91.**  A font set can be freed of subroutines: if all its glyphs run to their ends, and
all the numbers they show are multiples of 2^-16 in the range of operands, there is a file of
which reading gives the same font set with flat character strings and no subroutines, and
all the glyphs show the same, in any build.  `N` is a bound for the size of a flat glyph. -/
theorem C91_flat (cfg : Config) (data : List UInt8) (hdata : data.length < 2 ^ 61) (base q : Nat) (fs : FontSet)
    (h : FontSet.read (tape cfg data) base = (.ok fs, q)) (N : Nat)
    (hsize : 107 * (data.length + 1) * (1 + fs.operations.length + FontSet.privates fs) + glyphCount fs * (N + 4) < 2 ^ 31)
    (hrun : ∀ (k i : Nat) cs, fs.characterStrings[k]? = some cs → i < cs.data.length → ∃ l w, Displays cfg fs k i l w ∧
      (∀ x, Type2.Spec.Shown l w x → Type2.Spec.Fixed x) ∧ (l.map Type2.Spec.bulk).sum + 6 ≤ N) :
    ∃ bytes : List UInt8, bytes.length < 2 ^ 31 ∧
      ∀ (cfg' : Config) (pre post : List UInt8), (pre ++ bytes ++ post).length < 2 ^ 61 →
        pre.length + 2 ^ 31 ≤ cfg'.maxSeek →
        ∃ fs' q', FontSet.read (tape cfg' (pre ++ bytes ++ post)) pre.length = (.ok fs', q') ∧ Flattened fs fs' ∧
          ∀ cfg'' k i l out, Shows cfg'' fs' k i l out ↔ Shows cfg fs k i l out := by
  obtain ⟨C, hlen, hb, hC⟩ := flat_code cfg data hdata base q fs h N (by omega) hrun
  obtain ⟨bytes, hbytes, hread⟩ := C91_file cfg data hdata base q fs h [] (fun _ _ => []) C ⟨hlen, by simp, by simp⟩ (by nlinarith)
  refine ⟨bytes, hbytes, fun cfg' pre post h1 h2 => ?_⟩
  obtain ⟨fs', q', h3, h4⟩ := hread cfg' pre post h1 h2
  exact ⟨fs', q', h3, (hC fs' h4).1, (hC fs' h4).2⟩

/-- **C91.**  And only then: the glyphs of a flat font show no other numbers. -/
theorem C91_flat_only (cfg cfg' : Config) (data' : List UInt8) (hdata' : data'.length < 2 ^ 61)
    (base' q' : Nat) (fs fs' : FontSet) (h' : FontSet.read (tape cfg' data') base' = (.ok fs', q')) (hf : Flattened fs fs')
    (k i : Nat) (l : List Type2.Spec.Observation) (w : Option F32) (hs : Shows cfg fs' k i l (.ended w)) :
    ∀ x, Type2.Spec.Shown l w x → Type2.Spec.Fixed x := by
  obtain ⟨C, ⟨-, -, t3, -, t5, t6, -, -, t9, t10⟩, -, hflat⟩ := hf
  obtain ⟨cs', r', code', loc, e1, e2, e3, e4, e5⟩ := hs
  obtain ⟨d', p', f1, f2, rfl⟩ := (localFor_iff _ _ _).mp e4
  have hlay' := (C32_layout_iff cfg' data' hdata' base' fs').mp ⟨q', h'⟩
  obtain ⟨v1, v2, v3⟩ := program_sound cfg' data' hdata' base' fs' hlay' k cs' r' e1 e2 code' (List.mem_of_getElem? e3) _ (localOf_of_private f2)
  have hk : k < fs.characterStrings.length := by rw [← t5]; exact (List.getElem?_eq_some_iff.mp e1).1
  have hc : Type2.Spec.Flat 0 code' := hflat k hk code' (by rw [← t6 k cs' e1]; exact List.mem_of_getElem? e3)
  intro x hx
  exact (Type2.C64_writable x).mp (Type2.C64_only hc v1 v2 v3 e5 x hx)

/-- **C91.**  In particular, a font set of which the glyphs run to their ends without
arithmetic can be freed of subroutines, however they are nested. -/
theorem C91_plain (cfg : Config) (data : List UInt8) (hdata : data.length < 2 ^ 61) (base q : Nat) (fs : FontSet)
    (h : FontSet.read (tape cfg data) base = (.ok fs, q)) (N : Nat)
    (hsize : 107 * (data.length + 1) * (1 + fs.operations.length + FontSet.privates fs) + glyphCount fs * (N + 4) < 2 ^ 31)
    (he : Escapeless fs)
    (hrun : ∀ (k i : Nat) cs, fs.characterStrings[k]? = some cs → i < cs.data.length → ∃ l w, Displays cfg fs k i l w ∧
      (l.map Type2.Spec.bulk).sum + 6 ≤ N) :
    ∃ bytes : List UInt8, bytes.length < 2 ^ 31 ∧
      ∀ (cfg' : Config) (pre post : List UInt8), (pre ++ bytes ++ post).length < 2 ^ 61 →
        pre.length + 2 ^ 31 ≤ cfg'.maxSeek →
        ∃ fs' q', FontSet.read (tape cfg' (pre ++ bytes ++ post)) pre.length = (.ok fs', q') ∧ Flattened fs fs' ∧
          ∀ cfg'' k i l out, Shows cfg'' fs' k i l out ↔ Shows cfg fs k i l out := by
  refine C91_flat cfg data hdata base q fs h N hsize fun k i cs hcs hi => ?_
  obtain ⟨l, w, h1, h2⟩ := hrun k i cs hcs hi
  refine ⟨l, w, h1, fun x hx => ?_, h2⟩
  obtain ⟨cs', r, code, loc, a1, a2, a3, a4, a5⟩ := (h1 l (.ended w)).mpr ⟨rfl, rfl⟩
  obtain ⟨d, p, c1, c2, rfl⟩ := (localFor_iff _ _ _).mp a4
  obtain ⟨u1, u2, u3⟩ := program_sound cfg data hdata base fs ((C32_layout_iff cfg data hdata base fs).mp ⟨q, h⟩) k cs' r a1 a2 code
    (List.mem_of_getElem? a3) _ (localOf_of_private c2)
  refine (Type2.C64_writable x).mp (Type2.simple_run a5 rfl (Type2.sound_new u1 u2 u3) ⟨?_, ?_, ?_⟩ x hx)
  · intro c hc
    have hc' : c = code ∨ c ∈ fs.subroutines.data ∨ c ∈ p.subroutines.data := by
      simpa [Type2.Spec.view, Type2.Program.new, Type2.Spec.left, Type2.Routine.new] using hc
    rcases hc' with rfl | hc | hc
    · exact he.2.1 cs' (List.mem_of_getElem? a1) c (List.mem_of_getElem? a3)
    · exact he.1 c hc
    · exact he.2.2 r (List.mem_of_getElem? a2) p (List.mem_of_getElem? c2) c hc
  · simp [Type2.Spec.view, Type2.Program.new]
  · simp [Type2.Spec.view, Type2.Program.new]

/-! ## A font with two subroutines -/

/-- A font with the one glyph `-107 callsubr endchar`, and two local subroutines of which the
first one calls the second one twice. -/
def nestedDef : FontSetDef where
  names := [[65]]
  strings := []
  globals := []
  fonts := [
    { entries := ⟨[], []⟩
      codes := [[32, 10, 14]]
      set := .isoAdobe
      encoding := .standard
      keying := .names ⟨⟨[], []⟩, Type2.drawing 1⟩ }]

theorem nestedDef_valid : nestedDef.Valid := by
  have fits : ∀ {items : List (List UInt8)}, items.length ≤ 65535 → 1 + items.flatten.length < 2 ^ 32 → IndexFits 4 items :=
    fun h1 h2 => ⟨h1, by omega, by omega, h2⟩
  refine ⟨fits (by decide) (by decide), fits (by decide) (by decide), fits (by decide) (by decide), by decide, ?_, by decide +kernel⟩
  intro f hf
  simp only [nestedDef, List.mem_cons, List.not_mem_nil, or_false] at hf
  subst hf
  exact ⟨⟨.nil, by decide⟩, fits (by decide) (by decide), .inl (.inl rfl), .inl (.inl rfl),
    ⟨.nil, by decide⟩, fits (by decide +kernel) (by decide +kernel)⟩

theorem nested_read : ∃ fs q cs r, FontSet.read (tape checkedBuild nestedDef.write) 0 = (.ok fs, q) ∧ fs.operations.length = 1 ∧
    fs.subroutines.data = [] ∧ fs.characterStrings = [cs] ∧ cs.data = [[32, 10, 14]] ∧ fs.records = [.characterNameKeyed r] ∧
    r.subroutines.data = Type2.drawing 1 := by
  obtain ⟨fs, q, h, hin⟩ := C60_round_trip nestedDef_valid checkedBuild [] [] (by decide +kernel) (by decide)
  rw [List.nil_append, List.append_nil] at h
  obtain ⟨-, -, i3, i4, i5, -, -, i8⟩ := hin
  have hr : ∃ r, fs.records = [.characterNameKeyed r] ∧ r.subroutines.data = Type2.drawing 1 := by
    generalize fs.records = rs at i8
    simp only [nestedDef] at i8
    cases i8 with
    | @cons _ r _ rs a b =>
      cases b
      cases r with
      | characterIDKeyed r => exact a.elim
      | characterNameKeyed r => exact ⟨r, rfl, a.2⟩
  obtain ⟨r, hr, hl⟩ := hr
  have hc : ∃ cs, fs.characterStrings = [cs] ∧ cs.data = [[32, 10, 14]] := by
    generalize fs.characterStrings = cs at i5
    simp only [nestedDef] at i5
    cases i5 with
    | @cons _ c _ cs a b =>
      cases b
      exact ⟨c, rfl, a⟩
  obtain ⟨cs, hc, hd⟩ := hc
  exact ⟨fs, q, cs, r, h, i4.length_eq.symm, i3, hc, hd, hr, hl⟩

theorem nested_shows {fs : FontSet} {cs : Index} {r : PrivateRecord} (h1 : fs.subroutines.data = [])
    (h2 : fs.characterStrings = [cs]) (h3 : cs.data = [[32, 10, 14]]) (h4 : fs.records = [.characterNameKeyed r])
    (h5 : r.subroutines.data = Type2.drawing 1) (cfg : Config) : Displays cfg fs 0 0 [Type2.moved, Type2.moved] none := by
  have hrun := (Type2.C75_exponential cfg (n := 1) (by decide)).2
  intro l out
  constructor
  · rintro ⟨cs', r', code, loc, a1, a2, a3, a4, a5⟩
    rw [h2] at a1
    rw [h4] at a2
    injection a1 with a1
    injection a2 with a2
    subst a1 a2
    rw [h3] at a3
    injection a3 with a3
    subst a3
    obtain rfl : loc = r.subroutines := a4
    rw [h1, h5] at a5
    exact Type2.run_unique a5 hrun
  · rintro ⟨rfl, rfl⟩
    refine ⟨cs, .characterNameKeyed r, [32, 10, 14], r.subroutines, by rw [h2]; rfl, by rw [h4]; rfl, by rw [h3]; rfl, rfl, ?_⟩
    rw [h1, h5]
    exact hrun

/-- The hypotheses of `C91_flat` and `C91_plain` are met, with subroutines that call others. -/
example : ∃ fs q, FontSet.read (tape checkedBuild nestedDef.write) 0 = (.ok fs, q) ∧ Escapeless fs ∧
    107 * (nestedDef.write.length + 1) * (1 + fs.operations.length + FontSet.privates fs) + glyphCount fs * (56 + 4) < 2 ^ 31 ∧
    ∀ (k i : Nat) cs, fs.characterStrings[k]? = some cs → i < cs.data.length → ∃ l w, Displays checkedBuild fs k i l w ∧
      (∀ x, Type2.Spec.Shown l w x → Type2.Spec.Fixed x) ∧ (l.map Type2.Spec.bulk).sum + 6 ≤ 56 := by
  obtain ⟨fs, q, cs, r, h, h0, h1, h2, h3, h4, h5⟩ := nested_read
  refine ⟨fs, q, h, ⟨by simp [h1], ?_, ?_⟩, ?_, ?_⟩
  · rw [h2]
    simp only [List.mem_cons, List.not_mem_nil, or_false, forall_eq]
    rw [h3]
    decide
  · rw [h4]
    simp only [List.mem_cons, List.not_mem_nil, or_false, forall_eq, privateList]
    rw [h5]
    decide +kernel
  · have h6 : FontSet.privates fs = 1 := by simp [FontSet.privates, privates, h4]
    have h7 : nestedDef.write.length ≤ 1000 := by decide +kernel
    have h8 : glyphCount fs = 1 := by simp [glyphCount, h2, h3]
    rw [h0, h6, h8]
    omega
  · intro k i cs' hk hi
    have hk0 : k = 0 := by
      have := (List.getElem?_eq_some_iff.mp hk).1
      rw [h2] at this
      simpa using this
    subst hk0
    rw [h2] at hk
    injection hk with hk
    subst hk
    have hi0 : i = 0 := by rw [h3] at hi; simpa using hi
    subst hi0
    refine ⟨_, _, nested_shows h1 h2 h3 h4 h5 _, ?_, by decide +kernel⟩
    rintro x (⟨o, ho, hx⟩ | hx)
    · have : o = Type2.moved := by simpa using ho
      subst this
      have : x = F32.ofInt 0 := by simpa [Type2.moved] using hx
      subst this
      exact (Type2.C64_writable _).mp ⟨[139], Type2.operand_byte 139 (by decide) (by decide)⟩
    · simp at hx

/-- The subroutines are exchanged. -/
def exchanged : List (List UInt8) := [[139, 22, 11], [32, 10, 32, 10, 11]]

/-- The hypotheses of `C91_file` and `C91_renumbered` are met. -/
example : ∃ fs q, FontSet.read (tape checkedBuild nestedDef.write) 0 = (.ok fs, q) ∧
    CodeFits [] (fun _ _ => exchanged) (fun _ => [[33, 10, 14]]) fs ∧
    100 * (nestedDef.write.length + 1) * (1 + fs.operations.length + FontSet.privates fs) +
      codeBulk [] (fun _ _ => exchanged) (fun _ => [[33, 10, 14]]) fs < 2 ^ 31 ∧
    ∀ checks, RenumberedCode checks [] (fun _ _ => exchanged) (fun _ => [[33, 10, 14]]) fs := by
  obtain ⟨fs, q, cs, r, h, h0, h1, h2, h3, h4, h5⟩ := nested_read
  refine ⟨fs, q, h, ⟨?_, by simp, by simp [exchanged]⟩, ?_, ?_⟩
  · intro k cs' hk
    rw [h2] at hk
    have : cs' = cs := by simpa using List.mem_of_getElem? hk
    rw [this, h3]
    rfl
  · have h6 : FontSet.privates fs = 1 := by simp [FontSet.privates, privates, h4]
    have h7 : nestedDef.write.length ≤ 1000 := by decide +kernel
    have h8 : codeBulk [] (fun _ _ => exchanged) (fun _ => [[33, 10, 14]]) fs ≤ 1000 := by
      unfold codeBulk
      rw [h4]
      simp [privateList, indexBulk, exchanged]
    rw [h0, h6]
    omega
  · intro checks k i d cs' r' code code' priv a1 a2 a3 a4 a5 a6
    have hk : k = 0 := by
      have := (List.getElem?_eq_some_iff.mp a1).1
      rw [h2] at this
      simpa using this
    subst hk
    rw [h2] at a1
    rw [h4] at a2
    injection a1 with a1
    injection a2 with a2
    subst a1 a2
    have hi : i = 0 := by
      have := (List.getElem?_eq_some_iff.mp a4).1
      simpa using this
    subst hi
    rw [h3] at a3
    injection a3 with a3
    injection a4 with a4
    obtain rfl : d = 0 := a5
    injection a6 with a6
    subst a3 a4 a6
    rw [h1, h5]
    have h139 : Type2.Spec.Operand (F32.ofInt 0) [139] := Type2.operand_byte 139 (by decide) (by decide)
    have hd : Type2.drawing 1 = [[33, 10, 33, 10, 11], [139, 22, 11]] := by decide +kernel
    have z := Type2.swapped_zero
    refine ⟨0, fun _ _ => False, fun i j => i + j = 1, ?_, ?_, ?_⟩
    · intro R hR i j hij
      simp only [List.mem_cons, List.not_mem_nil, or_false] at hR
      rcases hR with rfl | rfl
      · exact absurd hij id
      · have hij : i + j = 1 := hij
        rcases (by omega : i = 0 ∧ j = 1 ∨ i = 1 ∧ j = 0) with ⟨rfl, rfl⟩ | ⟨rfl, rfl⟩
        · refine ⟨[33, 10, 33, 10, 11], [32, 10, 32, 10, 11], by rw [hd]; rfl, rfl, ?_⟩
          rw [hd]
          exact .callLocal (b := [33]) (b' := [32]) (i := 1) (j := 0) z.2.2.1 z.1 rfl
            (.callLocal (b := [33]) (b' := [32]) (i := 1) (j := 0) z.2.2.1 z.1 rfl
              (.operator (op := .opReturn) (by decide) (by decide) (by decide) .nil))
        · refine ⟨[139, 22, 11], [139, 22, 11], by rw [hd]; rfl, rfl, ?_⟩
          exact .operand h139 h139 (.operator (op := .opHMoveTo) (by decide) (by decide) (by decide)
            (.operator (op := .opReturn) (by decide) (by decide) (by decide) .nil))
    · rw [hd]
      exact .callLocal (b := [32]) (b' := [33]) (i := 0) (j := 1) z.1 z.2.2.1 rfl
        (.operator (op := .opEndChar) (by decide) (by decide) (by decide) .nil)
    · refine Type2.maskless_masks (fun c hc => ?_) 0
      have hc : c = [32, 10, 14] ∨ c ∈ Type2.drawing 1 := by
        simpa [Type2.Spec.view, Type2.Spec.left, Type2.Program.new, Type2.Routine.new] using hc
      rw [hd] at hc
      simp only [List.mem_cons, List.not_mem_nil, or_false] at hc
      rcases hc with rfl | rfl | rfl <;> decide

end PS
