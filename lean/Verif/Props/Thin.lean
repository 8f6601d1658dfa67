import Verif.Lemmas.Thin
import Verif.Props.Subset
import Verif.Props.Uncalled
/-!
# Property C84, for font sets: subroutines that are never called
-/
namespace PS
open Spec

/-! ## C84 -/

/-- **C84.**  Subroutines that are not called can be taken out of a font set: for every font
set that was read from any file, in any layout, and every choice of subroutines that has all
those that glyphs call, there is a file of which reading gives the same font set, but with
only the chosen subroutines. -/
theorem C84_file (cfg : Config) (data : List UInt8) (hdata : data.length < 2 ^ 61) (base q : Nat) (fs : FontSet)
    (h : FontSet.read (tape cfg data) base = (.ok fs, q))
    (hsize : 100 * (data.length + 1) * (1 + fs.operations.length + FontSet.privates fs) < 2 ^ 31)
    (G : Nat → Prop) (L : Nat → Nat → Nat → Prop) :
    ∃ bytes : List UInt8, bytes.length < 2 ^ 31 ∧
      ∀ (cfg' : Config) (pre post : List UInt8), (pre ++ bytes ++ post).length < 2 ^ 61 →
        pre.length + 2 ^ 31 ≤ cfg'.maxSeek →
        ∃ fs' q', FontSet.read (tape cfg' (pre ++ bytes ++ post)) pre.length = (.ok fs', q') ∧ Thinned G L fs fs' := by
  obtain ⟨d, hin, hv, hw⟩ := def_of ((C32_layout_iff cfg data hdata base fs).mp ⟨q, h⟩)
  have hd := thin_valid (G := G) (L := L) (hv (by omega))
  refine ⟨(d.thin G L).write, hd.2.2.2.2.2, fun cfg' pre post h3 h4 => ?_⟩
  obtain ⟨fs', q', h5, h6⟩ := C60_round_trip hd cfg' pre post h3 h4
  exact ⟨fs', q', h5, thin_in hin h6⟩

/-- **C84.**  And every glyph shows the same with them, in any build. -/
theorem C84_glyphs (cfg cfg' cfg'' : Config) (data data' : List UInt8) (hdata : data.length < 2 ^ 61) (hdata' : data'.length < 2 ^ 61)
    (base base' q q' : Nat) (fs fs' : FontSet) (h : FontSet.read (tape cfg data) base = (.ok fs, q))
    (h' : FontSet.read (tape cfg' data') base' = (.ok fs', q')) (G : Nat → Prop) (L : Nat → Nat → Nat → Prop)
    (hc : CoversCalls G L fs) (ht : Thinned G L fs fs') (k g : Nat) (l : List Type2.Spec.Observation) (out : Type2.Spec.Outcome) :
    Shows cfg'' fs' k g l out ↔ Shows cfg'' fs k g l out := by
  obtain ⟨-, -, t3, -, t5, -, -, t8, t9⟩ := ht
  have codes : ∀ k : Nat, fs'.characterStrings[k]?.map Index.data = fs.characterStrings[k]?.map Index.data := by
    intro k
    rw [← List.getElem?_map, ← List.getElem?_map, t5]
  have hlay := (C32_layout_iff cfg data hdata base fs).mp ⟨q, h⟩
  have hlay' := (C32_layout_iff cfg' data' hdata' base' fs').mp ⟨q', h'⟩
  -- two programs
  have key : ∀ cs r cs' r' code d p p', fs.characterStrings[k]? = some cs → fs.records[k]? = some r → cs.data[g]? = some code →
      fs'.characterStrings[k]? = some cs' → fs'.records[k]? = some r' → cs'.data[g]? = some code →
      Chooses r g d → (privateList r)[d]? = some p → (privateList r')[d]? = some p' → ThinPrivate (L k d) p p' →
      (Type2.Spec.Run cfg'' (Type2.Program.new code fs'.subroutines.data p'.subroutines.data) l out ↔
        Type2.Spec.Run cfg'' (Type2.Program.new code fs.subroutines.data p.subroutines.data) l out) := by
    intro cs r cs' r' code d p p' a1 a2 a3 b1 b2 b3 c1 c2 c3 c4
    obtain ⟨u1, u2, u3⟩ := program_sound cfg data hdata base fs hlay k cs r a1 a2 code (List.mem_of_getElem? a3) _ (localOf_of_private c2)
    obtain ⟨v1, v2, v3⟩ := program_sound cfg' data' hdata' base' fs' hlay' k cs' r' b1 b2 code (List.mem_of_getElem? b3) _ (localOf_of_private c3)
    have hcov := fun checks i => hc k d _ checks i ⟨cs, r, g, code, p, a1, a2, a3, c1, c2, rfl⟩
    refine (Type2.C84_program (Type2.sound_new u1 u2 u3) (Type2.sound_new v1 v2 v3) ?_ ?_ ?_ ?_ l out).symm
    · rw [t3, emptied_length]
    · rw [c4.2, emptied_length]
    · intro i hi
      rw [t3, emptied_keeps ((hcov _ i).1 hi)]
    · intro i hi
      rw [c4.2, emptied_keeps ((hcov _ i).2 hi)]
  constructor
  · rintro ⟨cs', r', code, loc, b1, b2, b3, b4, b5⟩
    obtain ⟨d, p', c1, c3, rfl⟩ := (localFor_iff _ _ _).mp b4
    obtain ⟨cs, a1, a3⟩ : ∃ cs, fs.characterStrings[k]? = some cs ∧ cs.data = cs'.data := by
      have := codes k
      rw [b1, Option.map_some, eq_comm, Option.map_eq_some_iff] at this
      exact this
    obtain ⟨r, a2⟩ : ∃ r, fs.records[k]? = some r :=
      ⟨_, List.getElem?_eq_getElem (by rw [t8]; exact (List.getElem?_eq_some_iff.mp b2).1)⟩
    obtain ⟨w1, -, w3⟩ := thin_records (t9 k r r' a2 b2)
    obtain ⟨p, c2, c4⟩ := w3 d p' c3
    have c1' := (w1 g d).mpr c1
    exact ⟨cs, r, code, p.subroutines, a1, a2, a3 ▸ b3, (localFor_iff _ _ _).mpr ⟨d, p, c1', c2, rfl⟩,
      (key cs r cs' r' code d p p' a1 a2 (a3 ▸ b3) b1 b2 b3 c1' c2 c3 c4).mp b5⟩
  · rintro ⟨cs, r, code, loc, a1, a2, a3, a4, a5⟩
    obtain ⟨d, p, c1, c2, rfl⟩ := (localFor_iff _ _ _).mp a4
    obtain ⟨cs', b1, b3⟩ : ∃ cs', fs'.characterStrings[k]? = some cs' ∧ cs'.data = cs.data := by
      have := codes k
      rw [a1, Option.map_some, Option.map_eq_some_iff] at this
      exact this
    obtain ⟨r', b2⟩ : ∃ r', fs'.records[k]? = some r' :=
      ⟨_, List.getElem?_eq_getElem (by rw [← t8]; exact (List.getElem?_eq_some_iff.mp a2).1)⟩
    obtain ⟨w1, w2, -⟩ := thin_records (t9 k r r' a2 b2)
    obtain ⟨p', c3, c4⟩ := w2 d p c2
    exact ⟨cs', r', code, p'.subroutines, b1, b2, b3 ▸ a3, (localFor_iff _ _ _).mpr ⟨d, p', (w1 g d).mp c1, c3, rfl⟩,
      (key cs r cs' r' code d p p' a1 a2 a3 b1 b2 (b3 ▸ a3) c1 c2 c3 c4).mpr a5⟩

/-! ## A font with a subroutine that is not called -/

/-- A font with the one glyph `-107 callsubr endchar`, and two local subroutines. -/
def innerDef : FontSetDef where
  names := [[65]]
  strings := []
  globals := []
  fonts := [
    { entries := ⟨[], []⟩
      codes := [[32, 10, 14]]
      set := .isoAdobe
      encoding := .standard
      keying := .names ⟨⟨[], []⟩, Type2.inner⟩ }]

theorem innerDef_valid : innerDef.Valid := by
  have fits : ∀ {items : List (List UInt8)}, items.length ≤ 65535 → 1 + items.flatten.length < 2 ^ 32 → IndexFits 4 items :=
    fun h1 h2 => ⟨h1, by omega, by omega, h2⟩
  refine ⟨fits (by decide) (by decide), fits (by decide) (by decide), fits (by decide) (by decide), by decide, ?_, by decide +kernel⟩
  intro f hf
  simp only [innerDef, List.mem_cons, List.not_mem_nil, or_false] at hf
  subst hf
  exact ⟨⟨.nil, by decide⟩, fits (by decide) (by decide), .inl (.inl rfl), .inl (.inl rfl),
    ⟨.nil, by decide⟩, fits (by decide) (by decide)⟩

/-- The first local subroutine is enough. -/
example : ∃ fs q, FontSet.read (tape checkedBuild innerDef.write) 0 = (.ok fs, q) ∧
    100 * (innerDef.write.length + 1) * (1 + fs.operations.length + FontSet.privates fs) < 2 ^ 31 ∧
    CoversCalls (fun _ => False) (fun _ _ i => i = 0) fs ∧ emptied (fun i => i = 0) Type2.inner = [[11], []] ∧
    ∃ d, GlyphProgram fs 0 d (Type2.Program.new [32, 10, 14] [] Type2.inner) := by
  obtain ⟨fs, q, h, hin⟩ := C60_round_trip innerDef_valid checkedBuild [] [] (by decide +kernel) (by decide)
  rw [List.nil_append, List.append_nil] at h
  obtain ⟨-, -, i3, i4, i5, -, -, i8⟩ := hin
  have hr : ∃ r, fs.records = [.characterNameKeyed r] ∧ r.subroutines.data = Type2.inner := by
    generalize fs.records = rs at i8
    simp only [innerDef] at i8
    cases i8 with
    | @cons _ r _ rs a b =>
      cases b
      cases r with
      | characterIDKeyed r => exact a.elim
      | characterNameKeyed r => exact ⟨r, rfl, a.2⟩
  obtain ⟨r, hr, hl⟩ := hr
  have hc : ∃ cs, fs.characterStrings = [cs] ∧ cs.data = [[32, 10, 14]] := by
    generalize fs.characterStrings = cs at i5
    simp only [innerDef] at i5
    cases i5 with
    | @cons _ c _ cs a b =>
      cases b
      exact ⟨c, rfl, a⟩
  obtain ⟨cs, hc, hd⟩ := hc
  refine ⟨fs, q, h, ?_, ?_, by simp [emptied, Type2.inner], 0, ?_⟩
  · have h1 : fs.operations.length = 1 := i4.length_eq.symm
    have h3 : FontSet.privates fs = 1 := by simp [FontSet.privates, privates, hr]
    have h4 : innerDef.write.length ≤ 1000 := by decide +kernel
    rw [h1, h3]
    omega
  · rintro k d p checks i ⟨cs', r', g, code, priv, a1, a2, a3, a4, a5, rfl⟩
    have hk : k = 0 := by
      have := (List.getElem?_eq_some_iff.mp a1).1
      rw [hc] at this
      simpa using this
    subst hk
    rw [hc] at a1
    rw [hr] at a2
    injection a1 with a1
    injection a2 with a2
    subst a1 a2
    obtain rfl : d = 0 := a4
    injection a5 with a5
    subst a5
    have hg : g = 0 := by
      have := (List.getElem?_eq_some_iff.mp a3).1
      rw [hd] at this
      simpa using this
    subst hg
    rw [hd] at a3
    injection a3 with a3
    subst a3
    rw [hl, i3]
    exact ⟨(Type2.inner_calls checks).1 i, (Type2.inner_calls checks).2 i⟩
  · refine ⟨cs, .characterNameKeyed r, 0, [32, 10, 14], r, by rw [hc]; rfl, by rw [hr]; rfl, by rw [hd]; rfl, rfl, rfl, ?_⟩
    rw [hl, i3]
    rfl

end PS
