import Verif.Lemmas.Ends
import Verif.Props.Writer
import Verif.Props.Footprint
/-!
# Properties: where reading a font set ends
-/
namespace PS.Ending
open PS PS.Spec

/-- **C90.**  After a font set was read, the tape is at the end of the record of its last
font: of the local subroutines of the last private dictionary, or of that dictionary if it
has none; at the end of the global subroutines if there are no fonts; and nowhere else. -/
theorem C90_end (cfg : Config) (data : List UInt8) (hdata : data.length < 2 ^ 61) (base q : Nat) (fs : FontSet) :
    FontSet.read (tape cfg data) base = (.ok fs, q) ↔
      LaidOut (machine cfg base) data base fs ∧ Ends (machine cfg base) data fs q :=
  fontSet_ends_iff (tape cfg data) hdata base q fs

/-- **C90.**  That is not the end of the font set: the character strings may come after it.
The next font set, right behind, is there but is not where the tape is. -/
theorem C90_not_behind : ∃ data rest : List UInt8, ∃ fs q fs' q' e p,
    FontSet.read (tape checkedBuild (data ++ rest)) 0 = (.ok fs, q) ∧ q < data.length ∧
    (∃ i, Occupied (machine checkedBuild 0) (data ++ rest) 0 fs i ∧ q ≤ i) ∧
    FontSet.read (tape checkedBuild (data ++ rest)) data.length = (.ok fs', q') ∧
    FontSet.read (tape checkedBuild (data ++ rest)) q = (.err e, p) := by
  refine ⟨[1, 0, 4, 1] ++ [0, 1, 1, 1, 2, 65] ++ [0, 1, 1, 1, 6, 163, 17, 139, 163, 18] ++ [0, 0] ++ [0, 0] ++ [0, 1, 1, 1, 2, 14],
    sampleFont, _, 24, _, _, .eof, _, rfl, by decide, ⟨29, ?_, by decide⟩, rfl, rfl⟩
  refine ⟨.bytes, 24, [0, 1, 1, 1, 2, 14], .characterStrings (i := 0) (o := 24) rfl rfl ⟨[], .inl rfl⟩
    ⟨by decide, by decide, by decide⟩ (.inr ⟨by decide, ⟨by decide, by decide, by decide, by decide⟩, rfl, rfl, rfl⟩),
    ⟨sampleFont, rfl⟩, by decide, by decide⟩

/-- **C90.**  A font set that was written with the parts of each font in the order in which
they are read is left at its end. -/
theorem C90_written {d : FontSetDef} (hv : d.Valid) (cfg : Config) (pre post : List UInt8)
    (hsize : (pre ++ d.write ++ post).length < 2 ^ 61) (hseek : pre.length + 2 ^ 31 ≤ cfg.maxSeek) :
    ∃ fs, FontSet.read (tape cfg (pre ++ d.write ++ post)) pre.length = (.ok fs, pre.length + d.write.length) ∧ d.In fs := by
  have hs : Sits (pre ++ d.write ++ post) pre.length d.write := ⟨post, by simp⟩
  obtain ⟨fs, h1, h2, h3⟩ := laidOut_write hv hs (limit := pre.length + 2 ^ 31) (Nat.le_refl _)
  have hp : pre.length + 2 ^ 31 < 2 ^ 64 := by simp only [List.length_append] at hsize; omega
  obtain ⟨q, h⟩ := C32_layout cfg _ hsize _ _ fs hseek hp h1
  have h4 : Ends (machine cfg pre.length) (pre ++ d.write ++ post) fs (pre.length + d.write.length) := by
    refine ends_mono ?_ ?_ h3
    · rintro o p ⟨h3, h4, h5⟩
      exact ⟨by omega, Nat.le_trans h5 hseek, fun _ => by omega⟩
    · rintro a b c ⟨rfl, h2, h3⟩
      exact ⟨by simp, by omega, h3, fun _ => rfl⟩
  exact ⟨fs, (C90_end cfg _ hsize _ _ fs).mpr ⟨((C90_end cfg _ hsize _ _ fs).mp h).1, h4⟩, h2⟩

/-- **C90.**  Font sets that were written one after another are read one after another from
the same tape: each reading ends where the next one begins. -/
theorem C90_sequence (ds : List FontSetDef) (hv : ∀ d ∈ ds, d.Valid) (cfg : Config) (pre post : List UInt8)
    (hsize : (pre ++ (ds.map FontSetDef.write).flatten ++ post).length < 2 ^ 61)
    (hseek : pre.length + (ds.map FontSetDef.write).flatten.length + 2 ^ 31 ≤ cfg.maxSeek) (k : Nat) (d : FontSetDef)
    (hk : ds[k]? = some d) :
    ∃ fs, FontSet.read (tape cfg (pre ++ (ds.map FontSetDef.write).flatten ++ post))
        (pre.length + ((ds.take k).map FontSetDef.write).flatten.length) =
        (.ok fs, pre.length + ((ds.take (k + 1)).map FontSetDef.write).flatten.length) ∧ d.In fs := by
  have hlt := (List.getElem?_eq_some_iff.mp hk).1
  have hd : ds = ds.take k ++ d :: ds.drop (k + 1) := by
    conv_lhs => rw [← List.take_append_drop k ds]
    rw [List.drop_eq_getElem_cons hlt, (List.getElem?_eq_some_iff.mp hk).2]
  have hdata : pre ++ (ds.map FontSetDef.write).flatten ++ post =
      (pre ++ ((ds.take k).map FontSetDef.write).flatten) ++ d.write ++
        (((ds.drop (k + 1)).map FontSetDef.write).flatten ++ post) := by
    conv_lhs => rw [hd]
    simp
  have hle : ((ds.take k).map FontSetDef.write).flatten.length ≤ (ds.map FontSetDef.write).flatten.length := by
    conv_rhs => rw [hd]
    simp
  have ht : ds.take (k + 1) = ds.take k ++ [d] := by
    rw [List.take_succ, hk]
    rfl
  rw [hdata] at hsize ⊢
  obtain ⟨fs, h1, h2⟩ := C90_written (hv d (List.mem_of_getElem? hk)) cfg (pre ++ ((ds.take k).map FontSetDef.write).flatten) _ hsize
    (by rw [List.length_append]; omega)
  refine ⟨fs, ?_, h2⟩
  rw [List.length_append] at h1
  rw [h1, ht]
  simp [Nat.add_assoc]

/-- The sample of two fonts, three times. -/
example : ∃ fs, FontSet.read (tape releaseBuild ([7, 7] ++ ([sampleDef, sampleDef, sampleDef].map FontSetDef.write).flatten ++ [9]))
    (2 + 2 * sampleDef.write.length) = (.ok fs, 2 + 3 * sampleDef.write.length) ∧ sampleDef.In fs := by
  have h := C90_sequence [sampleDef, sampleDef, sampleDef] (by simp [sampleDef_valid]) releaseBuild [7, 7] [9] (by decide +kernel)
    (by decide +kernel) 2 sampleDef rfl
  have h2 : ([7, 7] : List UInt8).length + (List.map FontSetDef.write (List.take 2 [sampleDef, sampleDef, sampleDef])).flatten.length =
      2 + 2 * sampleDef.write.length := by simp [List.flatten]; omega
  have h3 : ([7, 7] : List UInt8).length + (List.map FontSetDef.write (List.take (2 + 1) [sampleDef, sampleDef, sampleDef])).flatten.length =
      2 + 3 * sampleDef.write.length := by simp [List.flatten]; omega
  rw [h2, h3] at h
  exact h

/-- The font set of the sample ends with the local subroutines, at its very end. -/
example : ∃ fs, FontSet.read (tape checkedBuild sampleFont) 0 = (.ok fs, sampleFont.length) := ⟨_, rfl⟩

end PS.Ending
