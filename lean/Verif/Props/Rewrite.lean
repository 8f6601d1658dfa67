import Verif.Lemmas.Rewrite
import Verif.Props.Writer
/-!
# Property C62: writing what was read
-/
namespace PS
open Spec

/-- **C62.**  Whatever was read, from whatever layout, could have been written: there is
a description of which the font set has the parts. -/
theorem C62_described (cfg : Config) (data : List UInt8) (hdata : data.length < 2 ^ 61) (base q : Nat) (fs : FontSet)
    (h : FontSet.read (tape cfg data) base = (.ok fs, q))
    (hsize : 100 * (data.length + 1) * (1 + fs.operations.length + FontSet.privates fs) < 2 ^ 31) :
    ∃ d : FontSetDef, d.Valid ∧ d.In fs := by
  obtain ⟨d, h1, h2, h3⟩ := def_of ((C32_layout_iff cfg data hdata base fs).mp ⟨q, h⟩)
  exact ⟨d, h2 (by omega), h1⟩

/-- **C62.**  A font set that was read from any file, in any layout, and is not too big,
can be written in one piece, such that reading it again, in the midst of any bytes and
by any build, gives a font set with the same contents. -/
theorem C62_rewrite (cfg : Config) (data : List UInt8) (hdata : data.length < 2 ^ 61) (base q : Nat) (fs : FontSet)
    (h : FontSet.read (tape cfg data) base = (.ok fs, q))
    (hsize : 100 * (data.length + 1) * (1 + fs.operations.length + FontSet.privates fs) < 2 ^ 31) :
    ∃ bytes : List UInt8, bytes.length < 2 ^ 31 ∧
      ∀ (cfg' : Config) (pre post : List UInt8), (pre ++ bytes ++ post).length < 2 ^ 61 →
        pre.length + 2 ^ 31 ≤ cfg'.maxSeek →
        ∃ fs' q', FontSet.read (tape cfg' (pre ++ bytes ++ post)) pre.length = (.ok fs', q') ∧ SameContents fs fs' := by
  obtain ⟨d, h1, h2⟩ := C62_described cfg data hdata base q fs h hsize
  refine ⟨d.write, h1.2.2.2.2.2, fun cfg' pre post h3 h4 => ?_⟩
  obtain ⟨fs', q', h5, h6⟩ := C60_round_trip h1 cfg' pre post h3 h4
  exact ⟨fs', q', h5, C60_same h2 h6⟩

example : ∃ fs q, FontSet.read (tape checkedBuild sampleCID) 0 = (.ok fs, q) ∧
    100 * (sampleCID.length + 1) * (1 + fs.operations.length + FontSet.privates fs) < 2 ^ 31 := by
  obtain ⟨fs, q, r, h, h1, h2, h3⟩ : ∃ fs q r, FontSet.read (tape checkedBuild sampleCID) 0 = (.ok fs, q) ∧
    fs.records = [.characterIDKeyed r] ∧ r.records.length = 1 ∧ fs.operations.length = 1 := ⟨_, _, _, rfl, rfl, rfl, rfl⟩
  refine ⟨fs, q, h, ?_⟩
  rw [h3, FontSet.privates, h1]
  simp only [List.map_cons, List.map_nil, List.sum_cons, List.sum_nil, privates, h2]
  decide

end PS
