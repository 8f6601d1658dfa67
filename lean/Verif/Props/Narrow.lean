import Verif.Lemmas.Narrow
import Verif.Props.FontSet
import Verif.Props.Index
/-!
# Property C81: font sets on 32-bit targets
-/
namespace PS
open Spec

/-- **C81** On tapes shorter than `2^31` bytes, reading a font set has the same outcome
on 32-bit targets as on 64-bit targets, whether a font set, an error or a panic; the only
exception is that it may panic for want of memory where it finds the end of the tape on
64-bit targets, and only if memory is reserved before reading. -/
theorem C81_same (cfg : Config) (data : List UInt8) (h : data.length < 2 ^ 31) (p : Nat) :
    Narrow.readFontSet (tape cfg data) p = FontSet.read (tape cfg data) p ∨
    (cfg.prealloc = true ∧ (∃ q, FontSet.read (tape cfg data) p = (.err .eof, q)) ∧
      ∃ q, Narrow.readFontSet (tape cfg data) p = (.panic .capacity, q)) :=
  near_fontSet h p

/-- **C81** Such a tape can be read on 32-bit targets if and only if it can be read on
64-bit targets, and the font set is the same. -/
theorem C81_reads (cfg : Config) (data : List UInt8) (h : data.length < 2 ^ 31) (p q : Nat) (fs : FontSet) :
    Narrow.readFontSet (tape cfg data) p = (.ok fs, q) ↔ FontSet.read (tape cfg data) p = (.ok fs, q) := by
  rcases C81_same cfg data h p with h | ⟨-, ⟨q', h1⟩, q'', h2⟩
  · rw [h]
  · rw [h1, h2]
    simp

/-- **C81** Without reserving memory there is no exception. -/
theorem C81_unreserved (cfg : Config) (hc : cfg.prealloc = false) (data : List UInt8) (h : data.length < 2 ^ 31) (p : Nat) :
    Narrow.readFontSet (tape cfg data) p = FontSet.read (tape cfg data) p := by
  rcases C81_same cfg data h p with h | ⟨h1, -⟩
  · exact h
  · rw [hc] at h1
    simp at h1

example : Narrow.readFontSet (tape { checkedBuild with prealloc := false } negativeSize) 0 =
    FontSet.read (tape { checkedBuild with prealloc := false } negativeSize) 0 :=
  C81_unreserved _ rfl _ (by decide) 0

/-- A font set whose only name is said to have `2^31` bytes. -/
def boastful : List UInt8 := [1, 0, 4, 1] ++ [0, 1, 4, 0, 0, 0, 1, 128, 0, 0, 1]

/-- **C81** The exception is there: fifteen bytes make a 32-bit build panic that are an
end of file for a 64-bit build. -/
theorem C81_panics : (∃ q, FontSet.read (tape checkedBuild boastful) 0 = (.err .eof, q)) ∧
    (∃ q, Narrow.readFontSet (tape checkedBuild boastful) 0 = (.panic .capacity, q)) ∧ boastful.length = 15 :=
  ⟨⟨_, rfl⟩, ⟨_, rfl⟩, rfl⟩

/-- **C81** On tapes of any length, an INDEX that can be read on 64-bit targets is read in
the same way on 32-bit targets, unless it has an object of `2^31` bytes or more and memory
is reserved before reading, which panics. -/
theorem C81_index (cfg : Config) (data : List UInt8) (p q : Nat) (ix : Index)
    (h : Index.read (tape cfg data) p = (.ok ix, q)) :
    (Narrow.readIndex (tape cfg data) p = (.ok ix, q) ↔
      cfg.prealloc = false ∨ ∀ x ∈ ix.data, x.length < 2 ^ 31) ∧
    ((∃ q', Narrow.readIndex (tape cfg data) p = (.panic .capacity, q')) ↔
      cfg.prealloc = true ∧ ∃ x ∈ ix.data, 2 ^ 31 ≤ x.length) := by
  obtain ⟨hok, hpanic⟩ := index_narrow h
  change (¬ (cfg.prealloc = true ∧ _) → _) at hok
  change ((cfg.prealloc = true ∧ _) → _) at hpanic
  by_cases hc : cfg.prealloc = true ∧ ∃ x ∈ ix.data, 2 ^ 31 ≤ x.length
  · obtain ⟨q', h1⟩ := hpanic hc
    refine ⟨⟨fun h2 => ?_, fun h2 => ?_⟩, fun _ => hc, fun _ => ⟨q', h1⟩⟩
    · rw [h1] at h2
      simp at h2
    · obtain ⟨hc, x, hx, hx'⟩ := hc
      rcases h2 with h2 | h2
      · rw [hc] at h2
        simp at h2
      · have := h2 x hx
        omega
  · refine ⟨⟨fun _ => ?_, fun _ => hok hc⟩, ⟨fun ⟨q', h1⟩ => ?_, fun h1 => absurd h1 hc⟩⟩
    · rcases hp : cfg.prealloc with _ | _
      · exact .inl rfl
      · refine .inr (fun x hx => ?_)
        by_contra hx'
        exact hc ⟨hp, x, hx, by omega⟩
    · rw [hok hc] at h1
      simp at h1

/-- **C81** On tapes that are not shorter than `2^31` bytes the outcomes do differ: an INDEX
with one object of so many bytes is read by a 64-bit build and makes a 32-bit build panic. -/
theorem C81_large (item : List UInt8) (h : 2 ^ 31 ≤ item.length) (h' : item.length + 1 < 2 ^ 32) :
    ∃ ix q, Index.read (tape checkedBuild (encodeIndex 4 [item])) 0 = (.ok ix, q) ∧ ix.data = [item] ∧
      ∃ q', Narrow.readIndex (tape checkedBuild (encodeIndex 4 [item])) 0 = (.panic .capacity, q') := by
  have hf : IndexFits 4 [item] := by
    refine ⟨by norm_num, by norm_num, by simp, ?_⟩
    simp
    omega
  obtain ⟨ix, h1, h2, -⟩ := C07_index_round_trip hf checkedBuild [] []
  rw [List.nil_append, List.append_nil] at h1
  refine ⟨ix, _, h1, h2, (C81_index _ _ _ _ _ h1).2.mpr ⟨rfl, item, ?_, h⟩⟩
  rw [h2]
  simp

/-- The hypotheses of C81 are met: the font set of `sampleFont` is read on 32-bit targets
too, and its INDEX of names by itself. -/
example : sampleFont.length < 2 ^ 31 ∧
    (∃ fs, Narrow.readFontSet (tape checkedBuild sampleFont) 0 = (.ok fs, 38) ∧ fs.records.length = 1) ∧
    (∃ fs q, Narrow.readFontSet (tape releaseBuild sampleCID) 0 = (.ok fs, q) ∧ fs.records.length = 1) ∧
    (∃ ix, Index.read (tape checkedBuild sampleFont) 4 = (.ok ix, 10) ∧ ix.data = [[65]]) :=
  ⟨by decide, ⟨_, rfl, rfl⟩, ⟨_, _, rfl, rfl⟩, _, rfl, rfl⟩

end PS
