import Verif.Props.FontSet
import Verif.Props.Glyph
/-!
# Properties: the programs of a font set
-/
namespace PS
open Spec

theorem sits_length {data bs : List UInt8} {p : Nat} (h : Sits data p bs) : bs.length ≤ data.length :=
  (List.IsPrefix.length_le h).trans (by simp)

theorem index_small {data : List UInt8} {p : Nat} {ix : Index} (h : IndexAt data p ix) :
    ix.data.length ≤ 65535 ∧ ∀ c ∈ ix.data, c.length ≤ data.length := by
  obtain ⟨bs, h, hs⟩ := h
  rcases h with ⟨rfl, -⟩ | ⟨h1, h2, -, -, rfl⟩
  · exact ⟨by simp [noObjects], by simp [noObjects]⟩
  · refine ⟨h2.1, fun c hc => ?_⟩
    have := sits_length hs
    unfold encodeIndex at this
    rw [if_neg h1, List.length_append] at this
    have hf : c.length ≤ ix.data.flatten.length := (List.sublist_flatten_of_mem hc).length_le
    omega

theorem private_small {A : Addressing} {data : List UInt8} {top : Operations} {r : PrivateRecord}
    (h : PrivateAt A data top r) :
    r.subroutines.data.length ≤ 65535 ∧ ∀ c ∈ r.subroutines.data, c.length ≤ data.length := by
  obtain ⟨_, _, _, _, _, _, _, _, _, _, ⟨_, _, _, _, _, _, h⟩ | ⟨-, h⟩⟩ := h
  · exact index_small h
  · rw [h]; simp [noObjects]

theorem program_small (cfg : Config) (data : List UInt8) (base : Nat) (fs : FontSet)
    (h : LaidOut (machine cfg base) data base fs)
    (k : Nat) (cs : Index) (r : Record) (hcs : fs.characterStrings[k]? = some cs) (hr : fs.records[k]? = some r)
    (code : List UInt8) (hcode : code ∈ cs.data) («local» : Index) (hl : LocalOf r «local») :
    code.length ≤ data.length ∧ (∀ c ∈ fs.subroutines.data ++ «local».data, c.length ≤ data.length) ∧
      fs.subroutines.data.length ≤ 65535 ∧ «local».data.length ≤ 65535 := by
  obtain ⟨-, ⟨_, _, _, _, _, _, -, -, -, -, ⟨bs, hg, hg', -⟩, -⟩, h1, -, -, h2, h3⟩ := h
  have hk : k < fs.operations.length := by
    rw [← h1]
    exact (List.getElem?_eq_some_iff.mp hcs).1
  obtain ⟨cs', _, _, r', e1, -, -, e2, ⟨_, _, -, -, -, hc⟩, -, -, hrec⟩ := h3 k _ (List.getElem?_eq_getElem hk)
  rw [hcs] at e1
  rw [hr] at e2
  injection e1 with e1
  injection e2 with e2
  subst e1 e2
  have hloc : «local».data.length ≤ 65535 ∧ ∀ c ∈ «local».data, c.length ≤ data.length := by
    cases r with
    | characterNameKeyed r =>
      have hl : «local» = r.subroutines := hl
      rw [hl]
      exact private_small hrec.2
    | characterIDKeyed r =>
      obtain ⟨x, hx, rfl⟩ := hl
      obtain ⟨_, _, hp⟩ := forall₂_right_mem hrec.2.2.2 hx
      exact private_small hp
  have hglob := index_small ⟨bs, hg, hg'⟩
  have hchar := (index_small hc).2 code hcode
  refine ⟨by omega, ?_, by omega, by omega⟩
  intro c hc
  rcases List.mem_append.mp hc with hc | hc
  · have := hglob.2 c hc; omega
  · have := hloc.2 c hc; omega

theorem program_sound (cfg : Config) (data : List UInt8) (hdata : data.length < 2 ^ 61) (base : Nat) (fs : FontSet)
    (h : LaidOut (machine cfg base) data base fs)
    (k : Nat) (cs : Index) (r : Record) (hcs : fs.characterStrings[k]? = some cs) (hr : fs.records[k]? = some r)
    (code : List UInt8) (hcode : code ∈ cs.data) («local» : Index) (hl : LocalOf r «local») :
    code.length < 2 ^ 63 ∧ (∀ c ∈ fs.subroutines.data ++ «local».data, c.length < 2 ^ 63) ∧
      fs.subroutines.data.length ≤ 2 ^ 31 ∧ «local».data.length ≤ 2 ^ 31 := by
  obtain ⟨h1, h2, h3, h4⟩ := program_small cfg data base fs h k cs r hcs hr code hcode «local» hl
  refine ⟨by omega, fun c hc => ?_, by omega, by omega⟩
  have := h2 c hc
  omega

/-- **C56.**  Every character string of a font set that was read, with the global
subroutines and the local ones of its font, is a program in good order: what is proved
of those holds of it. -/
theorem C56_programs_sound (cfg : Config) (data : List UInt8) (hdata : data.length < 2 ^ 61) (base q : Nat) (fs : FontSet)
    (h : FontSet.read (tape cfg data) base = (.ok fs, q))
    (k : Nat) (cs : Index) (r : Record) (hcs : fs.characterStrings[k]? = some cs) (hr : fs.records[k]? = some r)
    (code : List UInt8) (hcode : code ∈ cs.data) («local» : Index) (hl : LocalOf r «local») :
    Type2.Spec.Sound (Type2.Program.new code fs.subroutines.data «local».data) := by
  obtain ⟨h1, h2, h3⟩ := program_sound cfg data hdata base fs ((C32_layout_iff cfg data hdata base fs).mp ⟨q, h⟩)
    k cs r hcs hr code hcode «local» hl
  exact Type2.sound_new h1 h2 h3

example : ∃ fs q cs r code, FontSet.read (tape checkedBuild sampleFont) 0 = (.ok fs, q) ∧ fs.characterStrings[0]? = some cs ∧
    fs.records[0]? = some (.characterNameKeyed r) ∧ code ∈ cs.data ∧ LocalOf (.characterNameKeyed r) r.subroutines ∧
    code = [14] :=
  ⟨_, _, _, _, _, rfl, rfl, rfl, .head _, rfl, rfl⟩

end PS
