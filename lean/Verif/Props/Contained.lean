import Verif.Props.Programs
/-!
# Property C63: nothing is invented
-/
namespace PS
open Spec

theorem sits_infix {data bs : List UInt8} {p : Nat} (h : Sits data p bs) : bs <:+: data :=
  (List.IsPrefix.isInfix h).trans (List.drop_suffix p data).isInfix

theorem indexAt_infix {data : List UInt8} {p : Nat} {ix : Index} (h : IndexAt data p ix) {bs : List UInt8} (hb : bs ∈ ix.data) :
    bs <:+: data := by
  obtain ⟨_, h, hs⟩ := h
  rcases h with ⟨rfl, -⟩ | ⟨h1, -, -, -, rfl⟩
  · simp [noObjects] at hb
  · have h2 : ix.data.flatten <:+: encodeIndex ix.offsetSize.toNat ix.data := by
      unfold encodeIndex
      rw [if_neg h1]
      exact (List.suffix_append _ _).isInfix
    obtain ⟨a, b, h3⟩ := List.append_of_mem hb
    have h4 : bs <:+: ix.data.flatten := ⟨a.flatten, b.flatten, by rw [h3]; simp⟩
    exact h4.trans (h2.trans (sits_infix hs))

theorem private_infix {A : Addressing} {data : List UInt8} {top : Operations} {r : PrivateRecord}
    (h : PrivateAt A data top r) {bs : List UInt8} (hb : bs ∈ r.subroutines.data) : bs <:+: data := by
  obtain ⟨_, _, _, _, _, _, _, _, _, _, ⟨_, _, _, _, _, _, h⟩ | ⟨-, h⟩⟩ := h
  · exact indexAt_infix h hb
  · rw [h] at hb; simp [noObjects] at hb

/-- **C63.**  Every name, string, subroutine and character string of a font set that was
read is a contiguous piece of the file. -/
theorem C63_pieces (cfg : Config) (data : List UInt8) (hdata : data.length < 2 ^ 61) (base q : Nat) (fs : FontSet)
    (h : FontSet.read (tape cfg data) base = (.ok fs, q)) (bs : List UInt8) (hb : ByteStringOf fs bs) : bs <:+: data := by
  obtain ⟨-, ⟨_, _, _, _, _, _, -, ⟨b1, h1, s1, -⟩, -, ⟨b3, h3, s3, -⟩, ⟨b4, h4, s4, -⟩, -⟩, l1, -, -, l4, hf⟩ :=
    (C32_layout_iff cfg data hdata base fs).mp ⟨q, h⟩
  rcases hb with hb | hb | hb | ⟨cs, hcs, hb⟩ | ⟨r, hr, «local», hl, hb⟩
  · exact indexAt_infix ⟨b1, h1, s1⟩ hb
  · exact indexAt_infix ⟨b3, h3, s3⟩ hb
  · exact indexAt_infix ⟨b4, h4, s4⟩ hb
  · obtain ⟨i, hi, rfl⟩ := List.getElem_of_mem hcs
    obtain ⟨cs', _, _, _, e1, -, -, -, ⟨_, _, -, -, -, hc⟩, -⟩ := hf i _ (List.getElem?_eq_getElem (l1 ▸ hi))
    rw [List.getElem?_eq_getElem hi, Option.some.injEq] at e1
    exact indexAt_infix (e1 ▸ hc) hb
  · obtain ⟨i, hi, rfl⟩ := List.getElem_of_mem hr
    obtain ⟨_, _, _, r', -, -, -, e1, -, -, -, hc⟩ := hf i _ (List.getElem?_eq_getElem (l4 ▸ hi))
    rw [List.getElem?_eq_getElem hi, Option.some.injEq] at e1
    rw [e1] at hl
    cases r' with
    | characterNameKeyed r' =>
      have hl : «local» = r'.subroutines := hl
      rw [hl] at hb
      exact private_infix hc.2 hb
    | characterIDKeyed r' =>
      obtain ⟨x, hx, rfl⟩ := hl
      obtain ⟨_, _, hp⟩ := forall₂_right_mem hc.2.2.2 hx
      exact private_infix hp hb

/-- **C63.**  In particular no name, string, subroutine or character string is longer
than the file, and there are at most 65535 fonts, names, strings, global subroutines and
glyphs in a font. -/
theorem C63_bounded (cfg : Config) (data : List UInt8) (hdata : data.length < 2 ^ 61) (base q : Nat) (fs : FontSet)
    (h : FontSet.read (tape cfg data) base = (.ok fs, q)) :
    (∀ bs, ByteStringOf fs bs → bs.length ≤ data.length) ∧ fs.operations.length ≤ 65535 ∧ fs.names.data.length ≤ 65535 ∧
    fs.strings.data.length ≤ 65535 ∧ fs.subroutines.data.length ≤ 65535 ∧
    ∀ cs ∈ fs.characterStrings, cs.data.length ≤ 65535 := by
  refine ⟨fun bs hb => (C63_pieces cfg data hdata base q fs h bs hb).length_le, ?_⟩
  obtain ⟨-, ⟨_, _, _, _, _, ix, -, ⟨b1, h1, s1, -⟩, ⟨b2, h2, s2, -⟩, ⟨b3, h3, s3, -⟩, ⟨b4, h4, s4, -⟩, hd⟩, l1, -, -, -, hf⟩ :=
    (C32_layout_iff cfg data hdata base fs).mp ⟨q, h⟩
  refine ⟨?_, (index_small ⟨b1, h1, s1⟩).1, (index_small ⟨b3, h3, s3⟩).1, (index_small ⟨b4, h4, s4⟩).1, ?_⟩
  · rw [← hd.length_eq]
    exact (index_small ⟨b2, h2, s2⟩).1
  · intro cs hcs
    obtain ⟨i, hi, rfl⟩ := List.getElem_of_mem hcs
    obtain ⟨cs', _, _, _, e1, -, -, -, ⟨_, _, -, -, -, hc⟩, -⟩ := hf i _ (List.getElem?_eq_getElem (l1 ▸ hi))
    rw [List.getElem?_eq_getElem hi, Option.some.injEq] at e1
    rw [e1]
    exact (index_small hc).1

example : ∃ fs q cs, FontSet.read (tape checkedBuild sampleFont) 0 = (.ok fs, q) ∧ fs.characterStrings = [cs] ∧ cs.data = [[14]] :=
  ⟨_, _, _, rfl, rfl, rfl⟩

end PS
