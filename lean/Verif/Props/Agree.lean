import Verif.Lemmas.Agree
import Verif.Lemmas.AgreeType2
import Verif.Props.FontSet
import Verif.Props.Type2Stack
/-!
# Properties: the same font set on other tapes
-/
namespace PS
open Spec

theorem alike_same {k : Nat} {P S T : Prop} {r r' : Res α × Nat} (h : Alike k P S T r r') :
    SameOutcome k r r' ∨ (P ∧ ∃ x q, r = (.panic x, q)) ∨ (S ∧ ∃ q, r = (.err .seek, q)) ∨ (T ∧ ∃ q, r' = (.err .eof, q)) := by
  cases h with
  | ok a q => exact .inl (.inl ⟨a, q, rfl, rfl⟩)
  | err e q q' => exact .inl (.inr (.inl ⟨e, q, q', rfl, rfl⟩))
  | panic x q q' => exact .inl (.inr (.inr ⟨x, q, q', rfl, rfl⟩))
  | left x q r h => exact .inr (.inl ⟨h, x, q, rfl⟩)
  | seek q r h => exact .inr (.inr (.inl ⟨h, q, rfl⟩))
  | right q r h => exact .inr (.inr (.inr ⟨h, q, rfl⟩))

/-- **C57** Cutting a tape short, anywhere, does not change what is read from it, unless
the reading fails with an end of file. -/
theorem C57_truncation (cfg : Config) (data : List UInt8) (p n : Nat) :
    SameOutcome 0 (FontSet.read (tape cfg data) p) (FontSet.read (tape cfg (data.take n)) p) ∨
    ∃ q, FontSet.read (tape cfg (data.take n)) p = (.err .eof, q) := by
  rw [fontSet_from, fontSet_from]
  rcases alike_same (like_fontSet (L := shortened) rfl (tape cfg data) (tape cfg (data.take n)) p ⟨rfl, n, rfl⟩) with
    h | ⟨⟨⟩, _⟩ | ⟨⟨⟩, _⟩ | ⟨-, h⟩
  · exact .inl h
  · exact .inr h

/-- **C57** Bytes after those that were read do not matter. -/
theorem C57_trailing_bytes (cfg : Config) (data more : List UInt8) (p q : Nat) (fs : FontSet)
    (h : FontSet.read (tape cfg data) p = (.ok fs, q)) :
    FontSet.read (tape cfg (data ++ more)) p = (.ok fs, q) := by
  have := C57_truncation cfg (data ++ more) p data.length
  rw [List.take_left, h] at this
  rcases this with (⟨a, q, h1, h2⟩ | ⟨e, q, q', h1, h2⟩ | ⟨e, q, q', h1, h2⟩) | ⟨q, h⟩
  · rw [h1, h2]; rfl
  · simp at h2
  · simp at h2
  · simp at h

/-- C57, for the number of fonts. -/
theorem C57_count_truncation (cfg : Config) (data : List UInt8) (p n : Nat) :
    SameOutcome 0 (FontSet.count (tape cfg data) p) (FontSet.count (tape cfg (data.take n)) p) ∨
    ∃ q, FontSet.count (tape cfg (data.take n)) p = (.err .eof, q) := by
  rw [count_from, count_from]
  rcases alike_same (like_count (L := shortened) rfl (tape cfg data) (tape cfg (data.take n)) p ⟨rfl, n, rfl⟩) with
    h | ⟨⟨⟩, _⟩ | ⟨⟨⟩, _⟩ | ⟨-, h⟩
  · exact .inl h
  · exact .inr h

/-- **C58** A build that checks less reads the same font set, or fails with the same
error, unless the stricter one panics. -/
theorem C58_builds_agree (c c' : Config) (h : Milder c c') (data : List UInt8) (p : Nat) :
    SameOutcome 0 (FontSet.read (tape c data) p) (FontSet.read (tape c' data) p) ∨
    ∃ x q, FontSet.read (tape c data) p = (.panic x, q) := by
  rw [fontSet_from, fontSet_from]
  rcases alike_same (like_fontSet (L := mildened) rfl (tape c data) (tape c' data) p ⟨rfl, h⟩) with
    h | ⟨-, h⟩ | ⟨⟨⟩, _⟩ | ⟨⟨⟩, _⟩
  · exact .inl h
  · exact .inr h

/-- C58, for the number of fonts. -/
theorem C58_count_agree (c c' : Config) (h : Milder c c') (data : List UInt8) (p : Nat) :
    SameOutcome 0 (FontSet.count (tape c data) p) (FontSet.count (tape c' data) p) ∨
    ∃ x q, FontSet.count (tape c data) p = (.panic x, q) := by
  rw [count_from, count_from]
  rcases alike_same (like_count (L := mildened) rfl (tape c data) (tape c' data) p ⟨rfl, h⟩) with
    h | ⟨-, h⟩ | ⟨⟨⟩, _⟩ | ⟨⟨⟩, _⟩
  · exact .inl h
  · exact .inr h

open Type2 in
/-- C58, for Type 2 programs: a call of `next` that returns in the stricter build
returns the same and leaves the same program in the other one, unless it panics; a call
that does not return in the stricter build does not return in the other one. -/
theorem C58_next_agree (c c' : Config) (h : Milder c c') (he : c.eofPos = c'.eofPos) (s : Program) :
    (∀ r t, Next c s r t → (∃ x, r = .panic x) ∨ Next c' s r t) ∧ (Diverges c s → Diverges c' s) := by
  refine ⟨?_, ?_⟩
  · rintro r t ⟨n, hn⟩
    rcases nextFuel_mild ⟨h, he⟩ n s with ⟨x, t', h1⟩ | h1
    · rw [h1] at hn
      injection hn with hn
      exact .inl ⟨x, (congrArg Prod.fst hn).symm⟩
    · exact .inr ⟨n, h1 ▸ hn⟩
  · intro hd n
    rcases nextFuel_mild ⟨h, he⟩ n s with ⟨x, t', h1⟩ | h1
    · rw [hd n] at h1
      simp at h1
    · rw [← h1]
      exact hd n

/-- **C59** A font set in the midst of other bytes is read as it is on its own, unless
some offset of it cannot be sought on its own.  The other bytes may be on a tape where
more can be sought. -/
theorem C59_relocation (cfg : Config) (hc : cfg.maxSeek < 2 ^ 64 - 2 ^ 31) (m : Nat) (hm : cfg.maxSeek ≤ m)
    (junk data : List UInt8) (p : Nat) (hp : junk.length + p + 2 ^ 31 ≤ cfg.maxSeek) :
    SameOutcome junk.length (FontSet.read (tape cfg data) p)
      (FontSet.read (tape { cfg with maxSeek := m } (junk ++ data)) (junk.length + p)) ∨
    ∃ q, FontSet.read (tape cfg data) p = (.err .seek, q) := by
  rw [fontSet_from, fontSet_from, Nat.add_comm junk.length p]
  rcases alike_same (like_fontSet (L := moved cfg junk.length) (b := p) (b' := p + junk.length) ⟨rfl, by omega⟩
    (tape cfg data) (tape { cfg with maxSeek := m } (junk ++ data)) p ⟨rfl, ⟨m, hm, rfl⟩, ⟨junk, rfl, rfl⟩, hc⟩) with
    h | ⟨⟨⟩, _⟩ | ⟨-, h⟩ | ⟨⟨⟩, _⟩
  · exact .inl h
  · exact .inr h

/-- C59, for the number of fonts: no header has a size that cannot be sought. -/
theorem C59_count_relocation (cfg : Config) (hc : cfg.maxSeek < 2 ^ 64 - 2 ^ 31) (m : Nat) (hm : cfg.maxSeek ≤ m)
    (junk data : List UInt8) (p : Nat) (hp : junk.length + p + 2 ^ 31 ≤ cfg.maxSeek) :
    SameOutcome junk.length (FontSet.count (tape cfg data) p)
      (FontSet.count (tape { cfg with maxSeek := m } (junk ++ data)) (junk.length + p)) := by
  rw [count_from, count_from, Nat.add_comm junk.length p]
  rcases alike_same (like_count (L := moved cfg junk.length) (b := p) (b' := p + junk.length) ⟨rfl, by omega⟩
    (tape cfg data) (tape { cfg with maxSeek := m } (junk ++ data)) p ⟨rfl, ⟨m, hm, rfl⟩, ⟨junk, rfl, rfl⟩, hc⟩) with
    h | ⟨⟨⟩, _⟩ | ⟨-, q, h⟩ | ⟨⟨⟩, _⟩
  · exact h
  · exfalso
    unfold FontSet.countFrom at h
    rcases Rd.bind_err.mp h with h | ⟨hd, p', -, h⟩
    · have : Errs Header.read (fun e => e = .eof) := by
        unfold Header.read
        exact Errs.bind (Errs.u8 rfl) (fun _ => Errs.bind (Errs.u8 rfl) (fun _ => Errs.bind (Errs.u8 rfl) (fun _ =>
          Errs.bind (Errs.u8 rfl) (fun _ => Errs.pure _ _))))
      have := this _ _ _ _ h
      simp at this
    · have hs := hd.headerSize.toNat_lt
      have hw : toU 64 (hd.headerSize.toNat : Int) = hd.headerSize.toNat := by unfold toU; omega
      rcases Rd.bind_err.mp h with h | ⟨-, p', -, h⟩
      · rw [jumpTo_eq, hw, if_pos (by omega), if_pos (show _ ≤ (tape cfg data).cfg.maxSeek from (show _ ≤ cfg.maxSeek by omega))] at h
        simp at h
      · have : Errs (do let count ← Rd.u16; pure count.toNat : Rd Nat) (fun e => e = .eof) :=
          Errs.bind (Errs.u16 rfl) (fun _ => Errs.pure _ _)
        have := this _ _ _ _ h
        simp at this

/-! ## Cases that meet the hypotheses -/

/-- A build without overflow checks, reading from a file. -/
def fileBuild : Config := ⟨false, true, 2 ^ 63 - 1, fun _ n => n⟩

/-- Cut short within the character strings, the reading fails; cut short after the last
byte that is read, it does not. -/
example : (∃ q, FontSet.read (tape fileBuild (sampleFont.take 28)) 0 = (.err .eof, q)) ∧
    ∃ fs q, FontSet.read (tape fileBuild (sampleFont ++ [1, 2, 3])) 0 = (.ok fs, q) ∧ q = sampleFont.length ∧
      FontSet.read (tape fileBuild ((sampleFont ++ [1, 2, 3]).take sampleFont.length)) 0 = (.ok fs, q) :=
  ⟨⟨_, rfl⟩, _, _, rfl, rfl, rfl⟩

example : Milder checkedBuild releaseBuild := ⟨by decide, by decide, rfl⟩
/-- A malformed font set fails alike in both builds. -/
example : (∃ q, FontSet.read (tape checkedBuild (sampleFont.set 5 7)) 0 = (.err .eof, q)) ∧
    ∃ q, FontSet.read (tape releaseBuild (sampleFont.set 5 7)) 0 = (.err .eof, q) := ⟨⟨_, rfl⟩, _, rfl⟩

/-- Only the stricter build panics on a roll by `-2^31`. -/
example : Milder Type2.checked Type2.release ∧ Type2.checked.eofPos = Type2.release.eofPos ∧
    (∃ t, Type2.Next Type2.checked Type2.leastRoll (.panic .overflow) t) ∧
    ∃ t, Type2.Next Type2.release Type2.leastRoll (.ok (some (.opHLineTo, [1, 2, 3].map F32.ofInt))) t :=
  ⟨⟨by decide, by decide, rfl⟩, rfl, Type2.C44_least_panics, Type2.C44_least_ignored⟩

example : fileBuild.maxSeek < 2 ^ 64 - 2 ^ 31 ∧ 2 + 0 + 2 ^ 31 ≤ fileBuild.maxSeek := by decide
/-- A font set after two other bytes. -/
example : ∃ fs, FontSet.read (tape fileBuild sampleFont) 0 = (.ok fs, 38) ∧
    FontSet.read (tape { fileBuild with maxSeek := 2 ^ 64 - 1 } ([7, 7] ++ sampleFont)) 2 = (.ok fs, 40) := ⟨_, rfl, rfl⟩

end PS
