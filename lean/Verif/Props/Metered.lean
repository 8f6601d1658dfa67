import Verif.Lemmas.Metered
import Verif.Props.Agree
/-!
# Properties: the work of reading font sets, and the memory it reserves
-/
namespace PS
open PS.Spec

/-! ## C87 -/

/-- **C87**, the full statement: reading takes at most a thousand steps for each byte of the
file, and another thousand. -/
def C87Statement : Prop := ∀ (cfg : Config) (data : List UInt8) (base : Nat),
  (Metered.readFontSet (tape cfg data) base).2.steps ≤ 1000 * (data.length + 1)

/-- **C87.**  Counting does not change what is read. -/
theorem C87_same (cfg : Config) (data : List UInt8) (base : Nat) :
    (Metered.readFontSet (tape cfg data) base).1 = FontSet.read (tape cfg data) base ∧
    (Metered.readIndex (tape cfg data) base).1 = Index.read (tape cfg data) base :=
  ⟨Metered.erases_readFontSet base, Metered.erases_readIndex base⟩

/-- **C87.**  Reading an INDEX of `n` objects takes `2 n + 3` steps and one for each byte of the
objects; if there are no objects, one. -/
theorem C87_index (cfg : Config) (data : List UInt8) (base q : Nat) (ix : Index) (h : Index.read (tape cfg data) base = (.ok ix, q)) :
    (Metered.readIndex (tape cfg data) base).2.steps = if ix.data = [] then 1 else 3 + 2 * ix.data.length + weight ix := by
  rw [Metered.readIndex_steps (q := q) ((Metered.erases_readIndex base).trans h)]
  simp only [List.length_eq_zero_iff]

/-- The case of an INDEX of two objects of two bytes and one. -/
example : (Metered.readIndex (tape fileBuild [0, 2, 1, 1, 3, 4, 7, 8, 9]) 0).2.steps = 3 + 2 * 2 + 3 := by
  have h : Index.read (tape fileBuild [0, 2, 1, 1, 3, 4, 7, 8, 9]) 0 = (.ok ⟨2, 1, [1, 3, 4], [[7, 8], [9]]⟩, 9) := by decide +kernel
  exact C87_index _ _ _ _ _ h

/-- **C87, in part.**  If a font set is read, then the steps are at least as many as the bytes that
it holds, and at most a hundred for each byte of the file, taken once, once more for each font
and once more for each private dictionary. -/
theorem C87_read_partial (cfg : Config) (data : List UInt8) (base q : Nat) (fs : FontSet) (h : FontSet.read (tape cfg data) base = (.ok fs, q)) :
    held fs ≤ (Metered.readFontSet (tape cfg data) base).2.steps ∧
    (Metered.readFontSet (tape cfg data) base).2.steps ≤ 100 * (data.length + 1) * (1 + fs.characterStrings.length + privateCount fs) := by
  have h1 := (Metered.tally_readFontSet (env := tape cfg data) base).1 fs q ((Metered.erases_readFontSet base).trans h)
  rw [Nat.zero_add] at h1
  exact h1

/-- **C87, in part.**  Whatever the file and whether or not it can be read, the steps are at most
cubic in its size, and at most proportional to it with a constant that is quadratic in the
greatest number of fonts. -/
theorem C87_bounded_partial (cfg : Config) (data : List UInt8) (base : Nat) :
    (Metered.readFontSet (tape cfg data) base).2.steps ≤
      100 * (data.length + 1) * (1 + min 65535 data.length * (1 + min 65535 data.length)) := by
  have h1 := (Metered.tally_readFontSet (env := tape cfg data) base).2
  rw [Nat.zero_add] at h1
  exact h1

/-- **C87.**  How many steps small files take: `k` fonts that share one list of `d` font
dictionaries, which share `m` bytes of subroutines. -/
theorem C87_amplified (cfg : Config) (hseek : 2 ^ 31 ≤ cfg.maxSeek) (k d m : Nat) (hk : 1 ≤ k) (hk' : k ≤ 65535)
    (hd : 1 ≤ d) (hd' : d ≤ 65535) (hm : m < 2 ^ 30) :
    ∃ data, data.length = 41 * k + 15 * d + m + 44 ∧ k * (d * m) ≤ (Metered.readFontSet (tape cfg data) 0).2.steps := by
  obtain ⟨data, fs, q, h1, h2, h3⟩ := C77_amplified cfg hseek k d m hk hk' hd hd' hm
  exact ⟨data, h1, h3 ▸ (C87_read_partial cfg data 0 q fs h2).1⟩

/-- **C87, negation.** -/
theorem C87_false : ¬ C87Statement := by
  intro h
  obtain ⟨data, h1, h2⟩ := C87_amplified fileBuild (by decide) 65535 65535 1000 (by omega) (by omega) (by omega) (by omega) (by omega)
  have := h fileBuild data 0
  omega

/-- The cubic growth is the right one: files of at most `101 n` bytes with `n ^ 3` steps. -/
example (n : Nat) (h1 : 1 ≤ n) (h2 : n ≤ 65535) :
    ∃ data, data.length ≤ 101 * n ∧ n * (n * n) ≤ (Metered.readFontSet (tape fileBuild data) 0).2.steps := by
  obtain ⟨data, h3, h4⟩ := C87_amplified fileBuild (by decide) n n n h1 h2 h1 h2 (by omega)
  exact ⟨data, by omega, h4⟩

/-! ## C88 -/

/-- **C88**, the full statement: reading never reserves memory for more than a thousand bytes for
each byte of the file at once, and another thousand, with vectors of given lengths reserving
memory for all of their elements first or not. -/
def C88Statement (prealloc : Bool) : Prop := ∀ (cfg : Config) (data : List UInt8) (base : Nat), cfg.prealloc = prealloc →
  (Metered.readFontSet (tape cfg data) base).2.reserved ≤ 1000 * (data.length + 1)

/-- **C88, in part.**  Whatever the file, memory is not reserved for `2 ^ 32 - 1` bytes or more at
once, and only for 3 MB if vectors of given lengths grow as they are read. -/
theorem C88_bounded_partial (cfg : Config) (data : List UInt8) (base : Nat) :
    (Metered.readFontSet (tape cfg data) base).2.reserved ≤ if cfg.prealloc then 2 ^ 32 - 2 else 48 * 65535 :=
  Metered.fits_readFontSet (env := tape cfg data) base

/-- The header, and an INDEX that claims to have one object of `2 ^ 32 - 2` bytes. -/
def greedy : List UInt8 := [1, 0, 4, 4, 0, 1, 4, 0, 0, 0, 1, 255, 255, 255, 255]

/-- **C88.**  A file of 15 bytes, which cannot be read, takes the greatest amount there is. -/
theorem C88_greedy : ∀ checks : Bool,
    (Metered.readFontSet (tape { fileBuild with checks, prealloc := true } greedy) 0).2.reserved = 2 ^ 32 - 2 ∧
    ((FontSet.read (tape { fileBuild with checks, prealloc := true } greedy) 0).1 matches .err .eof) = true := by
  decide +kernel

/-- **C88.**  If vectors of given lengths grow as they are read, then a file of 7 bytes takes 256 kB. -/
theorem C88_offsets : ∀ checks : Bool,
    (Metered.readFontSet (tape { fileBuild with checks, prealloc := false } [1, 0, 4, 4, 255, 255, 1]) 0).2.reserved = 2 ^ 18 ∧
    ((FontSet.read (tape { fileBuild with checks, prealloc := false } [1, 0, 4, 4, 255, 255, 1]) 0).1 matches .err .eof) = true := by
  decide +kernel

/-- **C88, negation.**  It holds neither if memory is reserved for vectors of given lengths nor if not. -/
theorem C88_false : ∀ prealloc : Bool, ¬ C88Statement prealloc := by
  rintro (_ | _) h
  · have h1 := h { fileBuild with checks := false, prealloc := false } [1, 0, 4, 4, 255, 255, 1] 0 rfl
    rw [(C88_offsets false).1] at h1
    simp only [List.length_cons, List.length_nil] at h1
    omega
  · have h1 := h { fileBuild with checks := false, prealloc := true } greedy 0 rfl
    rw [(C88_greedy false).1] at h1
    simp only [greedy, List.length_cons, List.length_nil] at h1
    omega

end PS
