import Verif.Spec.Prune
import Verif.Props.Merge
/-!
# Property C95: strings that are not needed
-/
namespace PS
open Spec

theorem kept_iff (ks : List Nat) (i j : Nat) :
    kept ks i = some j ↔ i < 391 ∧ j = i ∨ 391 ≤ i ∧ i - 391 ∈ ks ∧ j = 391 + ks.idxOf (i - 391) := by
  unfold kept
  by_cases h1 : i < 391
  · rw [if_pos h1, Option.some.injEq]; omega
  · rw [if_neg h1]
    by_cases h2 : i - 391 ∈ ks
    · rw [if_pos h2, Option.some.injEq]
      constructor
      · intro h; exact .inr ⟨by omega, h2, h.symm⟩
      · rintro (h | ⟨-, -, h⟩)
        · omega
        · exact h.symm
    · rw [if_neg h2]
      simp only [reduceCtorEq, h2, false_and, and_false, or_false, false_iff]
      omega

/-- The strings that are kept. -/
def choose (ks : List Nat) (strings : List (List UInt8)) : List (List UInt8) := ks.map fun i => strings.getD i []

theorem choose_getElem? {ks : List Nat} {strings : List (List UInt8)} (hb : ∀ i ∈ ks, i < strings.length) {j i : Nat}
    (h : ks[j]? = some i) : (choose ks strings)[j]? = strings[i]? := by
  have hi := hb i (List.mem_of_getElem? h)
  rw [choose, List.getElem?_map, h, Option.map_some, List.getD_eq_getElem?_getD, List.getElem?_eq_getElem hi, Option.getD_some]

/-- **C95.**  Identifiers of strings that are kept lead to the same strings. -/
theorem C95_kept {ks : List Nat} {strings strings' : List (List UInt8)} (hs : 391 + ks.length ≤ 65536)
    (hk : ∀ j i : Nat, ks[j]? = some i → strings'[j]? = strings[i]?) : Renaming (kept ks) strings strings' := by
  have at' : ∀ {i}, i ∈ ks → ks[ks.idxOf i]? = some i := fun {i} hi => by
    have := List.idxOf_lt_length_of_mem hi
    rw [List.getElem?_eq_getElem this, List.getElem_idxOf]
  refine ⟨fun i hi => if_pos hi, fun i i' j h1 h2 => ?_, fun i j h1 => ?_, fun i j hij t => ?_⟩
  · rw [kept_iff] at h1 h2
    rcases h1 with ⟨a1, a2⟩ | ⟨a1, a2, a3⟩ <;> rcases h2 with ⟨b1, b2⟩ | ⟨b1, b2, b3⟩
    · omega
    · omega
    · omega
    · have e1 := at' a2
      have e2 := at' b2
      have e3 : ks.idxOf (i - 391) = ks.idxOf (i' - 391) := by omega
      rw [e3, e2] at e1
      have e4 := Option.some.inj e1
      omega
  · rw [kept_iff] at h1
    rcases h1 with ⟨a1, a2⟩ | ⟨a1, a2, a3⟩
    · omega
    · have := List.idxOf_lt_length_of_mem a2
      omega
  · rw [kept_iff] at hij
    unfold StringOf
    rcases hij with ⟨hi, rfl⟩ | ⟨hi, hi', rfl⟩
    · constructor
      · rintro (a | ⟨a, -⟩)
        · exact .inl a
        · omega
      · rintro (a | ⟨a, -⟩)
        · exact .inl a
        · omega
    · rw [show 391 + ks.idxOf (i - 391) - 391 = ks.idxOf (i - 391) by omega, hk _ _ (at' hi')]
      have n1 : standardStringList[i]? = none := List.getElem?_eq_none (by rw [standard_length]; omega)
      have n2 : standardStringList[391 + ks.idxOf (i - 391)]? = none := List.getElem?_eq_none (by rw [standard_length]; omega)
      rw [n1, n2]
      simp only [reduceCtorEq, false_or]
      exact and_congr_left fun _ => by omega

theorem choose_range (strings : List (List UInt8)) : choose (List.range strings.length) strings = strings := by
  apply List.ext_getElem?
  intro j
  by_cases hj : j < strings.length
  · exact choose_getElem? (fun i hi => List.mem_range.mp hi) (List.getElem?_range hj)
  · rw [List.getElem?_eq_none (by rw [choose, List.length_map, List.length_range]; omega), List.getElem?_eq_none (by omega)]

/-- What is kept is not larger than what there was. -/
theorem choose_bulk {ks : List Nat} {strings : List (List UInt8)} (hn : ks.Nodup) (hb : ∀ i ∈ ks, i < strings.length) :
    indexBulk (choose ks strings) ≤ indexBulk strings := by
  have hsub : ks.Subperm (List.range strings.length) :=
    List.subperm_of_subset hn fun i hi => List.mem_range.mpr (hb i hi)
  obtain ⟨l, hl, hs⟩ := hsub
  have hp : (choose l strings).Perm (choose ks strings) := hl.map _
  have hs' : (choose l strings).Sublist strings := by
    have := hs.map fun i => strings.getD i []
    rwa [show (List.range strings.length).map (fun i => strings.getD i []) = strings from choose_range strings] at this
  have h1 : (choose ks strings).length ≤ strings.length := hp.length_eq ▸ hs'.length_le
  have h2 : (choose ks strings).flatten.length ≤ strings.flatten.length := by
    rw [← hp.flatten.length_eq]
    exact hs'.flatten.length_le
  unfold indexBulk
  omega

/-- **C95.**  Strings that are not needed can be left out: for every font set that was read from
any file, in any layout, and every choice of its strings that has all those of glyph names,
supplements of encodings and collections, in any order, there is a file of which reading gives
the same font set with only the chosen strings. -/
theorem C95_pruned (cfg : Config) (data : List UInt8) (hdata : data.length < 2 ^ 61) (base q : Nat) (fs : FontSet)
    (h : FontSet.read (tape cfg data) base = (.ok fs, q)) (ks : List Nat) (hn : ks.Nodup)
    (hb : ∀ i ∈ ks, i < fs.strings.data.length) (hu : ∀ k sid, Uses fs k sid → sid < 391 ∨ sid - 391 ∈ ks)
    (hs : 391 + ks.length ≤ 65536) (hsize : 7 * rewriteBulk data.length fs < 2 ^ 31) :
    ∃ bytes : List UInt8, bytes.length < 2 ^ 31 ∧
      ∀ (cfg' : Config) (pre post : List UInt8), (pre ++ bytes ++ post).length < 2 ^ 61 →
        pre.length + 2 ^ 31 ≤ cfg'.maxSeek →
        ∃ fs' q', FontSet.read (tape cfg' (pre ++ bytes ++ post)) pre.length = (.ok fs', q') ∧ Pruned ks fs fs' := by
  have hρ : Renaming (kept ks) fs.strings.data (choose ks fs.strings.data) := C95_kept hs fun j i hj => choose_getElem? hb hj
  have hl : (choose ks fs.strings.data).length = ks.length := List.length_map _
  have hbulk : indexBulk fs.strings.data ≤ 2 * rewriteBulk data.length fs := by
    obtain ⟨d, hin, -, hw⟩ := def_of ((C32_layout_iff cfg data hdata base fs).mp ⟨q, h⟩)
    change d.write.length ≤ rewriteBulk data.length fs at hw
    have e := write_length d
    have e2 : indexBulk d.strings ≤ (encodeIndex 4 d.strings).length + 5 := by
      rw [encodeIndex_length, indexBulk, List.length_flatten]
      split <;> simp_all; omega
    have e3 : 100 ≤ rewriteBulk data.length fs := by
      unfold rewriteBulk
      have : 1 ≤ (data.length + 1) * (1 + fs.operations.length + FontSet.privates fs) := Nat.mul_pos (by omega) (by omega)
      rw [Nat.mul_assoc]
      omega
    rw [hin.2.1]
    split at e <;> omega
  have hc := choose_bulk hn hb
  obtain ⟨bytes, h1, h2⟩ := C94_moved cfg data hdata base q fs h (kept ks) (choose ks fs.strings.data) hρ
    (fun k sid hk => by
      rcases hu k sid hk with h | h
      · exact Option.isSome_iff_exists.mpr ⟨_, (kept_iff _ _ _).mpr (.inl ⟨h, rfl⟩)⟩
      · by_cases h391 : sid < 391
        · exact Option.isSome_iff_exists.mpr ⟨_, (kept_iff _ _ _).mpr (.inl ⟨h391, rfl⟩)⟩
        · exact Option.isSome_iff_exists.mpr ⟨_, (kept_iff _ _ _).mpr (.inr ⟨by omega, h, rfl⟩)⟩)
    (by omega) (by omega)
  refine ⟨bytes, h1, fun cfg' pre post h3 h4 => ?_⟩
  obtain ⟨fs', q', h5, m1, m2, m3, m4, m5⟩ := h2 cfg' pre post h3 h4
  exact ⟨fs', q', h5, by rw [m2, hl], fun j i hj => by rw [m2]; exact choose_getElem? hb hj, m1, m3, m4, m5⟩

/-- **C95.**  If the choice has the strings that the dictionaries mention too, then the fonts are as
they were: their glyphs show the same, in any build, have the same names, the same codes lead to
them, and the strings in the dictionaries and in the records are the same. -/
theorem C95_fonts {ks : List Nat} {fs fs' : FontSet} (h : Pruned ks fs fs') (hs : 391 + ks.length ≤ 65536)
    (hm : ∀ k sid, Mentions fs k sid → sid < 391 + fs.strings.data.length → sid < 391 ∨ sid - 391 ∈ ks) :
    ∀ k < fs.operations.length, Preserved fs k fs' k := by
  obtain ⟨-, h2, -, h4, -, h6⟩ := h
  have hρ : Renaming (kept ks) fs.strings.data fs'.strings.data := C95_kept hs h2
  intro k hk
  have h := h6 k hk
  refine ⟨C94_shows h4 h, fun g => (C94_names hρ h g).1, fun code g => (C94_names hρ h g).2.1 code, (C94_names hρ h 0).2.2, ?_⟩
  rintro op hop t ⟨o, i, h1, h2, h3⟩
  have hi : i < 391 + fs.strings.data.length := by
    rcases h3 with h3 | ⟨-, c, h3, -⟩
    · have := (List.getElem?_eq_some_iff.mp h3).1
      rw [standard_length] at this
      omega
    · have := (List.getElem?_eq_some_iff.mp h3).1
      omega
  refine (C94_strings hρ h hop (fun o' i' h1' h2' => ?_) t).mpr ⟨o, i, h1, h2, h3⟩
  rw [h1] at h1'
  injection h1' with h1'
  subst h1'
  rw [h2] at h2'
  simp only [Option.some.injEq, List.cons.injEq, Number.integer.injEq, and_true] at h2'
  subst h2'
  refine ⟨by omega, ?_⟩
  rw [Int.toNat_natCast]
  by_cases h391 : i < 391
  · exact Option.isSome_iff_exists.mpr ⟨_, (kept_iff _ _ _).mpr (.inl ⟨h391, rfl⟩)⟩
  · have := (hm k i ⟨op, hop, o, h1, h2⟩ hi).resolve_left h391
    exact Option.isSome_iff_exists.mpr ⟨_, (kept_iff _ _ _).mpr (.inr ⟨by omega, this, rfl⟩)⟩

/-! ## The hypotheses can be met -/

/-- The two strings of a font set with two fonts, which are both used, can be exchanged. -/
example : ∃ fs q, FontSet.read (tape checkedBuild rangesDef.write) 0 = (.ok fs, q) ∧ fs.strings.data = [[72, 105], [72, 111]] ∧
    (∀ i ∈ [1, 0], i < fs.strings.data.length) ∧ (∀ k sid, Uses fs k sid → sid < 391 ∨ sid - 391 ∈ [1, 0]) ∧
    (∀ k sid, Mentions fs k sid → sid < 391 + fs.strings.data.length → sid < 391 ∨ sid - 391 ∈ [1, 0]) ∧
    7 * rewriteBulk rangesDef.write.length fs < 2 ^ 31 := by
  obtain ⟨fs, q, h, hin⟩ := C60_round_trip rangesDef_valid checkedBuild [] [] (by decide +kernel) (by decide)
  rw [List.nil_append, List.append_nil] at h
  have hs : fs.strings.data = [[72, 105], [72, 111]] := hin.2.1
  have := ranges_bulk hin
  have key : ∀ sid, sid < 391 + fs.strings.data.length → sid < 391 ∨ sid - 391 ∈ [1, 0] := by
    intro sid hsid
    rw [hs] at hsid
    simp only [List.length_cons, List.length_nil, List.mem_cons, List.not_mem_nil] at hsid ⊢
    omega
  exact ⟨fs, q, h, hs, by rw [hs]; decide, fun k sid hk => key sid (ranges_uses hin k sid hk), fun _ sid _ h => key sid h, by omega⟩

/-- Of three strings the first and the last are kept. -/
example : kept [0, 2] 391 = some 391 ∧ kept [0, 2] 392 = none ∧ kept [0, 2] 393 = some 392 ∧ kept [0, 2] 17 = some 17 ∧
    Renaming (kept [0, 2]) [[65], [66], [67]] [[65], [67]] := by
  refine ⟨by decide, by decide, by decide, by decide, C95_kept (by decide) fun j i h => ?_⟩
  match j with
  | 0 => simp at h; subst h; rfl
  | 1 => simp at h; subst h; rfl
  | j + 2 => simp at h

end PS
