import Verif.Lemmas.Merge
import Verif.Props.Subset
/-!
# Property C94: merging font sets
-/
namespace PS
open Spec

theorem behind_iff (n : Nat) (strings : List (List UInt8)) (i j : Nat) :
    behind n strings i = some j ↔ i < 391 ∧ j = i ∨ 391 ≤ i ∧ i < 391 + strings.length ∧ j = i + n := by
  unfold behind
  by_cases h1 : i < 391
  · rw [if_pos h1, Option.some.injEq]; omega
  · rw [if_neg h1]
    by_cases h2 : i < 391 + strings.length
    · rw [if_pos h2, Option.some.injEq]; omega
    · rw [if_neg h2]
      simp only [reduceCtorEq, false_iff]
      omega

theorem standard_length : standardStringList.length = 391 := by decide +kernel

/-- **C94.**  Identifiers of strings that are put behind others: they lead to the same strings
if the number of the others is added. -/
theorem C94_behind (before strings after : List (List UInt8)) (h : 391 + before.length + strings.length ≤ 65536) :
    Renaming (behind before.length strings) strings (before ++ strings ++ after) := by
  refine ⟨fun i hi => if_pos hi, fun i i' j h1 h2 => ?_, fun i j h1 => ?_, fun i j hij t => ?_⟩
  · rw [behind_iff] at h1 h2; omega
  · rw [behind_iff] at h1; omega
  · rw [behind_iff] at hij
    unfold StringOf
    rcases hij with ⟨hi, rfl⟩ | ⟨hi, hi', rfl⟩
    · constructor
      · rintro (a | ⟨a, -⟩)
        · exact .inl a
        · omega
      · rintro (a | ⟨a, -⟩)
        · exact .inl a
        · omega
    · have e : (before ++ strings ++ after)[i + before.length - 391]? = strings[i - 391]? := by
        have e1 : i + before.length - 391 - before.length = i - 391 := by omega
        rw [List.append_assoc, List.getElem?_append_right (by omega), e1, List.getElem?_append_left (by omega)]
      have n1 : standardStringList[i]? = none := List.getElem?_eq_none (by rw [standard_length]; omega)
      have n2 : standardStringList[i + before.length]? = none := List.getElem?_eq_none (by rw [standard_length]; omega)
      rw [e, n1, n2]
      simp only [reduceCtorEq, false_or]
      exact and_congr_left fun _ => by omega

/-- **C94.**  The strings of a font set can be moved: for every font set that was read from any
file, in any layout, and every way to rename string identifiers, there is a file of which reading
gives the same font set with the other strings and the other identifiers. -/
theorem C94_moved (cfg : Config) (data : List UInt8) (hdata : data.length < 2 ^ 61) (base q : Nat) (fs : FontSet)
    (h : FontSet.read (tape cfg data) base = (.ok fs, q)) (ρ : Nat → Option Nat) (strings : List (List UInt8))
    (hρ : Renaming ρ fs.strings.data strings) (hu : ∀ k sid, Uses fs k sid → (ρ sid).isSome) (hs : strings.length ≤ 65535)
    (hsize : 5 * rewriteBulk data.length fs + indexBulk strings < 2 ^ 31) :
    ∃ bytes : List UInt8, bytes.length < 2 ^ 31 ∧
      ∀ (cfg' : Config) (pre post : List UInt8), (pre ++ bytes ++ post).length < 2 ^ 61 →
        pre.length + 2 ^ 31 ≤ cfg'.maxSeek →
        ∃ fs' q', FontSet.read (tape cfg' (pre ++ bytes ++ post)) pre.length = (.ok fs', q') ∧ Moved ρ strings fs fs' := by
  obtain ⟨d, hin, hv, hw⟩ := def_of ((C32_layout_iff cfg data hdata base fs).mp ⟨q, h⟩)
  change d.write.length ≤ rewriteBulk data.length fs at hw
  obtain ⟨v1, v2, v3, v4, v5, v6⟩ := hv (by omega)
  obtain ⟨fonts, hf⟩ := Merging.fonts_moved hρ.standard hρ.small hρ.injective fun f hf => ⟨v5 f hf, Merging.known_of hin hu f hf⟩
  obtain ⟨b1, b2, b3⟩ := Merging.fonts_bulk hf
  have hd : (⟨d.names, strings, d.globals, fonts⟩ : FontSetDef).Valid := by
    refine ⟨v1, Recoding.fits hs (by show indexBulk strings ≤ _; omega), v3, by show fonts.length ≤ _; omega, fun f' hf' => ?_, ?_⟩
    · obtain ⟨f, -, hm⟩ := Merging.forall₂_mem_right hf hf'
      exact hm.1
    · have h1 := write_length d
      have h2 := write_length ⟨d.names, strings, d.globals, fonts⟩
      have h3 := Recoding.index_bulk strings
      simp only at h2
      rw [h2]
      split at h1 <;> split <;> omega
  refine ⟨_, hd.2.2.2.2.2, fun cfg' pre post h3 h4 => ?_⟩
  obtain ⟨fs', q', h5, h6⟩ := C60_round_trip hd cfg' pre post h3 h4
  have l1 : fs.operations.length = d.fonts.length := hin.2.2.2.1.length_eq.symm
  have l2 : fs'.operations.length = fonts.length := h6.2.2.2.1.length_eq.symm
  refine ⟨fs', q', h5, h6.1.trans hin.1.symm, h6.2.1, h6.2.2.1.trans hin.2.2.1.symm, by omega, fun k hk => ?_⟩
  obtain ⟨f', hf', hm⟩ := forall₂_getElem? hf (List.getElem?_eq_getElem (by omega : k < d.fonts.length))
  exact Merging.moved_in hin h6 (List.getElem?_eq_getElem _) hf' hm

theorem sum_nil {α : Type} {l : List α} (g : α → Nat) (h : l.length = 0) : (l.map g).sum = 0 := by
  rw [List.length_eq_zero_iff.mp h]
  rfl

theorem encodeIndex_append (a b : List (List UInt8)) :
    (encodeIndex 4 (a ++ b)).length ≤ (encodeIndex 4 a).length + (encodeIndex 4 b).length := by
  rw [encodeIndex_length, encodeIndex_length, encodeIndex_length]
  simp only [List.length_append, List.map_append, List.sum_append]
  have h1 := sum_nil (l := a) List.length
  have h2 := sum_nil (l := b) List.length
  split <;> split <;> split <;> omega

theorem fits_append {a b : List (List UInt8)} (h : a.length + b.length ≤ 65535) (h2 : (encodeIndex 4 a).length + (encodeIndex 4 b).length < 2 ^ 31) :
    IndexFits 4 (a ++ b) := by
  refine ⟨by rw [List.length_append]; exact h, by omega, by omega, ?_⟩
  have h3 := encodeIndex_append a b
  rw [encodeIndex_length] at h3
  rw [List.length_flatten]
  norm_num
  split at h3
  · rename_i h4
    rw [List.length_append] at h4
    rw [sum_nil _ (by omega : a.length = 0), sum_nil _ (by omega : b.length = 0)]
    omega
  · rw [List.map_append, List.sum_append] at h3
    omega

theorem merge_defs {d1 d2 : FontSetDef} {fs1 fs2 : FontSet} (in1 : d1.In fs1) (in2 : d2.In fs2) (dv1 : d1.Valid) (dv2 : d2.Valid)
    (hg : fs1.subroutines.data = fs2.subroutines.data)
    (hu1 : ∀ k sid, Uses fs1 k sid → sid < 391 + fs1.strings.data.length)
    (hu2 : ∀ k sid, Uses fs2 k sid → sid < 391 + fs2.strings.data.length)
    (hs : 391 + fs1.strings.data.length + fs2.strings.data.length ≤ 65536)
    (hn : fs1.names.data.length + fs2.names.data.length ≤ 65535) (ho : fs1.operations.length + fs2.operations.length ≤ 65535)
    (hsize : 5 * (d1.write.length + d2.write.length) < 2 ^ 31) :
    ∃ bytes : List UInt8, bytes.length < 2 ^ 31 ∧
      ∀ (cfg' : Config) (pre post : List UInt8), (pre ++ bytes ++ post).length < 2 ^ 61 →
        pre.length + 2 ^ 31 ≤ cfg'.maxSeek →
        ∃ fs' q', FontSet.read (tape cfg' (pre ++ bytes ++ post)) pre.length = (.ok fs', q') ∧ Merged fs1 fs2 fs' := by
  obtain ⟨v1, v2, v3, v4, v5, v6⟩ := dv1
  obtain ⟨u1, u2, u3, u4, u5, u6⟩ := dv2
  have r1 := C94_behind [] fs1.strings.data fs2.strings.data (by simp only [List.length_nil]; omega)
  have r2 := C94_behind fs1.strings.data fs2.strings.data [] hs
  rw [List.nil_append, List.length_nil] at r1
  rw [List.append_nil] at r2
  have some_of : ∀ n strings sid, sid < 391 + strings.length → (behind n strings sid).isSome := by
    intro n strings sid hsid
    unfold behind
    split
    · rfl
    · rfl
  obtain ⟨f1, m1⟩ := Merging.fonts_moved r1.standard r1.small r1.injective fun f hf =>
    ⟨v5 f hf, Merging.known_of in1 (fun k sid hk => some_of _ _ _ (hu1 k sid hk)) f hf⟩
  obtain ⟨f2, m2⟩ := Merging.fonts_moved r2.standard r2.small r2.injective fun f hf =>
    ⟨u5 f hf, Merging.known_of in2 (fun k sid hk => some_of _ _ _ (hu2 k sid hk)) f hf⟩
  obtain ⟨b1, b2, b3⟩ := Merging.fonts_bulk m1
  obtain ⟨c1, c2, c3⟩ := Merging.fonts_bulk m2
  have l1 : fs1.operations.length = d1.fonts.length := in1.2.2.2.1.length_eq.symm
  have l2 : fs2.operations.length = d2.fonts.length := in2.2.2.2.1.length_eq.symm
  have e1 := write_length d1
  have e2 := write_length d2
  have hd : (⟨d1.names ++ d2.names, d1.strings ++ d2.strings, d1.globals, f1 ++ f2⟩ : FontSetDef).Valid := by
    refine ⟨fits_append (by rw [← in1.1, ← in2.1]; exact hn) (by omega), fits_append (by rw [← in1.2.1, ← in2.2.1]; omega) (by omega), v3,
      by show (f1 ++ f2).length ≤ _; rw [List.length_append]; omega, fun f' hf' => ?_, ?_⟩
    · rcases List.mem_append.mp hf' with hf' | hf'
      · obtain ⟨f, -, hm⟩ := Merging.forall₂_mem_right m1 hf'
        exact hm.1
      · obtain ⟨f, -, hm⟩ := Merging.forall₂_mem_right m2 hf'
        exact hm.1
    · have h3 := write_length ⟨d1.names ++ d2.names, d1.strings ++ d2.strings, d1.globals, f1 ++ f2⟩
      have h4 := encodeIndex_append d1.names d2.names
      have h5 := encodeIndex_append d1.strings d2.strings
      simp only [List.length_append, List.map_append, List.sum_append] at h3
      rw [h3]
      have s1 := sum_nil (l := f1) fun f => (f.dict 0).length
      have s2 := sum_nil (l := f2) fun f => (f.dict 0).length
      have s3 := sum_nil (l := f1) fun f => (f.blob 0).length
      have s4 := sum_nil (l := f2) fun f => (f.blob 0).length
      split at e1 <;> split at e2 <;> split <;> omega
  refine ⟨_, hd.2.2.2.2.2, fun cfg' pre post h3 h4 => ?_⟩
  obtain ⟨fs', q', h5, h6⟩ := C60_round_trip hd cfg' pre post h3 h4
  have l3 : fs'.operations.length = (f1 ++ f2).length := h6.2.2.2.1.length_eq.symm
  rw [List.length_append] at l3
  refine ⟨fs', q', h5, by rw [in1.1, in2.1]; exact h6.1, by rw [in1.2.1, in2.2.1]; exact h6.2.1, h6.2.2.1.trans in1.2.2.1.symm,
    (h6.2.2.1.trans in1.2.2.1.symm).trans hg, by omega, fun k hk => ?_, fun k hk => ?_⟩
  · obtain ⟨f', hf', hm⟩ := forall₂_getElem? m1 (List.getElem?_eq_getElem (by omega : k < d1.fonts.length))
    refine Merging.moved_in in1 h6 (List.getElem?_eq_getElem (by omega)) (f' := f') ?_ hm
    rw [List.getElem?_append_left (by omega)]
    exact hf'
  · obtain ⟨f', hf', hm⟩ := forall₂_getElem? m2 (List.getElem?_eq_getElem (by omega : k < d2.fonts.length))
    refine Merging.moved_in in2 h6 (List.getElem?_eq_getElem (by omega)) (f' := f') ?_ hm
    rw [List.getElem?_append_right (by omega), show fs1.operations.length + k - f1.length = k by omega]
    exact hf'

/-- **C94.**  Font sets can be merged: for every two font sets with the same global subroutines,
each of which was read from any file, in any layout, there is a file of which reading gives a font
set with the fonts of the first and those of the second.  They are as they were, but for the
identifiers of the strings.  (All the identifiers that character sets, encodings and records have
need to be there, and there must not be too many strings and fonts.  By `C91_flat`, fonts can be
freed of global subroutines first.) -/
theorem C94_merged (cfg1 cfg2 : Config) (data1 data2 : List UInt8) (hdata1 : data1.length < 2 ^ 61) (hdata2 : data2.length < 2 ^ 61)
    (base1 base2 q1 q2 : Nat) (fs1 fs2 : FontSet) (h1 : FontSet.read (tape cfg1 data1) base1 = (.ok fs1, q1))
    (h2 : FontSet.read (tape cfg2 data2) base2 = (.ok fs2, q2)) (hg : fs1.subroutines.data = fs2.subroutines.data)
    (hu1 : ∀ k sid, Uses fs1 k sid → sid < 391 + fs1.strings.data.length)
    (hu2 : ∀ k sid, Uses fs2 k sid → sid < 391 + fs2.strings.data.length)
    (hs : 391 + fs1.strings.data.length + fs2.strings.data.length ≤ 65536)
    (hn : fs1.names.data.length + fs2.names.data.length ≤ 65535) (ho : fs1.operations.length + fs2.operations.length ≤ 65535)
    (hsize : 5 * (rewriteBulk data1.length fs1 + rewriteBulk data2.length fs2) < 2 ^ 31) :
    ∃ bytes : List UInt8, bytes.length < 2 ^ 31 ∧
      ∀ (cfg' : Config) (pre post : List UInt8), (pre ++ bytes ++ post).length < 2 ^ 61 →
        pre.length + 2 ^ 31 ≤ cfg'.maxSeek →
        ∃ fs' q', FontSet.read (tape cfg' (pre ++ bytes ++ post)) pre.length = (.ok fs', q') ∧ Merged fs1 fs2 fs' := by
  obtain ⟨d1, in1, dv1, w1⟩ := def_of ((C32_layout_iff cfg1 data1 hdata1 base1 fs1).mp ⟨q1, h1⟩)
  obtain ⟨d2, in2, dv2, w2⟩ := def_of ((C32_layout_iff cfg2 data2 hdata2 base2 fs2).mp ⟨q2, h2⟩)
  change d1.write.length ≤ rewriteBulk data1.length fs1 at w1
  change d2.write.length ≤ rewriteBulk data2.length fs2 at w2
  exact merge_defs in1 in2 (dv1 (by omega)) (dv2 (by omega)) hg hu1 hu2 hs hn ho (by omega)

/-- **C94.**  The glyphs of a font with other string identifiers show the same, in any build. -/
theorem C94_shows {ρ : Nat → Option Nat} {fs fs' : FontSet} {k k' : Nat} (hg : fs'.subroutines.data = fs.subroutines.data)
    (h : MovedFont ρ fs k fs' k') (cfg : Config) (g : Nat) (l : List Type2.Spec.Observation) (out : Type2.Spec.Outcome) :
    Shows cfg fs' k' g l out ↔ Shows cfg fs k g l out := by
  obtain ⟨o, o', cs, cs', s, s', e, e', r, r', a1, b1, a2, b2, a3, b3, a4, b4, a5, b5, -, hc, hr, -⟩ := h
  have key : ∀ ix, (∃ ix', LocalFor r' g ix' ∧ ix'.data = ix) ↔ ∃ ix', LocalFor r g ix' ∧ ix'.data = ix := by
    intro ix
    cases r with
    | characterNameKeyed r =>
      cases r' with
      | characterIDKeyed r' => exact hr.elim
      | characterNameKeyed r' =>
        simp only [LocalFor, exists_eq_left]
        rw [show r.subroutines.data = r'.subroutines.data from hr.2]
    | characterIDKeyed r =>
      cases r' with
      | characterNameKeyed r' => exact hr.elim
      | characterIDKeyed r' =>
        obtain ⟨-, -, -, h4, -, h6⟩ := hr
        constructor
        · rintro ⟨_, ⟨d, p, c1, c2, rfl⟩, rfl⟩
          obtain ⟨p', c3, c4⟩ := forall₂_getElem? (List.Forall₂.flip h6) c2
          exact ⟨_, ⟨d, p', by rw [h4]; exact c1, c3, rfl⟩, c4.2⟩
        · rintro ⟨_, ⟨d, p, c1, c2, rfl⟩, rfl⟩
          obtain ⟨p', c3, c4⟩ := forall₂_getElem? h6 c2
          exact ⟨_, ⟨d, p', by rw [← h4]; exact c1, c3, rfl⟩, c4.2.symm⟩
  constructor
  · rintro ⟨x1, x2, code, loc, y1, y2, y3, y4, y5⟩
    rw [b2] at y1
    rw [b5] at y2
    injection y1 with y1
    injection y2 with y2
    subst y1 y2
    obtain ⟨loc', z1, z2⟩ := (key _).mp ⟨loc, y4, rfl⟩
    exact ⟨cs, r, code, loc', a2, a5, by rw [← hc]; exact y3, z1, by rw [z2, ← hg]; exact y5⟩
  · rintro ⟨x1, x2, code, loc, y1, y2, y3, y4, y5⟩
    rw [a2] at y1
    rw [a5] at y2
    injection y1 with y1
    injection y2 with y2
    subst y1 y2
    obtain ⟨loc', z1, z2⟩ := (key _).mpr ⟨loc, y4, rfl⟩
    exact ⟨cs', r', code, loc', b2, b5, by rw [hc]; exact y3, z1, by rw [z2, hg]; exact y5⟩

/-- **C94.**  The glyphs have the same names, the same codes lead to them, and glyphs with
character identifiers have those of the same collection. -/
theorem C94_names {ρ : Nat → Option Nat} {fs fs' : FontSet} {k k' : Nat} (hρ : Renaming ρ fs.strings.data fs'.strings.data)
    (h : MovedFont ρ fs k fs' k') (g : Nat) :
    (∀ t, GlyphNamed fs' k' g t ↔ GlyphNamed fs k g t) ∧ (∀ code, CodeLeads fs' k' code g ↔ CodeLeads fs k code g) ∧
    ∀ registry ordering supplement, Collection fs' k' registry ordering supplement ↔ Collection fs k registry ordering supplement := by
  obtain ⟨o, o', cs, cs', s, s', e, e', r, r', a1, b1, a2, b2, a3, b3, a4, b4, a5, b5, -, -, hr, hm⟩ := h
  unfold GlyphNamed CodeLeads Collection
  simp only [a3, b3, a4, b4, a5, b5, Option.some.injEq]
  cases r with
  | characterNameKeyed r =>
    cases r' with
    | characterIDKeyed r' => exact hr.elim
    | characterNameKeyed r' =>
      obtain ⟨m1, m2⟩ := hm
      refine ⟨fun t => ⟨?_, ?_⟩, fun code => ⟨?_, ?_⟩, fun a b c => ⟨?_, ?_⟩⟩
      · rintro ⟨_, _, sid, -, rfl, h1, h2⟩
        obtain ⟨i, c1, c2⟩ := forall₂_getElem? (List.Forall₂.flip m1) h1
        exact ⟨r, s, i, rfl, rfl, c1, (hρ.text i sid c2 t).mpr h2⟩
      · rintro ⟨_, _, sid, -, rfl, h1, h2⟩
        obtain ⟨i, c1, c2⟩ := forall₂_getElem? m1 h1
        exact ⟨r', s', i, rfl, rfl, c1, (hρ.text sid i c2 t).mp h2⟩
      · rintro ⟨_, _, rfl, rfl, h1⟩
        exact ⟨s, e, rfl, rfl, (m2 code g).mp h1⟩
      · rintro ⟨_, _, rfl, rfl, h1⟩
        exact ⟨s', e', rfl, rfl, (m2 code g).mpr h1⟩
      · rintro ⟨_, h1, -⟩
        exact absurd h1 (by simp)
      · rintro ⟨_, h1, -⟩
        exact absurd h1 (by simp)
  | characterIDKeyed r =>
    cases r' with
    | characterNameKeyed r' => exact hr.elim
    | characterIDKeyed r' =>
      obtain ⟨rfl, rfl⟩ := hm
      obtain ⟨h1, h2, h3, -, -, -⟩ := hr
      simp only [reduceCtorEq, false_and, exists_false, implies_true, true_and, Record.characterIDKeyed.injEq, exists_eq_left']
      intro a b c
      rw [hρ.text _ _ h1 a, hρ.text _ _ h2 b, h3]

/-- **C94.**  The strings in the dictionary of a font are the same. -/
theorem C94_strings {ρ : Nat → Option Nat} {fs fs' : FontSet} {k k' : Nat} (hρ : Renaming ρ fs.strings.data fs'.strings.data)
    (h : MovedFont ρ fs k fs' k') {op : Operator} (hop : op ∈ textual)
    (hu : ∀ o i, fs.operations[k]? = some o → o.map op = some [.integer i] → 0 ≤ i ∧ (ρ i.toNat).isSome) (t : String) :
    DictString fs' k' op t ↔ DictString fs k op t := by
  obtain ⟨o, o', cs, cs', s, s', e, e', r, r', a1, b1, a2, b2, a3, b3, a4, b4, a5, b5, hd, -, -, -⟩ := h
  have hd := hd op (by revert hop; cases op <;> decide)
  unfold DictString
  simp only [a1, b1, Option.some.injEq, exists_and_left, exists_eq_left', hd, if_pos hop]
  constructor
  · rintro ⟨j, h1, h2⟩
    obtain ⟨xs, h3, h4⟩ := Option.map_eq_some_iff.mp h1
    obtain ⟨n, rfl, h5⟩ := List.map_eq_singleton_iff.mp h4
    cases n with
    | real x => exact absurd h5 (by simp [movedNumber])
    | integer i =>
      obtain ⟨hi, hs⟩ := hu o i a1 h3
      obtain ⟨j', hj⟩ := Option.isSome_iff_exists.mp hs
      simp only [movedNumber, if_pos hi, hj, Option.getD_some, Number.integer.injEq, Nat.cast_inj] at h5
      subst h5
      exact ⟨i.toNat, by rw [Int.toNat_of_nonneg hi]; exact h3, (hρ.text _ _ hj t).mpr h2⟩
  · rintro ⟨i, h1, h2⟩
    obtain ⟨-, hs⟩ := hu o i a1 h1
    rw [Int.toNat_natCast] at hs
    obtain ⟨j, hj⟩ := Option.isSome_iff_exists.mp hs
    exact ⟨j, by simp [h1, movedNumber, hj], (hρ.text _ _ hj t).mp h2⟩

theorem preserved {n : Nat} {fs fs' : FontSet} {k k' : Nat} (hg : fs'.subroutines.data = fs.subroutines.data)
    (hρ : Renaming (behind n fs.strings.data) fs.strings.data fs'.strings.data)
    (h : MovedFont (behind n fs.strings.data) fs k fs' k') : Preserved fs k fs' k' := by
  refine ⟨C94_shows hg h, fun g => (C94_names hρ h g).1, fun code g => (C94_names hρ h g).2.1 code, (C94_names hρ h 0).2.2, ?_⟩
  rintro op hop t ⟨o, i, h1, h2, h3⟩
  refine (C94_strings hρ h hop (fun o' i' h1' h2' => ?_) t).mpr ⟨o, i, h1, h2, h3⟩
  rw [h1] at h1'
  injection h1' with h1'
  subst h1'
  rw [h2] at h2'
  simp only [Option.some.injEq, List.cons.injEq, Number.integer.injEq, and_true] at h2'
  subst h2'
  refine ⟨by omega, ?_⟩
  rw [Int.toNat_natCast]
  have hi : i < 391 + fs.strings.data.length := by
    rcases h3 with h3 | ⟨-, c, h3, -⟩
    · have := (List.getElem?_eq_some_iff.mp h3).1
      rw [standard_length] at this
      omega
    · have := (List.getElem?_eq_some_iff.mp h3).1
      omega
  by_cases h391 : i < 391
  · exact Option.isSome_iff_exists.mpr ⟨_, (behind_iff _ _ _ _).mpr (.inl ⟨h391, rfl⟩)⟩
  · exact Option.isSome_iff_exists.mpr ⟨_, (behind_iff _ _ _ _).mpr (.inr ⟨by omega, hi, rfl⟩)⟩

/-- **C94.**  In a merged font set, the fonts are as they were: their glyphs show the same, in any
build, have the same names, the same codes lead to them, and the strings in the dictionaries and
in the records are the same. -/
theorem C94_fonts {fs1 fs2 fs' : FontSet} (h : Merged fs1 fs2 fs')
    (hs : 391 + fs1.strings.data.length + fs2.strings.data.length ≤ 65536) :
    (∀ k < fs1.operations.length, Preserved fs1 k fs' k) ∧
    ∀ k < fs2.operations.length, Preserved fs2 k fs' (fs1.operations.length + k) := by
  obtain ⟨-, h2, h3, h4, -, h5, h6⟩ := h
  have r1 := C94_behind [] fs1.strings.data fs2.strings.data (by simp only [List.length_nil]; omega)
  have r2 := C94_behind fs1.strings.data fs2.strings.data [] hs
  rw [List.nil_append, List.length_nil, ← h2] at r1
  rw [List.append_nil, ← h2] at r2
  exact ⟨fun k hk => preserved h3 r1 (h5 k hk), fun k hk => preserved h4 r2 (h6 k hk)⟩

/-! ## The hypotheses can be met -/

theorem ranges_uses {fs : FontSet} (hin : rangesDef.In fs) : ∀ k sid, Uses fs k sid → sid < 391 + fs.strings.data.length := by
  intro k sid hu
  have hs : fs.strings.data.length = 2 := by rw [hin.2.1]; rfl
  rw [hs]
  have hk : k < 2 := by
    have : fs.records.length = 2 := hin.2.2.2.2.2.2.2.length_eq.symm
    rcases hu with ⟨_, _, h, -⟩ | ⟨_, _, _, _, h, -⟩ | ⟨_, h, -⟩ <;>
      · have := (List.getElem?_eq_some_iff.mp h).1
        omega
  obtain ⟨f, hf⟩ : ∃ f, rangesDef.fonts[k]? = some f := ⟨_, List.getElem?_eq_getElem hk⟩
  obtain ⟨o, cs, r, -, -, a3, a4, a5, -, -, a8⟩ := Merging.font_in hin hf
  rcases (by omega : k = 0 ∨ k = 1) with rfl | rfl
  all_goals
    simp only [rangesDef, List.getElem?_cons_zero, List.getElem?_cons_succ, Option.some.injEq] at hf
    subst hf
  · rcases hu with ⟨_, s, h, h1, h2⟩ | ⟨_, _, _, _, h, h1, -⟩ | ⟨_, h, h1⟩
    · rw [a3] at h1
      injection h1 with h1
      subst h1
      revert sid
      simp only
      decide
    · rw [a4] at h1
      exact absurd h1 (by simp)
    · rw [a5] at h
      injection h with h
      subst h
      exact a8.elim
  · rcases hu with ⟨_, s, h, h1, h2⟩ | ⟨_, _, _, _, h, h1, -⟩ | ⟨_, h, h1⟩
    · rw [a5] at h
      injection h with h
      subst h
      exact a8.elim
    · rw [a4] at h1
      exact absurd h1 (by simp)
    · rw [a5] at h
      injection h with h
      subst h
      obtain ⟨b1, b2, -⟩ := a8
      omega

theorem ranges_bulk {fs : FontSet} (hin : rangesDef.In fs) : rewriteBulk rangesDef.write.length fs < 2 ^ 21 := by
  have h1 : fs.operations.length = 2 := hin.2.2.2.1.length_eq.symm
  have h3 : FontSet.privates fs = 3 := by
    have := hin.2.2.2.2.2.2.2
    rw [FontSet.privates]
    generalize fs.records = rs at this
    simp only [rangesDef] at this
    cases this with
    | @cons _ r1 _ rs a1 b1 =>
      cases b1 with
      | @cons _ r2 _ rs a2 b2 =>
        cases b2
        cases r1 with
        | characterIDKeyed r1 => exact a1.elim
        | characterNameKeyed r1 =>
          cases r2 with
          | characterNameKeyed r2 => exact a2.elim
          | characterIDKeyed r2 =>
            have : r2.records.length = 2 := a2.2.2.2.2.2.length_eq.symm
            simp [privates, this]
  have h4 : rangesDef.write.length ≤ 1000 := by decide +kernel
  unfold rewriteBulk
  rw [h1, h3]
  omega

/-- A font set with two fonts, of which one has names of its own and the other is keyed by
identifiers, can be merged with itself. -/
example : ∃ fs q, FontSet.read (tape checkedBuild rangesDef.write) 0 = (.ok fs, q) ∧
    (∀ k sid, Uses fs k sid → sid < 391 + fs.strings.data.length) ∧ fs.strings.data = [[72, 105], [72, 111]] ∧
    fs.names.data.length = 2 ∧ fs.operations.length = 2 ∧
    5 * (rewriteBulk rangesDef.write.length fs + rewriteBulk rangesDef.write.length fs) < 2 ^ 31 ∧
    391 + fs.strings.data.length + fs.strings.data.length ≤ 65536 := by
  obtain ⟨fs, q, h, hin⟩ := C60_round_trip rangesDef_valid checkedBuild [] [] (by decide +kernel) (by decide)
  rw [List.nil_append, List.append_nil] at h
  have := ranges_bulk hin
  exact ⟨fs, q, h, ranges_uses hin, hin.2.1, by rw [hin.1]; rfl, hin.2.2.2.1.length_eq.symm, by omega, by rw [hin.2.1]; decide⟩

/-- The strings of the font set can be moved behind others: the hypotheses of `C94_moved` are met. -/
example : ∃ fs q, FontSet.read (tape checkedBuild rangesDef.write) 0 = (.ok fs, q) ∧
    Renaming (behind 1 fs.strings.data) fs.strings.data ([[33]] ++ fs.strings.data ++ []) ∧
    (∀ k sid, Uses fs k sid → (behind 1 fs.strings.data sid).isSome) ∧ ([[33]] ++ fs.strings.data ++ []).length ≤ 65535 ∧
    5 * rewriteBulk rangesDef.write.length fs + indexBulk ([[33]] ++ fs.strings.data ++ []) < 2 ^ 31 := by
  obtain ⟨fs, q, h, hin⟩ := C60_round_trip rangesDef_valid checkedBuild [] [] (by decide +kernel) (by decide)
  rw [List.nil_append, List.append_nil] at h
  have h1 := ranges_bulk hin
  have h2 : fs.strings.data = [[72, 105], [72, 111]] := hin.2.1
  refine ⟨fs, q, h, C94_behind [[33]] _ _ (by rw [h2]; decide), fun k sid hk => ?_, by rw [h2]; decide, ?_⟩
  · have := ranges_uses hin k sid hk
    by_cases h391 : sid < 391
    · exact Option.isSome_iff_exists.mpr ⟨_, (behind_iff _ _ _ _).mpr (.inl ⟨h391, rfl⟩)⟩
    · exact Option.isSome_iff_exists.mpr ⟨_, (behind_iff _ _ _ _).mpr (.inr ⟨by omega, this, rfl⟩)⟩
  · have h3 : indexBulk ([[33]] ++ fs.strings.data ++ []) ≤ 1000 := by rw [h2]; decide
    omega

/-- An operand that is a string identifier moves, and others do not. -/
example : movedNumber (behind 1 [[72, 105]]) (.integer 391) = .integer 392 ∧
    movedNumber (behind 1 [[72, 105]]) (.integer 34) = .integer 34 ∧ movedNumber (behind 1 [[72, 105]]) (.integer (-1)) = .integer (-1) := by
  decide

end PS
