import Verif.Lemmas.Edit
/-!
# Property C79: editing font sets
-/
namespace PS
open Spec

/-- **C79.**  Fonts can be taken out of a font set: for every choice of fonts of a font set
that was read from any file, in any layout, there is a file of which reading gives the
chosen fonts, in the chosen order, with the same names and contents, and no others. -/
theorem C79_select (cfg : Config) (data : List UInt8) (hdata : data.length < 2 ^ 61) (base q : Nat) (fs : FontSet)
    (h : FontSet.read (tape cfg data) base = (.ok fs, q))
    (hsize : 100 * (data.length + 1) * (1 + fs.operations.length + FontSet.privates fs) < 2 ^ 31)
    (hnames : fs.names.data.length = fs.operations.length)
    (ks : List Nat) (h1 : ks.Nodup) (h2 : ∀ k ∈ ks, k < fs.operations.length) :
    ∃ bytes : List UInt8, bytes.length < 2 ^ 31 ∧
      ∀ (cfg' : Config) (pre post : List UInt8), (pre ++ bytes ++ post).length < 2 ^ 61 →
        pre.length + 2 ^ 31 ≤ cfg'.maxSeek →
        ∃ fs' q', FontSet.read (tape cfg' (pre ++ bytes ++ post)) pre.length = (.ok fs', q') ∧ Selected ks fs fs' := by
  obtain ⟨d, hin, hv, hw⟩ := def_of ((C32_layout_iff cfg data hdata base fs).mp ⟨q, h⟩)
  have hw' : d.write.length < 2 ^ 31 := by omega
  obtain ⟨v1, v2, v3, v4, v5, -⟩ := hv hw'
  have hn : d.fonts.length = fs.operations.length := hin.2.2.2.1.length_eq
  have p1 : (pick ks d.names).Subperm d.names := pick_subperm h1 fun k hk => by
    rw [← hin.1, hnames]; exact h2 k hk
  have p2 : (pick ks d.fonts).Subperm d.fonts := pick_subperm h1 fun k hk => by rw [hn]; exact h2 k hk
  let d' : FontSetDef := { d with names := pick ks d.names, fonts := pick ks d.fonts }
  have hlen : d'.write.length ≤ d.write.length := by
    rw [write_length, write_length]
    have q1 : (encodeIndex 4 d'.names).length ≤ (encodeIndex 4 d.names).length :=
      encodeIndex_mono p1.length_le (subperm_sum p1 _)
    have q2 : d'.fonts.length ≤ d.fonts.length := p2.length_le
    have q3 := subperm_sum p2 fun f => (f.dict 0).length
    have q4 := subperm_sum p2 fun f => (f.blob 0).length
    have q3' : (d'.fonts.map fun f => (f.dict 0).length).sum ≤ (d.fonts.map fun f => (f.dict 0).length).sum := q3
    have q4' : (d'.fonts.map fun f => (f.blob 0).length).sum ≤ (d.fonts.map fun f => (f.blob 0).length).sum := q4
    have q5 : d'.strings = d.strings ∧ d'.globals = d.globals := ⟨rfl, rfl⟩
    rw [q5.1, q5.2]
    split <;> split <;> omega
  have hd' : d'.Valid := by
    refine ⟨⟨p1.length_le.trans v1.1, v1.2.1, v1.2.2.1, ?_⟩, v2, v3, p2.length_le.trans v4,
      fun f hf => v5 f (mem_pick hf), by omega⟩
    have q1 := subperm_sum p1 List.length
    have q2 := v1.2.2.2
    rw [List.length_flatten] at q2 ⊢
    exact Nat.lt_of_le_of_lt (Nat.add_le_add_left q1 1) q2
  refine ⟨d'.write, by omega, fun cfg' pre post h3 h4 => ?_⟩
  obtain ⟨fs', q', h5, h6⟩ := C60_round_trip hd' cfg' pre post h3 h4
  refine ⟨fs', q', h5, ?_⟩
  obtain ⟨i1, i2, i3, i4, i5, i6, i7, i8⟩ := hin
  obtain ⟨g1, g2, g3, g4, g5, g6, g7, g8⟩ := h6
  refine ⟨?_, g2.trans i2.symm, g3.trans i3.symm, forall₂_both (forall₂_pick i4 ks) g4 fun _ _ _ h h' => same_dict h h', ?_, ?_, ?_,
    forall₂_both (forall₂_pick i8 ks) g8 fun _ _ _ h h' => same_record h h'⟩
  · rw [g1, i1]
  · have := forall₂_both (T := fun a b : Index => a.data = b.data) g5 (forall₂_pick i5 ks) fun f a b (x : a.data = f.codes)
      (y : b.data = f.codes) => x.trans y.symm
    rw [← pick_map, ← List.forall₂_eq_eq_eq, List.forall₂_map_left_iff, List.forall₂_map_right_iff]
    exact this
  · rw [g6, i6, ← pick_map]
  · rw [g7, i7, ← pick_map]

/-- **C79.**  A glyph can be replaced: for every glyph of a font set that was read from any
file, in any layout, and every character string, there is a file of which reading gives
the same font set, but for this glyph. -/
theorem C79_replace (cfg : Config) (data : List UInt8) (hdata : data.length < 2 ^ 61) (base q : Nat) (fs : FontSet)
    (h : FontSet.read (tape cfg data) base = (.ok fs, q)) (k i : Nat) (code : List UInt8)
    (hsize : 100 * (data.length + code.length + 1) * (1 + fs.operations.length + FontSet.privates fs) < 2 ^ 31)
    (cs : Index) (hk : fs.characterStrings[k]? = some cs) (hi : i < cs.data.length) :
    ∃ bytes : List UInt8, bytes.length < 2 ^ 31 ∧
      ∀ (cfg' : Config) (pre post : List UInt8), (pre ++ bytes ++ post).length < 2 ^ 61 →
        pre.length + 2 ^ 31 ≤ cfg'.maxSeek →
        ∃ fs' q', FontSet.read (tape cfg' (pre ++ bytes ++ post)) pre.length = (.ok fs', q') ∧ Replaced k i code fs fs' := by
  obtain ⟨d, hin, hv, hw⟩ := def_of ((C32_layout_iff cfg data hdata base fs).mp ⟨q, h⟩)
  have hw' : d.write.length + code.length < 2 ^ 31 := by
    generalize hK : 1 + fs.operations.length + FontSet.privates fs = K at *
    have e : 100 * (data.length + code.length + 1) * K = 100 * (data.length + 1) * K + 100 * (code.length * K) := by ring
    have : code.length ≤ code.length * K := Nat.le_mul_of_pos_right _ (by omega)
    omega
  have hd' := put_valid_set (hv (by omega)) k i code hw'
  refine ⟨(d.put k i code).write, hd'.2.2.2.2.2, fun cfg' pre post h3 h4 => ?_⟩
  obtain ⟨fs', q', h5, h6⟩ := C60_round_trip hd' cfg' pre post h3 h4
  refine ⟨fs', q', h5, ?_⟩
  obtain ⟨i1, i2, i3, i4, i5, i6, i7, i8⟩ := hin
  obtain ⟨g1, g2, g3, g4, g5, g6, g7, g8⟩ := h6
  have ef : (d.put k i code).fonts = d.fonts.modify k (FontDef.put i code) := rfl
  have sub : ∀ {β : Type} {R : FontDef → β → Prop} {bs : List β}, (∀ f b, R (f.put i code) b → R f b) →
      List.Forall₂ R (d.put k i code).fonts bs → List.Forall₂ R d.fonts bs := fun hR hb => forall₂_modify hR (ef ▸ hb)
  have get : ∀ k' : Nat, fs'.characterStrings[k']?.map Index.data = (d.put k i code).fonts[k']?.map FontDef.codes := by
    intro k'
    have : fs'.characterStrings.map Index.data = (d.put k i code).fonts.map FontDef.codes := by
      rw [← List.forall₂_eq_eq_eq, List.forall₂_map_left_iff, List.forall₂_map_right_iff]
      exact g5.flip
    rw [← List.getElem?_map, this, List.getElem?_map]
  have get' : ∀ k' : Nat, fs.characterStrings[k']?.map Index.data = d.fonts[k']?.map FontDef.codes := by
    intro k'
    have : fs.characterStrings.map Index.data = d.fonts.map FontDef.codes := by
      rw [← List.forall₂_eq_eq_eq, List.forall₂_map_left_iff, List.forall₂_map_right_iff]
      exact i5.flip
    rw [← List.getElem?_map, this, List.getElem?_map]
  have mapput : ∀ {β : Type} (g : FontDef → β), (∀ f, g (f.put i code) = g f) → (d.put k i code).fonts.map g = d.fonts.map g := by
    intro β g hg
    apply List.ext_getElem?
    intro j
    rw [ef, List.getElem?_map, List.getElem?_map, List.getElem?_modify]
    cases d.fonts[j]? with
    | none => rfl
    | some f => simp only [Option.map_some, Option.map_eq_map]; split <;> simp [hg]
  refine ⟨g1.trans i1.symm, g2.trans i2.symm, g3.trans i3.symm,
    forall₂_both i4 (sub (R := fun f o => f.entries.In FontDef.reserved o) (fun _ _ h => h) g4) fun _ _ _ h h' => same_dict h h', ?_, ?_, ?_, ?_,
    forall₂_both i8 (sub (R := fun f r => f.keying.In r) (fun _ _ h => h) g8) fun _ _ _ h h' => same_record h h'⟩
  · have e1 : (fs'.characterStrings.map fun cs => cs.data.length) = (d.put k i code).fonts.map fun f => f.codes.length := by
      rw [← List.forall₂_eq_eq_eq, List.forall₂_map_left_iff, List.forall₂_map_right_iff]
      exact g5.flip.imp fun a b h => by rw [h]
    have e2 : (fs.characterStrings.map fun cs => cs.data.length) = d.fonts.map fun f => f.codes.length := by
      rw [← List.forall₂_eq_eq_eq, List.forall₂_map_left_iff, List.forall₂_map_right_iff]
      exact i5.flip.imp fun a b h => by rw [h]
    rw [e1, e2]
    exact mapput _ fun f => List.length_set
  · intro k' i'
    have b1 : (fs'.characterStrings[k']?.bind fun cs => cs.data[i']?) = (d.put k i code).fonts[k']?.bind fun f => f.codes[i']? := by
      have := congrArg (fun o => o.bind fun l : List (List UInt8) => l[i']?) (get k')
      simpa [Option.bind_map, Function.comp_def] using this
    have b2 : (fs.characterStrings[k']?.bind fun cs => cs.data[i']?) = d.fonts[k']?.bind fun f => f.codes[i']? := by
      have := congrArg (fun o => o.bind fun l : List (List UInt8) => l[i']?) (get' k')
      simpa [Option.bind_map, Function.comp_def] using this
    rw [b1, b2, ef, List.getElem?_modify]
    have b3 := get' k
    rw [hk] at b3
    by_cases hkk : k' = k
    · subst hkk
      cases hf : d.fonts[k']? with
      | none => rw [hf] at b3; simp at b3
      | some f =>
        rw [hf] at b3
        have b4 : cs.data = f.codes := by simpa using b3
        simp only [Option.map_some, Option.map_eq_map, Option.bind_some, if_true, true_and, FontDef.put, List.getElem?_set]
        by_cases hii : i' = i
        · subst hii
          rw [b4] at hi
          simp [hi]
        · rw [if_neg (Ne.symm hii), if_neg hii]
    · cases hf : d.fonts[k']? with
      | none => simp [hkk]
      | some f => simp [hkk, Ne.symm hkk]
  · rw [g6, i6]; exact mapput _ fun _ => rfl
  · rw [g7, i7]; exact mapput _ fun _ => rfl

/-- **C79.**  And with the bytes of a glyph for the character string, running it shows this
glyph. -/
theorem C79_glyph (cfg : Config) (data : List UInt8) (hdata : data.length < 2 ^ 61) (base q : Nat) (fs : FontSet)
    (h : FontSet.read (tape cfg data) base = (.ok fs, q)) (k i : Nat) (g : Type2.Spec.Glyph) (bs : List UInt8)
    (hg : g.Valid) (hb : g.Bytes bs)
    (hsize : 100 * (data.length + bs.length + 1) * (1 + fs.operations.length + FontSet.privates fs) < 2 ^ 31)
    (cs : Index) (hk : fs.characterStrings[k]? = some cs) (hi : i < cs.data.length) :
    ∃ bytes : List UInt8, bytes.length < 2 ^ 31 ∧
      ∀ (cfg' : Config) (pre post : List UInt8), (pre ++ bytes ++ post).length < 2 ^ 61 →
        pre.length + 2 ^ 31 ≤ cfg'.maxSeek →
        ∃ fs' q', FontSet.read (tape cfg' (pre ++ bytes ++ post)) pre.length = (.ok fs', q') ∧ Replaced k i bs fs fs' ∧
          ∃ cs' r code, fs'.characterStrings[k]? = some cs' ∧ fs'.records[k]? = some r ∧ cs'.data[i]? = some code ∧
            ∀ «local», LocalOf r «local» → ∀ l out,
              Type2.Spec.Run cfg' (Type2.Program.new code fs'.subroutines.data «local».data) l out ↔
                l = Type2.Spec.seen g.width 0 g.items ∧ out = .ended g.width := by
  obtain ⟨bytes, h1, h2⟩ := C79_replace cfg data hdata base q fs h k i bs hsize cs hk hi
  refine ⟨bytes, h1, fun cfg' pre post h3 h4 => ?_⟩
  obtain ⟨fs', q', h5, h6⟩ := h2 cfg' pre post h3 h4
  refine ⟨fs', q', h5, h6, ?_⟩
  have h7 := h6.2.2.2.2.2.1 k i
  rw [if_pos ⟨rfl, rfl⟩] at h7
  obtain ⟨cs', h8, h9⟩ := Option.bind_eq_some_iff.mp h7
  have hlay := (C32_layout_iff cfg' _ h3 _ fs').mp ⟨q', h5⟩
  obtain ⟨r, hr⟩ : ∃ r, fs'.records[k]? = some r := by
    have : k < fs'.characterStrings.length := (List.getElem?_eq_some_iff.mp h8).1
    have e1 : fs'.records.length = fs'.characterStrings.length := by
      obtain ⟨-, -, l1, l2, l3, l4, -⟩ := hlay
      omega
    exact ⟨_, List.getElem?_eq_getElem (by omega)⟩
  refine ⟨cs', r, bs, h8, hr, h9, fun «local» hl l out => ?_⟩
  obtain ⟨g1, g2, g3⟩ := program_sound cfg' _ h3 _ fs' hlay k cs' r h8 hr bs (List.mem_of_getElem? h9) «local» hl
  have := Type2.C55_glyph (cfg := cfg') hg hb [] (by rwa [List.append_nil]) g2 g3 l out
  rwa [List.append_nil] at this

/-! ## A font set with two fonts -/

theorem sampleDef_size {fs : FontSet} (hin : sampleDef.In fs) (n : Nat) (hn : n ≤ 1000) :
    100 * (sampleDef.write.length + n + 1) * (1 + fs.operations.length + FontSet.privates fs) < 2 ^ 31 := by
  have h1 : fs.operations.length = 2 := hin.2.2.2.1.length_eq.symm
  have h3 : FontSet.privates fs = 3 := by
    have := hin.2.2.2.2.2.2.2
    rw [FontSet.privates]
    generalize fs.records = rs at this
    simp only [sampleDef] at this
    cases this with
    | @cons _ r1 _ rs a1 b1 =>
      cases b1 with
      | @cons _ r2 _ rs a2 b2 =>
        cases b2
        cases r1 with
        | characterIDKeyed r1 => exact a1.elim
        | characterNameKeyed r1 =>
          cases r2 with
          | characterNameKeyed r2 => exact a2.elim
          | characterIDKeyed r2 =>
            have : r2.records.length = 2 := a2.2.2.2.2.2.length_eq.symm
            simp [privates, this]
  have h4 : sampleDef.write.length ≤ 1000 := by decide +kernel
  rw [h1, h3]
  omega

/-- The second font of two can be taken out. -/
example : ∃ fs q, FontSet.read (tape checkedBuild sampleDef.write) 0 = (.ok fs, q) ∧
    100 * (sampleDef.write.length + 1) * (1 + fs.operations.length + FontSet.privates fs) < 2 ^ 31 ∧
    fs.names.data.length = fs.operations.length ∧ ([1] : List Nat).Nodup ∧ ∀ k ∈ [1], k < fs.operations.length := by
  obtain ⟨fs, q, h, hin⟩ := C60_round_trip sampleDef_valid checkedBuild [] [] (by decide +kernel) (by decide)
  rw [List.nil_append, List.append_nil] at h
  have h1 : fs.operations.length = 2 := hin.2.2.2.1.length_eq.symm
  have h2 : fs.names.data.length = 2 := by rw [hin.1]; rfl
  exact ⟨fs, q, h, by simpa only [Nat.add_zero] using sampleDef_size hin 0 (by omega), by omega, by simp, by simp [h1]⟩

/-- The second glyph of the first font can be replaced by `Type2.sampleGlyph`. -/
example : ∃ fs q cs bs, FontSet.read (tape checkedBuild sampleDef.write) 0 = (.ok fs, q) ∧
    Type2.sampleGlyph.Valid ∧ Type2.sampleGlyph.Bytes bs ∧
    100 * (sampleDef.write.length + bs.length + 1) * (1 + fs.operations.length + FontSet.privates fs) < 2 ^ 31 ∧
    fs.characterStrings[0]? = some cs ∧ 1 < cs.data.length := by
  obtain ⟨fs, q, h, hin⟩ := C60_round_trip sampleDef_valid checkedBuild [] [] (by decide +kernel) (by decide)
  rw [List.nil_append, List.append_nil] at h
  obtain ⟨cs, h1, h2⟩ := forall₂_getElem? hin.2.2.2.2.1 (k := 0) rfl
  exact ⟨fs, q, cs, _, h, Type2.sampleGlyph_valid, Type2.sampleGlyph_bytes, sampleDef_size hin _ (by decide), h1, by rw [h2]; decide⟩

end PS
