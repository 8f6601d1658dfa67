import Verif.Spec.Join
import Verif.Props.Merge
import Verif.Props.Recode
/-!
# Merging font sets with other global subroutines
-/
namespace PS

open Spec

theorem recoded_record {L : Nat → List (List UInt8)} {r r' : Record} (h : NewRecord L r r') :
    ((∃ p, r' = .characterNameKeyed p) ↔ ∃ p, r = .characterNameKeyed p) ∧
    ∀ (P : UInt16 → UInt16 → Number → Prop), (∃ c, r' = .characterIDKeyed c ∧ P c.registry c.ordering c.supplement) ↔
      ∃ c, r = .characterIDKeyed c ∧ P c.registry c.ordering c.supplement := by
  cases r with
  | characterNameKeyed r =>
    cases r' with
    | characterNameKeyed r' => simp
    | characterIDKeyed r' => exact h.elim
  | characterIDKeyed r =>
    cases r' with
    | characterNameKeyed r' => exact h.elim
    | characterIDKeyed r' =>
      obtain ⟨h1, h2, h3, -⟩ := h
      simp [h1, h2, h3]

/-- The records of a font with other code are of the same kind. -/
theorem recoded_records {G : List (List UInt8)} {L : Nat → Nat → List (List UInt8)} {C : Nat → List (List UInt8)} {fs fs' : FontSet}
    (h : Recoded G L C fs fs') (k : Nat) :
    ((∃ p, fs'.records[k]? = some (.characterNameKeyed p)) ↔ ∃ p, fs.records[k]? = some (.characterNameKeyed p)) ∧
    ∀ (P : UInt16 → UInt16 → Number → Prop),
      (∃ c, fs'.records[k]? = some (.characterIDKeyed c) ∧ P c.registry c.ordering c.supplement) ↔
      ∃ c, fs.records[k]? = some (.characterIDKeyed c) ∧ P c.registry c.ordering c.supplement := by
  obtain ⟨-, -, -, -, -, -, -, -, t9, t10⟩ := h
  by_cases hk : k < fs.records.length
  · have e := List.getElem?_eq_getElem hk
    have e' := List.getElem?_eq_getElem (by rw [← t9]; exact hk : k < fs'.records.length)
    have := recoded_record (t10 k _ _ e e')
    rw [e, e']
    simpa only [Option.some.injEq] using this
  · rw [List.getElem?_eq_none (by omega), List.getElem?_eq_none (by omega)]
    simp

theorem recoded_text {G : List (List UInt8)} {L : Nat → Nat → List (List UInt8)} {C : Nat → List (List UInt8)} {fs fs' : FontSet}
    (h : Recoded G L C fs fs') (k : Nat) :
    (∀ g t, GlyphNamed fs' k g t ↔ GlyphNamed fs k g t) ∧ (∀ code g, CodeLeads fs' k code g ↔ CodeLeads fs k code g) ∧
    (∀ registry ordering supplement, Collection fs' k registry ordering supplement ↔ Collection fs k registry ordering supplement) ∧
    ∀ op ∈ textual, ∀ t, DictString fs k op t → DictString fs' k op t := by
  obtain ⟨n, c⟩ := recoded_records h k
  obtain ⟨-, t2, -, t4, -, -, t7, t8, -, -⟩ := h
  refine ⟨fun g t => ?_, fun code g => ?_, fun a b s => ?_, ?_⟩
  · unfold GlyphNamed
    rw [t2, t7]
    simp only [exists_and_left, exists_and_right]
    rw [n]
  · unfold CodeLeads
    rw [t7, t8]
  · unfold Collection
    rw [t2]
    exact c fun x y z => StringOf fs.strings.data x.toNat a ∧ StringOf fs.strings.data y.toNat b ∧ z = s
  · rintro op hop t ⟨o, i, h1, h2, h3⟩
    obtain ⟨o', h4, h5⟩ := forall₂_getElem? t4 h1
    exact ⟨o', i, h4, by rw [← h5 op (by revert hop; cases op <;> decide)]; exact h2, by rw [t2]; exact h3⟩

theorem recoded_uses {G : List (List UInt8)} {L : Nat → Nat → List (List UInt8)} {C : Nat → List (List UInt8)} {fs fs' : FontSet}
    (h : Recoded G L C fs fs') {k sid : Nat} (hu : Uses fs' k sid) : Uses fs k sid := by
  obtain ⟨n, c⟩ := recoded_records h k
  obtain ⟨-, t2, -, t4, -, -, t7, t8, -, -⟩ := h
  rcases hu with ⟨r, s, h1, h2, h3⟩ | ⟨r, f, m, sups, h1, h2, h3⟩ | ⟨r, h1, h2⟩
  · obtain ⟨r', h1⟩ := n.mp ⟨r, h1⟩
    exact .inl ⟨r', s, h1, by rw [← t7]; exact h2, h3⟩
  · obtain ⟨r', h1⟩ := n.mp ⟨r, h1⟩
    exact .inr (.inl ⟨r', f, m, sups, h1, by rw [← t8]; exact h2, h3⟩)
  · exact .inr (.inr ((c fun x y _ => x.toNat = sid ∨ y.toNat = sid).mp ⟨r, h1, h2⟩))

/-- A description of a font set with other code. -/
theorem recode_def {cfg : Config} {data : List UInt8} (hdata : data.length < 2 ^ 61) {base q : Nat} {fs : FontSet}
    (h : FontSet.read (tape cfg data) base = (.ok fs, q)) {G : List (List UInt8)} {L : Nat → Nat → List (List UInt8)}
    {C : Nat → List (List UInt8)} (hfit : CodeFits G L C fs) (hsize : rewriteBulk data.length fs + codeBulk G L C fs < 2 ^ 31) :
    ∃ (d : FontSetDef) (fs' : FontSet) (q' : Nat), d.Valid ∧ d.In fs' ∧ d.write.length ≤ rewriteBulk data.length fs + codeBulk G L C fs ∧
      FontSet.read (tape checkedBuild d.write) 0 = (.ok fs', q') ∧ Recoded G L C fs fs' := by
  obtain ⟨d, hin, hv, hw⟩ := def_of ((C32_layout_iff cfg data hdata base fs).mp ⟨q, h⟩)
  change d.write.length ≤ rewriteBulk data.length fs at hw
  have hb : d.write.length + Recoding.bulk G L C d < 2 ^ 31 := by rw [Recoding.bulk_in hin]; omega
  have hd : (Recoding.fontSet G L C d).Valid := by
    refine Recoding.valid (hv (by omega)) (fun k f hf => ?_) hfit.2.1 hfit.2.2 hb
    obtain ⟨cs, hcs, hc⟩ := forall₂_getElem? hin.2.2.2.2.1 hf
    rw [hfit.1 k cs hcs, hc]
  have hl := Recoding.write_bound G L C d
  rw [Recoding.bulk_in hin] at hl
  obtain ⟨fs', q', h5, h6⟩ := C60_round_trip hd checkedBuild [] []
    (by rw [List.nil_append, List.append_nil]; exact Nat.lt_trans hd.2.2.2.2.2 (by decide)) (by decide)
  rw [List.nil_append, List.append_nil] at h5
  exact ⟨_, fs', q', hd, h6, by omega, h5, Recoding.fontSet_in hin h6⟩

theorem join {cfg1 cfg2 : Config} {data1 data2 : List UInt8} (hdata1 : data1.length < 2 ^ 61) (hdata2 : data2.length < 2 ^ 61)
    {base1 base2 q1 q2 : Nat} {fs1 fs2 : FontSet} (h1 : FontSet.read (tape cfg1 data1) base1 = (.ok fs1, q1))
    (h2 : FontSet.read (tape cfg2 data2) base2 = (.ok fs2, q2)) {G : List (List UInt8)} {L1 L2 : Nat → Nat → List (List UInt8)}
    {C1 C2 : Nat → List (List UInt8)} (hf1 : CodeFits G L1 C1 fs1) (hf2 : CodeFits G L2 C2 fs2)
    (hu1 : ∀ k sid, Uses fs1 k sid → sid < 391 + fs1.strings.data.length)
    (hu2 : ∀ k sid, Uses fs2 k sid → sid < 391 + fs2.strings.data.length)
    (hs : 391 + fs1.strings.data.length + fs2.strings.data.length ≤ 65536)
    (hn : fs1.names.data.length + fs2.names.data.length ≤ 65535) (ho : fs1.operations.length + fs2.operations.length ≤ 65535)
    (hsize : 5 * (rewriteBulk data1.length fs1 + codeBulk G L1 C1 fs1 + (rewriteBulk data2.length fs2 + codeBulk G L2 C2 fs2)) < 2 ^ 31) :
    ∃ (fs1' fs2' : FontSet) (data1' data2' : List UInt8) (q1' q2' : Nat), data1'.length < 2 ^ 61 ∧ data2'.length < 2 ^ 61 ∧
      FontSet.read (tape checkedBuild data1') 0 = (.ok fs1', q1') ∧ FontSet.read (tape checkedBuild data2') 0 = (.ok fs2', q2') ∧
      Recoded G L1 C1 fs1 fs1' ∧ Recoded G L2 C2 fs2 fs2' ∧
      ∃ bytes : List UInt8, bytes.length < 2 ^ 31 ∧
        ∀ (cfg' : Config) (pre post : List UInt8), (pre ++ bytes ++ post).length < 2 ^ 61 →
          pre.length + 2 ^ 31 ≤ cfg'.maxSeek →
          ∃ fs' q', FontSet.read (tape cfg' (pre ++ bytes ++ post)) pre.length = (.ok fs', q') ∧ Merged fs1' fs2' fs' := by
  obtain ⟨d1, fs1', q1', v1, in1, w1, r1, t1⟩ := recode_def hdata1 h1 hf1 (by omega)
  obtain ⟨d2, fs2', q2', v2, in2, w2, r2, t2⟩ := recode_def hdata2 h2 hf2 (by omega)
  have o1 := t1.2.2.2.1.length_eq
  have o2 := t2.2.2.2.1.length_eq
  refine ⟨fs1', fs2', _, _, q1', q2', Nat.lt_trans v1.2.2.2.2.2 (by decide), Nat.lt_trans v2.2.2.2.2.2 (by decide), r1, r2, t1, t2,
    merge_defs in1 in2 v1 v2 (by rw [t1.2.2.1, t2.2.2.1]) (fun k sid hk => ?_) (fun k sid hk => ?_) ?_ ?_ (by omega) (by omega)⟩
  · rw [t1.2.1]; exact hu1 k sid (recoded_uses t1 hk)
  · rw [t2.2.1]; exact hu2 k sid (recoded_uses t2 hk)
  · rw [t1.2.1, t2.2.1]; exact hs
  · rw [t1.1, t2.1]; exact hn

/-- **C96.**  Font sets with any global subroutines can be merged if their code is replaced: for
every two font sets, each of which was read from any file, in any layout, and any code for both
with the same global subroutines, there is a file of which reading gives a font set with the
fonts of the first and those of the second, with the new code. -/
theorem C96_joined (cfg1 cfg2 : Config) (data1 data2 : List UInt8) (hdata1 : data1.length < 2 ^ 61) (hdata2 : data2.length < 2 ^ 61)
    (base1 base2 q1 q2 : Nat) (fs1 fs2 : FontSet) (h1 : FontSet.read (tape cfg1 data1) base1 = (.ok fs1, q1))
    (h2 : FontSet.read (tape cfg2 data2) base2 = (.ok fs2, q2)) (G : List (List UInt8)) (L1 L2 : Nat → Nat → List (List UInt8))
    (C1 C2 : Nat → List (List UInt8)) (hf1 : CodeFits G L1 C1 fs1) (hf2 : CodeFits G L2 C2 fs2)
    (hu1 : ∀ k sid, Uses fs1 k sid → sid < 391 + fs1.strings.data.length)
    (hu2 : ∀ k sid, Uses fs2 k sid → sid < 391 + fs2.strings.data.length)
    (hs : 391 + fs1.strings.data.length + fs2.strings.data.length ≤ 65536)
    (hn : fs1.names.data.length + fs2.names.data.length ≤ 65535) (ho : fs1.operations.length + fs2.operations.length ≤ 65535)
    (hsize : 5 * (rewriteBulk data1.length fs1 + codeBulk G L1 C1 fs1 + (rewriteBulk data2.length fs2 + codeBulk G L2 C2 fs2)) < 2 ^ 31) :
    ∃ bytes : List UInt8, bytes.length < 2 ^ 31 ∧
      ∀ (cfg' : Config) (pre post : List UInt8), (pre ++ bytes ++ post).length < 2 ^ 61 →
        pre.length + 2 ^ 31 ≤ cfg'.maxSeek →
        ∃ fs' q', FontSet.read (tape cfg' (pre ++ bytes ++ post)) pre.length = (.ok fs', q') ∧ Joined G L1 C1 L2 C2 fs1 fs2 fs' := by
  obtain ⟨fs1', fs2', -, -, -, -, -, -, -, -, t1, t2, bytes, hb, hr⟩ := join hdata1 hdata2 h1 h2 hf1 hf2 hu1 hu2 hs hn ho hsize
  refine ⟨bytes, hb, fun cfg' pre post h3 h4 => ?_⟩
  obtain ⟨fs', q', h5, h6⟩ := hr cfg' pre post h3 h4
  exact ⟨fs', q', h5, fs1', fs2', t1, t2, h6⟩

theorem preserved_of {G : List (List UInt8)} {L : Nat → Nat → List (List UInt8)} {C : Nat → List (List UInt8)} {fs fs' fs'' : FontSet}
    {k k' : Nat} (t : Recoded G L C fs fs') (h : Preserved fs' k fs'' k')
    (hs : ∀ cfg g l out, Shows cfg fs' k g l out ↔ Shows cfg fs k g l out) : Preserved fs k fs'' k' := by
  obtain ⟨h1, h2, h3, h4, h5⟩ := h
  obtain ⟨t1, t2, t3, t4⟩ := recoded_text t k
  exact ⟨fun cfg g l out => (h1 cfg g l out).trans (hs cfg g l out), fun g s => (h2 g s).trans (t1 g s), fun c g => (h3 c g).trans (t2 c g),
    fun a b c => (h4 a b c).trans (t3 a b c), fun op hop s hd => h5 op hop s (t4 op hop s hd)⟩

/-- **C96.**  If the new code of both is the old one but for the numbers of subroutines, the fonts
are as they were: their glyphs show the same, in any build, have the same names, the same codes
lead to them, and the strings in the dictionaries and in the records are the same.  So the global
subroutines of both can be put into one table. -/
theorem C96_renumbered (cfg1 cfg2 : Config) (data1 data2 : List UInt8) (hdata1 : data1.length < 2 ^ 61) (hdata2 : data2.length < 2 ^ 61)
    (base1 base2 q1 q2 : Nat) (fs1 fs2 : FontSet) (h1 : FontSet.read (tape cfg1 data1) base1 = (.ok fs1, q1))
    (h2 : FontSet.read (tape cfg2 data2) base2 = (.ok fs2, q2)) (G : List (List UInt8)) (L1 L2 : Nat → Nat → List (List UInt8))
    (C1 C2 : Nat → List (List UInt8)) (hf1 : CodeFits G L1 C1 fs1) (hf2 : CodeFits G L2 C2 fs2)
    (hu1 : ∀ k sid, Uses fs1 k sid → sid < 391 + fs1.strings.data.length)
    (hu2 : ∀ k sid, Uses fs2 k sid → sid < 391 + fs2.strings.data.length)
    (hs : 391 + fs1.strings.data.length + fs2.strings.data.length ≤ 65536)
    (hn : fs1.names.data.length + fs2.names.data.length ≤ 65535) (ho : fs1.operations.length + fs2.operations.length ≤ 65535)
    (hsize : 5 * (rewriteBulk data1.length fs1 + codeBulk G L1 C1 fs1 + (rewriteBulk data2.length fs2 + codeBulk G L2 C2 fs2)) < 2 ^ 31)
    (hc1 : ∀ checks, RenumberedCode checks G L1 C1 fs1) (hc2 : ∀ checks, RenumberedCode checks G L2 C2 fs2) :
    ∃ bytes : List UInt8, bytes.length < 2 ^ 31 ∧
      ∀ (cfg' : Config) (pre post : List UInt8), (pre ++ bytes ++ post).length < 2 ^ 61 →
        pre.length + 2 ^ 31 ≤ cfg'.maxSeek →
        ∃ fs' q', FontSet.read (tape cfg' (pre ++ bytes ++ post)) pre.length = (.ok fs', q') ∧ Joined G L1 C1 L2 C2 fs1 fs2 fs' ∧
          (∀ k < fs1.operations.length, Preserved fs1 k fs' k) ∧
          ∀ k < fs2.operations.length, Preserved fs2 k fs' (fs1.operations.length + k) := by
  obtain ⟨fs1', fs2', data1', data2', q1', q2', e1, e2, r1, r2, t1, t2, bytes, hb, hr⟩ :=
    join hdata1 hdata2 h1 h2 hf1 hf2 hu1 hu2 hs hn ho hsize
  have o1 := t1.2.2.2.1.length_eq
  have o2 := t2.2.2.2.1.length_eq
  refine ⟨bytes, hb, fun cfg' pre post h3 h4 => ?_⟩
  obtain ⟨fs', q', h5, h6⟩ := hr cfg' pre post h3 h4
  obtain ⟨p1, p2⟩ := C94_fonts h6 (by rw [t1.2.1, t2.2.1]; exact hs)
  refine ⟨fs', q', h5, ⟨fs1', fs2', t1, t2, h6⟩, fun k hk => ?_, fun k hk => ?_⟩
  · exact preserved_of t1 (p1 k (by omega)) fun cfg g l out =>
      C91_renumbered cfg1 checkedBuild cfg data1 data1' hdata1 e1 base1 0 q1 q1' fs1 fs1' h1 r1 G L1 C1 hf1 t1 (hc1 _) k g l out
  · rw [o1]
    exact preserved_of t2 (p2 k (by omega)) fun cfg g l out =>
      C91_renumbered cfg2 checkedBuild cfg data2 data2' hdata2 e2 base2 0 q2 q2' fs2 fs2' h2 r2 G L2 C2 hf2 t2 (hc2 _) k g l out

theorem performs_of {cfg : Config} {G : List (List UInt8)} {L : Nat → Nat → List (List UInt8)} {C : Nat → List (List UInt8)}
    {fs fs' fs'' : FontSet} {k k' : Nat} (t : Recoded G L C fs fs') (h : Preserved fs' k fs'' k')
    (hs : ∀ cfg' k g l out, Shows cfg' fs' k g l out ↔ Shows cfg fs k g l out) : Performs cfg fs k fs'' k' := by
  obtain ⟨h1, h2, h3, h4, h5⟩ := h
  obtain ⟨t1, t2, t3, t4⟩ := recoded_text t k
  exact ⟨fun cfg' g l out => (h1 cfg' g l out).trans (hs cfg' k g l out), fun g s => (h2 g s).trans (t1 g s), fun c g => (h3 c g).trans (t2 c g),
    fun a b c => (h4 a b c).trans (t3 a b c), fun op hop s hd => h5 op hop s (t4 op hop s hd)⟩

/-- **C96.**  In particular, font sets with any global subroutines can be merged if all their
glyphs run to their ends and show only numbers that can be written as operands: there is a file of
which reading gives a font set with the fonts of the first and those of the second, without any
subroutines, that are as they were.  `N1` and `N2` are bounds for the size of a flat glyph. -/
theorem C96_flat (cfg1 cfg2 : Config) (data1 data2 : List UInt8) (hdata1 : data1.length < 2 ^ 61) (hdata2 : data2.length < 2 ^ 61)
    (base1 base2 q1 q2 : Nat) (fs1 fs2 : FontSet) (h1 : FontSet.read (tape cfg1 data1) base1 = (.ok fs1, q1))
    (h2 : FontSet.read (tape cfg2 data2) base2 = (.ok fs2, q2))
    (hu1 : ∀ k sid, Uses fs1 k sid → sid < 391 + fs1.strings.data.length)
    (hu2 : ∀ k sid, Uses fs2 k sid → sid < 391 + fs2.strings.data.length)
    (hs : 391 + fs1.strings.data.length + fs2.strings.data.length ≤ 65536)
    (hn : fs1.names.data.length + fs2.names.data.length ≤ 65535) (ho : fs1.operations.length + fs2.operations.length ≤ 65535)
    (N1 N2 : Nat)
    (hsize : 5 * (2 * rewriteBulk data1.length fs1 + glyphCount fs1 * (N1 + 4) +
      (2 * rewriteBulk data2.length fs2 + glyphCount fs2 * (N2 + 4))) < 2 ^ 31)
    (hr1 : ∀ (k i : Nat) cs, fs1.characterStrings[k]? = some cs → i < cs.data.length → ∃ l w, Displays cfg1 fs1 k i l w ∧
      (∀ x, Type2.Spec.Shown l w x → Type2.Spec.Fixed x) ∧ (l.map Type2.Spec.bulk).sum + 6 ≤ N1)
    (hr2 : ∀ (k i : Nat) cs, fs2.characterStrings[k]? = some cs → i < cs.data.length → ∃ l w, Displays cfg2 fs2 k i l w ∧
      (∀ x, Type2.Spec.Shown l w x → Type2.Spec.Fixed x) ∧ (l.map Type2.Spec.bulk).sum + 6 ≤ N2) :
    ∃ bytes : List UInt8, bytes.length < 2 ^ 31 ∧
      ∀ (cfg' : Config) (pre post : List UInt8), (pre ++ bytes ++ post).length < 2 ^ 61 →
        pre.length + 2 ^ 31 ≤ cfg'.maxSeek →
        ∃ fs' q', FontSet.read (tape cfg' (pre ++ bytes ++ post)) pre.length = (.ok fs', q') ∧ JoinedFlat fs1 fs2 fs' ∧
          (∀ k < fs1.operations.length, Performs cfg1 fs1 k fs' k) ∧
          ∀ k < fs2.operations.length, Performs cfg2 fs2 k fs' (fs1.operations.length + k) := by
  obtain ⟨C1, l1, b1, c1⟩ := flat_code cfg1 data1 hdata1 base1 q1 fs1 h1 N1 (by omega) hr1
  obtain ⟨C2, l2, b2, c2⟩ := flat_code cfg2 data2 hdata2 base2 q2 fs2 h2 N2 (by omega) hr2
  have bulk : ∀ (n : Nat) (fs : FontSet), 7 * (1 + fs.operations.length + FontSet.privates fs) ≤ rewriteBulk n fs := by
    intro n fs
    unfold rewriteBulk
    nlinarith
  have s1 := bulk data1.length fs1
  have s2 := bulk data2.length fs2
  obtain ⟨fs1', fs2', data1', data2', q1', q2', e1, e2, r1, r2, t1, t2, bytes, hb, hr⟩ :=
    join hdata1 hdata2 h1 h2 (G := []) (L1 := fun _ _ => []) (L2 := fun _ _ => []) ⟨l1, by simp, by simp⟩ ⟨l2, by simp, by simp⟩ hu1 hu2 hs hn ho (by omega)
  have o1 := t1.2.2.2.1.length_eq
  have o2 := t2.2.2.2.1.length_eq
  refine ⟨bytes, hb, fun cfg' pre post h3 h4 => ?_⟩
  obtain ⟨fs', q', h5, h6⟩ := hr cfg' pre post h3 h4
  obtain ⟨p1, p2⟩ := C94_fonts h6 (by rw [t1.2.1, t2.2.1]; exact hs)
  refine ⟨fs', q', h5, ⟨fs1', fs2', (c1 fs1' t1).1, (c2 fs2' t2).1, h6⟩, fun k hk => ?_, fun k hk => ?_⟩
  · exact performs_of t1 (p1 k (by omega)) (c1 fs1' t1).2
  · rw [o1]
    exact performs_of t2 (p2 k (by omega)) (c2 fs2' t2).2

/-! ## Two fonts with other global subroutines -/

/-- A font with the one glyph `-107 callgsubr endchar` and the global subroutine `x hmoveto return`. -/
def callingDef (x : UInt8) : FontSetDef where
  names := [[65]]
  strings := []
  globals := [[x, 22, 11]]
  fonts := [
    { entries := ⟨[], []⟩
      codes := [[32, 29, 14]]
      set := .isoAdobe
      encoding := .standard
      keying := .names ⟨⟨[], []⟩, []⟩ }]

theorem callingDef_valid {x : UInt8} (hx : x = 139 ∨ x = 140) : (callingDef x).Valid := by
  have fits : ∀ {items : List (List UInt8)}, items.length ≤ 65535 → 1 + items.flatten.length < 2 ^ 32 → IndexFits 4 items :=
    fun h1 h2 => ⟨h1, by omega, by omega, h2⟩
  refine ⟨fits (by simp [callingDef]) (by simp [callingDef]), fits (by simp [callingDef]) (by simp [callingDef]), fits (by simp [callingDef]) (by simp [callingDef]),
    by simp [callingDef], ?_, by rcases hx with rfl | rfl <;> decide +kernel⟩
  intro f hf
  simp only [callingDef, List.mem_cons, List.not_mem_nil, or_false] at hf
  subst hf
  exact ⟨⟨.nil, by decide⟩, fits (by decide) (by decide), .inl (.inl rfl), .inl (.inl rfl),
    ⟨.nil, by decide⟩, fits (by decide +kernel) (by decide +kernel)⟩

/-- What is read from the file of `callingDef`. -/
structure Calling (x : UInt8) (fs : FontSet) (cs : Index) (r : PrivateRecord) : Prop where
  names : fs.names.data = [[65]]
  strings : fs.strings.data = []
  globals : fs.subroutines.data = [[x, 22, 11]]
  fonts : fs.operations.length = 1
  codes : fs.characterStrings = [cs]
  code : cs.data = [[32, 29, 14]]
  set : fs.characterSets = [.isoAdobe]
  encoding : fs.encodings = [.standard]
  record : fs.records = [.characterNameKeyed r]
  locals : r.subroutines.data = []

theorem calling_read {x : UInt8} (hx : x = 139 ∨ x = 140) :
    ∃ fs q cs r, FontSet.read (tape checkedBuild (callingDef x).write) 0 = (.ok fs, q) ∧ Calling x fs cs r := by
  obtain ⟨fs, q, h, hin⟩ := C60_round_trip (callingDef_valid hx) checkedBuild [] [] (by rcases hx with rfl | rfl <;> decide +kernel) (by decide)
  rw [List.nil_append, List.append_nil] at h
  obtain ⟨i1, i2, i3, i4, i5, i6, i7, i8⟩ := hin
  have hr : ∃ r, fs.records = [.characterNameKeyed r] ∧ r.subroutines.data = [] := by
    generalize fs.records = rs at i8
    simp only [callingDef] at i8
    cases i8 with
    | @cons _ r _ rs a b =>
      cases b
      cases r with
      | characterIDKeyed r => exact a.elim
      | characterNameKeyed r => exact ⟨r, rfl, a.2⟩
  obtain ⟨r, hr, hl⟩ := hr
  have hc : ∃ cs, fs.characterStrings = [cs] ∧ cs.data = [[32, 29, 14]] := by
    generalize fs.characterStrings = cs at i5
    simp only [callingDef] at i5
    cases i5 with
    | @cons _ c _ cs a b =>
      cases b
      exact ⟨c, rfl, a⟩
  obtain ⟨cs, hc, hd⟩ := hc
  exact ⟨fs, q, cs, r, h, i1, i2, i3, i4.length_eq.symm, hc, hd, i6, i7, hr, hl⟩

theorem calling_uses {x : UInt8} {fs : FontSet} {cs : Index} {r : PrivateRecord} (h : Calling x fs cs r) :
    ∀ k sid, Uses fs k sid → sid < 391 + fs.strings.data.length := by
  intro k sid hu
  rw [h.strings]
  rcases hu with ⟨_, s, -, h1, h2⟩ | ⟨_, _, _, _, -, h1, -⟩ | ⟨_, h1, -⟩
  · rw [h.set] at h1
    have := List.mem_of_getElem? h1
    simp only [List.mem_cons, List.not_mem_nil, or_false] at this
    subst this
    exact Merging.standard_sids .isoAdobe (.inl rfl) sid h2
  · rw [h.encoding] at h1
    have := List.mem_of_getElem? h1
    simp at this
  · rw [h.record] at h1
    have := List.mem_of_getElem? h1
    simp at this

theorem calling_bulk {x : UInt8} (hx : x = 139 ∨ x = 140) {fs : FontSet} {cs : Index} {r : PrivateRecord} (h : Calling x fs cs r) :
    rewriteBulk (callingDef x).write.length fs < 2 ^ 20 := by
  have h6 : FontSet.privates fs = 1 := by simp [FontSet.privates, privates, h.record]
  have h7 : (callingDef x).write.length ≤ 1000 := by rcases hx with rfl | rfl <;> decide +kernel
  unfold rewriteBulk
  rw [h.fonts, h6]
  omega

theorem calling_only {x : UInt8} {fs : FontSet} {cs : Index} {r : PrivateRecord} (h : Calling x fs cs r) {k i : Nat} {cs' : Index}
    (hk : fs.characterStrings[k]? = some cs') (hi : i < cs'.data.length) : k = 0 ∧ i = 0 ∧ cs' = cs := by
  have hk0 : k = 0 := by
    have := (List.getElem?_eq_some_iff.mp hk).1
    rw [h.codes] at this
    simpa using this
  subst hk0
  rw [h.codes] at hk
  injection hk with hk
  subst hk
  rw [h.code] at hi
  exact ⟨rfl, by simpa using hi, rfl⟩

theorem calling_renumbered {x : UInt8} (hx : x = 139 ∨ x = 140) {fs : FontSet} {cs : Index} {r : PrivateRecord} (h : Calling x fs cs r)
    {n : UInt8} {j0 : Nat} (hn : n = 32 ∧ j0 = 0 ∧ x = 139 ∨ n = 33 ∧ j0 = 1 ∧ x = 140) (checks : Bool) :
    RenumberedCode checks [[139, 22, 11], [140, 22, 11]] (fun _ _ => [])
      (fun _ => [[n, 29, 14]]) fs := by
  intro k i d cs' r' code code' priv a1 a2 a3 a4 a5 a6
  obtain ⟨rfl, rfl, rfl⟩ := calling_only h a1 (List.getElem?_eq_some_iff.mp a3).1
  rw [h.record] at a2
  injection a2 with a2
  subst a2
  rw [h.code] at a3
  injection a3 with a3
  injection a4 with a4
  obtain rfl : d = 0 := a5
  injection a6 with a6
  subst a3 a4 a6
  rw [h.globals, h.locals]
  have hop : ∃ v, Type2.Spec.Operand v [x] := by
    rcases hx with rfl | rfl
    · exact ⟨_, Type2.operand_byte 139 (by decide) (by decide)⟩
    · exact ⟨_, Type2.operand_byte 140 (by decide) (by decide)⟩
  obtain ⟨v, hop⟩ := hop
  have z : Type2.Spec.CallNumber [32] 1 0 :=
    ⟨_, -107, Type2.operand_byte 32 (by decide) (by decide), (Type2.intArg_iff (by decide +kernel)).mp (by decide +kernel), rfl⟩
  have z' : Type2.Spec.CallNumber [n] 2 j0 := by
    rcases hn with ⟨rfl, rfl, -⟩ | ⟨rfl, rfl, -⟩
    · exact Type2.swapped_zero.1
    · exact Type2.swapped_zero.2.2.1
  refine ⟨0, fun i j => i = 0 ∧ j = j0, fun _ _ => False, ?_, ?_, ?_⟩
  · intro R hR i j hij
    simp only [List.mem_cons, List.not_mem_nil, or_false] at hR
    rcases hR with rfl | rfl
    · obtain ⟨rfl, rfl⟩ := hij
      refine ⟨[x, 22, 11], [x, 22, 11], rfl, ?_, .operand hop hop (.operator (op := .opHMoveTo) (by decide) (by decide) (by decide)
        (.operator (op := .opReturn) (by decide) (by decide) (by decide) .nil))⟩
      rcases hn with ⟨-, rfl, rfl⟩ | ⟨-, rfl, rfl⟩ <;> rfl
    · exact absurd hij id
  · exact .callGlobal (b := [32]) (b' := [n]) (i := 0) (j := j0) z z' ⟨rfl, rfl⟩
      (.operator (op := .opEndChar) (by decide) (by decide) (by decide) .nil)
  · refine Type2.maskless_masks (fun c hc => ?_) 0
    have hc : c = [32, 29, 14] ∨ c = [x, 22, 11] := by
      simpa [Type2.Spec.view, Type2.Spec.left, Type2.Program.new, Type2.Routine.new] using hc
    rcases hc with rfl | rfl
    · decide
    · rcases hx with rfl | rfl <;> decide

/-- The hypotheses of `C96_joined` and `C96_renumbered` are met by two fonts with other global
subroutines, which are put into one table. -/
example : ∃ fs1 fs2 q1 q2, FontSet.read (tape checkedBuild (callingDef 139).write) 0 = (.ok fs1, q1) ∧
    FontSet.read (tape checkedBuild (callingDef 140).write) 0 = (.ok fs2, q2) ∧ fs1.subroutines.data ≠ fs2.subroutines.data ∧
    (∀ k sid, Uses fs1 k sid → sid < 391 + fs1.strings.data.length) ∧ (∀ k sid, Uses fs2 k sid → sid < 391 + fs2.strings.data.length) ∧
    391 + fs1.strings.data.length + fs2.strings.data.length ≤ 65536 ∧ fs1.names.data.length + fs2.names.data.length ≤ 65535 ∧
    fs1.operations.length = 1 ∧ fs2.operations.length = 1 ∧
    ∃ G L C1 C2, CodeFits G L C1 fs1 ∧ CodeFits G L C2 fs2 ∧
      5 * (rewriteBulk (callingDef 139).write.length fs1 + codeBulk G L C1 fs1 +
        (rewriteBulk (callingDef 140).write.length fs2 + codeBulk G L C2 fs2)) < 2 ^ 31 ∧
      (∀ checks, RenumberedCode checks G L C1 fs1) ∧
      ∀ checks, RenumberedCode checks G L C2 fs2 := by
  obtain ⟨fs1, q1, cs1, r1, h1, c1⟩ := calling_read (.inl rfl)
  obtain ⟨fs2, q2, cs2, r2, h2, c2⟩ := calling_read (.inr rfl)
  have fits : ∀ {x : UInt8} {fs : FontSet} {cs : Index} {r : PrivateRecord} (n : UInt8), Calling x fs cs r →
      CodeFits [[139, 22, 11], [140, 22, 11]] (fun _ _ => []) (fun _ => [[n, 29, 14]]) fs ∧
      codeBulk [[139, 22, 11], [140, 22, 11]] (fun _ _ => []) (fun _ => [[n, 29, 14]]) fs ≤ 1000 := by
    intro x fs cs r n h
    refine ⟨⟨fun k cs' hk => ?_, by simp, by simp⟩, ?_⟩
    · rw [h.codes] at hk
      have := List.mem_of_getElem? hk
      simp only [List.mem_cons, List.not_mem_nil, or_false] at this
      subst this
      rw [h.code]
      rfl
    · unfold codeBulk
      rw [h.record]
      simp [privateList, indexBulk]
  have b1 := calling_bulk (.inl rfl) c1
  have b2 := calling_bulk (.inr rfl) c2
  have d1 := (fits 32 c1).2
  have d2 := (fits 33 c2).2
  exact ⟨fs1, fs2, q1, q2, h1, h2, by rw [c1.globals, c2.globals]; decide, calling_uses c1, calling_uses c2,
    by rw [c1.strings, c2.strings]; decide, by rw [c1.names, c2.names]; decide, c1.fonts, c2.fonts, [[139, 22, 11], [140, 22, 11]], fun _ _ => [],
    fun _ => [[32, 29, 14]], fun _ => [[33, 29, 14]], (fits 32 c1).1, (fits 33 c2).1, by omega,
    calling_renumbered (.inl rfl) c1 (.inl ⟨rfl, rfl, rfl⟩), calling_renumbered (.inr rfl) c2 (.inr ⟨rfl, rfl, rfl⟩)⟩

theorem calling_shows {x : UInt8} (hx : x = 139 ∨ x = 140) {fs : FontSet} {cs : Index} {r : PrivateRecord} (h : Calling x fs cs r) :
    Displays checkedBuild fs 0 0 [((.opHMoveTo, [F32.ofInt (x.toNat - 139)]), none, 0)] none := by
  have hrun : Type2.Spec.Run checkedBuild (Type2.Program.new [32, 29, 14] [[x, 22, 11]] [])
      [((.opHMoveTo, [F32.ofInt (x.toNat - 139)]), none, 0)] (.ended none) := by
    refine Type2.run_cons (t := Type2.after checkedBuild (Type2.Program.new [32, 29, 14] [[x, 22, 11]] [])) ⟨100, ?_⟩ ?_
      (Type2.run_nil (t := Type2.after checkedBuild (Type2.after checkedBuild (Type2.Program.new [32, 29, 14] [[x, 22, 11]] []))) ⟨100, ?_⟩ ?_)
    all_goals rcases hx with rfl | rfl <;> decide +kernel
  intro l out
  constructor
  · rintro ⟨cs', r', code, loc, a1, a2, a3, a4, a5⟩
    rw [h.codes] at a1
    rw [h.record] at a2
    injection a1 with a1
    injection a2 with a2
    subst a1 a2
    rw [h.code] at a3
    injection a3 with a3
    subst a3
    obtain rfl : loc = r.subroutines := a4
    rw [h.globals, h.locals] at a5
    exact Type2.run_unique a5 hrun
  · rintro ⟨rfl, rfl⟩
    refine ⟨cs, .characterNameKeyed r, [32, 29, 14], r.subroutines, by rw [h.codes]; rfl, by rw [h.record]; rfl, by rw [h.code]; rfl, rfl, ?_⟩
    rw [h.globals, h.locals]
    exact hrun

/-- The hypotheses of `C96_flat` are met by these fonts. -/
example {x : UInt8} (hx : x = 139 ∨ x = 140) : ∃ fs q, FontSet.read (tape checkedBuild (callingDef x).write) 0 = (.ok fs, q) ∧
    (∀ k sid, Uses fs k sid → sid < 391 + fs.strings.data.length) ∧ fs.strings.data.length = 0 ∧ fs.names.data.length = 1 ∧
    fs.operations.length = 1 ∧ 2 * rewriteBulk (callingDef x).write.length fs + glyphCount fs * (56 + 4) < 2 ^ 22 ∧
    ∀ (k i : Nat) cs, fs.characterStrings[k]? = some cs → i < cs.data.length → ∃ l w, Displays checkedBuild fs k i l w ∧
      (∀ y, Type2.Spec.Shown l w y → Type2.Spec.Fixed y) ∧ (l.map Type2.Spec.bulk).sum + 6 ≤ 56 := by
  obtain ⟨fs, q, cs, r, h, c⟩ := calling_read hx
  have b := calling_bulk hx c
  have h8 : glyphCount fs = 1 := by simp [glyphCount, c.codes, c.code]
  refine ⟨fs, q, h, calling_uses c, by rw [c.strings]; rfl, by rw [c.names]; rfl, c.fonts, by omega, fun k i cs' hk hi => ?_⟩
  obtain ⟨rfl, rfl, rfl⟩ := calling_only c hk hi
  refine ⟨_, _, calling_shows hx c, ?_, by rcases hx with rfl | rfl <;> decide +kernel⟩
  rintro y (⟨o, ho, hy⟩ | hy)
  · simp only [List.mem_cons, List.not_mem_nil, or_false] at ho
    subst ho
    simp only [List.mem_cons, List.not_mem_nil, or_false] at hy
    subst hy
    rcases hx with rfl | rfl
    · exact (Type2.C64_writable _).mp ⟨[139], Type2.operand_byte 139 (by decide) (by decide)⟩
    · exact (Type2.C64_writable _).mp ⟨[140], Type2.operand_byte 140 (by decide) (by decide)⟩
  · simp at hy

end PS
