import Verif.Lemmas.Writer
import Verif.Spec.Rewrite
import Verif.Props.Programs
/-!
# Properties: font sets that were written
-/
namespace PS
open Spec

/-- **C60.**  A font set that was written is read back, wherever it is in a file, and
whatever comes before and after it. -/
theorem C60_round_trip {d : FontSetDef} (hv : d.Valid) (cfg : Config) (pre post : List UInt8)
    (hsize : (pre ++ d.write ++ post).length < 2 ^ 61) (hseek : pre.length + 2 ^ 31 ≤ cfg.maxSeek) :
    ∃ fs q, FontSet.read (tape cfg (pre ++ d.write ++ post)) pre.length = (.ok fs, q) ∧ d.In fs := by
  have hs : Sits (pre ++ d.write ++ post) pre.length d.write := ⟨post, by simp⟩
  obtain ⟨fs, h1, h2, -⟩ := laidOut_write hv hs (limit := pre.length + 2 ^ 31) (Nat.le_refl _)
  obtain ⟨q, h⟩ := C32_layout cfg _ hsize _ _ fs hseek (by simp only [List.length_append] at hsize; omega) h1
  exact ⟨fs, q, h, h2⟩

theorem forall₂_both {α β γ : Type} {R : α → β → Prop} {S : α → γ → Prop} {T : β → γ → Prop} {as : List α} {bs : List β}
    {cs : List γ} (h1 : List.Forall₂ R as bs) (h2 : List.Forall₂ S as cs) (h : ∀ a b c, R a b → S a c → T b c) :
    List.Forall₂ T bs cs := by
  induction h1 generalizing cs with
  | nil => cases h2; exact .nil
  | cons h3 _ ih => cases h2 with | cons h4 h5 => exact .cons (h _ _ _ h3 h4) (ih h5)

theorem same_dict {e : Entries} {reserved : List Operator} {o o' : Operations} (h : e.In reserved o) (h' : e.In reserved o') :
    SameDict reserved o o' := by
  intro op hop
  apply Option.ext
  intro ns
  rw [h op hop, h' op hop]

theorem same_private {p : PrivateDef} {r r' : PrivateRecord} (h : p.In r) (h' : p.In r') : SamePrivate r r' :=
  ⟨same_dict h.1 h'.1, h.2.trans h'.2.symm⟩

theorem same_record {k : Keying} {r r' : Record} (h : k.In r) (h' : k.In r') : SameRecord r r' := by
  cases k with
  | names p =>
    cases r with
    | characterIDKeyed r => exact h.elim
    | characterNameKeyed r =>
    cases r' with
    | characterIDKeyed r' => exact h'.elim
    | characterNameKeyed r' => exact same_private h h'
  | identifiers a b c s ds =>
    cases r with
    | characterNameKeyed r => exact h.elim
    | characterIDKeyed r =>
    cases r' with
    | characterNameKeyed r' => exact h'.elim
    | characterIDKeyed r' =>
    obtain ⟨h1, h2, h3, h4, h5, h6⟩ := h
    obtain ⟨g1, g2, g3, g4, g5, g6⟩ := h'
    exact ⟨UInt16.toNat_inj.mp (h1.trans g1.symm), UInt16.toNat_inj.mp (h2.trans g2.symm), h3.trans g3.symm, h4.trans g4.symm,
      forall₂_both h5 g5 fun _ _ _ h h' => same_dict h h', forall₂_both h6 g6 fun _ _ _ h h' => same_private h h'⟩

/-- **C60.**  All readings of a font set that was written have the same contents, wherever
it is and whatever the build. -/
theorem C60_same {d : FontSetDef} {fs fs' : FontSet} (h : d.In fs) (h' : d.In fs') : SameContents fs fs' := by
  obtain ⟨h1, h2, h3, h4, h5, h6, h7, h8⟩ := h
  obtain ⟨g1, g2, g3, g4, g5, g6, g7, g8⟩ := h'
  refine ⟨h1.trans g1.symm, h2.trans g2.symm, h3.trans g3.symm, forall₂_both h4 g4 fun _ _ _ h h' => same_dict h h', ?_,
    h6.trans g6.symm, h7.trans g7.symm, forall₂_both h8 g8 fun _ _ _ h h' => same_record h h'⟩
  have := forall₂_both (T := fun a b : Index => a.data = b.data) h5 g5 fun f a b (x : a.data = f.codes)
    (y : b.data = f.codes) => x.trans y.symm
  rw [← List.forall₂_eq_eq_eq, List.forall₂_map_left_iff, List.forall₂_map_right_iff]
  exact this

theorem forall₂_getElem? {α β : Type} {R : α → β → Prop} {as : List α} {bs : List β} (h : List.Forall₂ R as bs) {k : Nat} {a : α}
    (ha : as[k]? = some a) : ∃ b, bs[k]? = some b ∧ R a b := by
  induction h generalizing k with
  | nil => simp at ha
  | cons h _ ih =>
    cases k with
    | zero => simp only [List.getElem?_cons_zero, Option.some.injEq] at ha; subst ha; exact ⟨_, rfl, h⟩
    | succ k => simpa using ih (by simpa using ha)

/-- **C60.**  From the glyph to the operations: a glyph that was written as a character
string into a font set is what running the character string shows, after the font set
was read from a file. -/
theorem C60_glyphs {d : FontSetDef} (hv : d.Valid) (cfg : Config) (pre post : List UInt8)
    (hsize : (pre ++ d.write ++ post).length < 2 ^ 61) (hseek : pre.length + 2 ^ 31 ≤ cfg.maxSeek) :
    ∃ fs q, FontSet.read (tape cfg (pre ++ d.write ++ post)) pre.length = (.ok fs, q) ∧ d.In fs ∧
      ∀ (k i : Nat) (f : FontDef) (g : Type2.Spec.Glyph) (bs rest : List UInt8), d.fonts[k]? = some f → g.Valid → g.Bytes bs →
        f.codes[i]? = some (bs ++ rest) →
        ∃ cs r code, fs.characterStrings[k]? = some cs ∧ fs.records[k]? = some r ∧ cs.data[i]? = some code ∧
          ∀ «local», LocalOf r «local» → ∀ l out,
            Type2.Spec.Run cfg (Type2.Program.new code fs.subroutines.data «local».data) l out ↔
              l = Type2.Spec.seen g.width 0 g.items ∧ out = .ended g.width := by
  obtain ⟨fs, q, h, hin⟩ := C60_round_trip hv cfg pre post hsize hseek
  refine ⟨fs, q, h, hin, ?_⟩
  intro k i f g bs rest hf hg hb hc
  obtain ⟨cs, h1, h2⟩ := forall₂_getElem? hin.2.2.2.2.1 hf
  obtain ⟨r, h3, -⟩ := forall₂_getElem? hin.2.2.2.2.2.2.2 hf
  refine ⟨cs, r, bs ++ rest, h1, h3, by rw [h2]; exact hc, ?_⟩
  intro «local» hl l out
  obtain ⟨g1, g2, g3⟩ := program_sound cfg _ hsize _ fs ((C32_layout_iff cfg _ hsize _ fs).mp ⟨q, h⟩) k cs r h1 h3
    (bs ++ rest) (by rw [h2]; exact List.mem_of_getElem? hc) «local» hl
  exact Type2.C55_glyph hg hb rest g1 g2 g3 l out

/-! ## A font set with two fonts -/

/-- The glyph `Type2.sampleGlyph` in a font keyed by names and in one keyed by
identifiers. -/
def sampleDef : FontSetDef where
  names := [[65], [66, 67]]
  strings := [[72, 105]]
  globals := [[11], [139, 11]]
  fonts := [
    { entries := ⟨[(.opFullName, [.integer 1])], [140, 2]⟩
      codes := [[14], [159, 149, 154, 18, 149, 149, 20, 0xc0, 149, 22, 154, 159, 5, 14]]
      set := .format0 0 [34]
      encoding := .standard
      keying := .names ⟨⟨[(.opDefaultWidthX, [.integer 2])], [141, 20]⟩, [[11]]⟩ },
    { entries := ⟨[], []⟩
      codes := [[159, 149, 154, 18, 149, 149, 20, 0xc0, 149, 22, 154, 159, 5, 14]]
      set := .isoAdobe
      encoding := .standard
      keying := .identifiers 1 2 (.integer 0, [139]) (.format0 0 [1])
        [⟨⟨[], []⟩, ⟨⟨[], []⟩, []⟩⟩, ⟨⟨[(.opFontMatrix, [])], [12, 7]⟩, ⟨⟨[], []⟩, [[11], [14]]⟩⟩] }]

theorem sampleDef_valid : sampleDef.Valid := by
  have fits : ∀ {items : List (List UInt8)}, items.length ≤ 65535 → 1 + items.flatten.length < 2 ^ 32 → IndexFits 4 items :=
    fun h1 h2 => ⟨h1, by omega, by omega, h2⟩
  have one : ∀ {op : Operator} {i : Int} {b : UInt8}, 32 ≤ b.toNat → b.toNat ≤ 246 → (b.toNat : Int) - 139 = i →
      Dict [(op, [.integer i])] (b :: opCode op) := by
    intro op i b h1 h2 h3
    have h : Seq Operation [(op, [Number.integer i])] ((b :: opCode op) ++ []) :=
      .cons ⟨[b], .cons (b := [b]) (bs := []) (show DictInt i [b] from .short (h3 ▸ .oneByte b h1 h2)) .nil, rfl⟩ .nil
    rwa [List.append_nil] at h
  refine ⟨fits (by decide) (by decide), fits (by decide) (by decide), fits (by decide) (by decide), by decide, ?_, by decide +kernel⟩
  intro f hf
  simp only [sampleDef, List.mem_cons, List.not_mem_nil, or_false] at hf
  rcases hf with rfl | rfl
  · exact ⟨⟨one (by decide) (by decide) (by decide), by decide⟩, fits (by decide) (by decide), .inr ⟨rfl, rfl⟩, .inl (.inl rfl),
      ⟨one (by decide) (by decide) (by decide), by decide⟩, fits (by decide) (by decide)⟩
  · refine ⟨⟨.nil, by decide⟩, fits (by decide) (by decide), .inl (.inl rfl), .inl (.inl rfl),
      by decide, by decide, DictInt.short (.oneByte 139 (by decide) (by decide)), ⟨rfl, rfl⟩, by decide, ?_⟩
    intro d hd
    simp only [List.mem_cons, List.not_mem_nil, or_false] at hd
    rcases hd with rfl | rfl
    · exact ⟨⟨.nil, by decide⟩, ⟨.nil, by decide⟩, fits (by decide) (by decide)⟩
    · refine ⟨⟨?_, by decide⟩, ⟨.nil, by decide⟩, fits (by decide) (by decide)⟩
      exact .cons (a := (Operator.opFontMatrix, [])) (b := [12, 7]) (bs := []) ⟨[], .nil, rfl⟩ .nil

example : ∃ fs q, FontSet.read (tape checkedBuild ([7, 7, 7] ++ sampleDef.write ++ [9])) 3 = (.ok fs, q) ∧ sampleDef.In fs :=
  C60_round_trip sampleDef_valid checkedBuild [7, 7, 7] [9] (by decide +kernel) (by decide)

end PS
