import Verif.Spec.Lost
import Verif.Props.Glyph
import Verif.Props.Type2Run
/-!
# Property C99: what is lost of a glyph
-/
namespace PS.Type2
open PS.Spec hiding Operand Operation
open PS.Type2.Spec

theorem plain_masked {op : Operator} (h : Path op ∨ Stem op) : ¬ Mask op := by
  simp only [Path, Stem, Mask, List.mem_cons, List.not_mem_nil, or_false] at h ⊢
  rcases h with h | h
  · rcases h with rfl | rfl | rfl | rfl | rfl | rfl | rfl | rfl | rfl | rfl | rfl | rfl | rfl | rfl | rfl | rfl | rfl <;> simp
  · rcases h with rfl | rfl | rfl | rfl <;> simp

theorem seen_indistinct {w : Option F32} {l l' : List Item} (h : List.Forall₂ Indistinct l l') : ∀ n, seen w n l = seen w n l' := by
  induction h with
  | nil => exact fun _ => rfl
  | cons h _ ih =>
    intro n
    cases h with
    | plain op args => simp only [seen, ih]
    | masked h => simp only [seen, Item.stems, Item.operation, h, ih]

theorem indistinct_seen {w w' : Option F32} {l : List Item} : ∀ {l' : List Item} {n : Nat}, AllValid n l → AllValid n l' →
    seen w n l = seen w' n l' → List.Forall₂ Indistinct l l' := by
  induction l with
  | nil =>
    intro l' n _ _ h
    cases l' with
    | nil => exact .nil
    | cons i l' => simp [seen] at h
  | cons i l ih =>
    intro l' n h1 h2 h
    cases l' with
    | nil => simp [seen] at h
    | cons i' l' =>
      simp only [seen, List.cons.injEq, Prod.mk.injEq] at h
      obtain ⟨⟨e1, -, e2⟩, e3⟩ := h
      have e4 : i'.stems = i.stems := by omega
      obtain ⟨v1, h1⟩ := h1
      obtain ⟨v2, h2⟩ := h2
      rw [e4] at e3 h2
      refine .cons ?_ (ih h1 h2 e3)
      cases i with
      | plain op args =>
        cases i' with
        | plain op' args' =>
          obtain ⟨rfl, rfl⟩ := Prod.mk.inj e1
          exact .plain _ _
        | masked op' st mask =>
          obtain ⟨rfl, -⟩ := Prod.mk.inj e1
          exact absurd v2.1 (plain_masked v1.1)
      | masked op st mask =>
        cases i' with
        | plain op' args' =>
          obtain ⟨rfl, -⟩ := Prod.mk.inj e1
          exact absurd v1.1 (plain_masked v2.1)
        | masked op' st' mask' =>
          obtain ⟨rfl, -⟩ := Prod.mk.inj e1
          have p1 := v1.2.1
          have p2 := v2.2.1
          simp only [Item.stems] at e4
          exact .masked (by omega)

/-- **C99.**  Two glyphs that are written in any way show the same if and only if they have the same
width and the same instructions, but for the contents of masks and the positions of the vertical
stems declared on the side of them. -/
theorem C99_same_iff {cfg cfg' : Config} {g g' : Glyph} (hg : g.Valid) (hg' : g'.Valid) {bs bs' : List UInt8} (hb : g.Bytes bs)
    (hb' : g'.Bytes bs') (rest rest' : List UInt8) {global «local» global' local' : List (List UInt8)}
    (h1 : (bs ++ rest).length < 2 ^ 63) (h1' : (bs' ++ rest').length < 2 ^ 63)
    (h2 : ∀ c ∈ global ++ «local», c.length < 2 ^ 63) (h2' : ∀ c ∈ global' ++ local', c.length < 2 ^ 63)
    (h3 : global.length ≤ 2 ^ 31 ∧ «local».length ≤ 2 ^ 31) (h3' : global'.length ≤ 2 ^ 31 ∧ local'.length ≤ 2 ^ 31) :
    (∀ l out, Run cfg (Program.new (bs ++ rest) global «local») l out ↔ Run cfg' (Program.new (bs' ++ rest') global' local') l out) ↔
      g.width = g'.width ∧ List.Forall₂ Indistinct g.items g'.items := by
  constructor
  · intro h
    obtain ⟨e1, e2⟩ := (C55_glyph (cfg := cfg') hg' hb' rest' h1' h2' h3' _ _).mp
      ((h _ _).mp ((C55_glyph hg hb rest h1 h2 h3 _ _).mpr ⟨rfl, rfl⟩))
    exact ⟨by simpa using e2, indistinct_seen hg.1 hg'.1 e1⟩
  · rintro ⟨e1, e2⟩ l out
    rw [C55_glyph hg hb rest h1 h2 h3, C55_glyph hg' hb' rest' h1' h2' h3', e1, seen_indistinct e2]

/-- **C99.**  So glyphs without masks that show the same are the same: nothing is lost. -/
theorem C99_maskless_partial {cfg cfg' : Config} {g g' : Glyph} (hg : g.Valid) (hg' : g'.Valid) (hm : g.Maskless) {bs bs' : List UInt8}
    (hb : g.Bytes bs) (hb' : g'.Bytes bs') (rest rest' : List UInt8) {global «local» global' local' : List (List UInt8)}
    (h1 : (bs ++ rest).length < 2 ^ 63) (h1' : (bs' ++ rest').length < 2 ^ 63)
    (h2 : ∀ c ∈ global ++ «local», c.length < 2 ^ 63) (h2' : ∀ c ∈ global' ++ local', c.length < 2 ^ 63)
    (h3 : global.length ≤ 2 ^ 31 ∧ «local».length ≤ 2 ^ 31) (h3' : global'.length ≤ 2 ^ 31 ∧ local'.length ≤ 2 ^ 31)
    {l : List Observation} {out : Outcome} (h : Run cfg (Program.new (bs ++ rest) global «local») l out)
    (h' : Run cfg' (Program.new (bs' ++ rest') global' local') l out) : g = g' := by
  obtain ⟨e1, e2⟩ := (C55_glyph hg hb rest h1 h2 h3 _ _).mp h
  obtain ⟨e3, e4⟩ := (C55_glyph hg' hb' rest' h1' h2' h3' _ _).mp h'
  have hw : g.width = g'.width := by
    rw [e2] at e4
    simpa using e4
  have hi := indistinct_seen hg.1 hg'.1 (e1.symm.trans e3)
  have : g.items = g'.items := by
    unfold Glyph.Maskless at hm
    generalize g.items = a at hi hm
    generalize g'.items = b at hi
    induction hi with
    | nil => rfl
    | cons k _ ih =>
      rw [ih fun i hi => hm i (List.mem_cons_of_mem _ hi)]
      cases k with
      | plain => rfl
      | masked =>
        obtain ⟨op, args, e⟩ := hm _ List.mem_cons_self
        cases e
  cases g
  cases g'
  simp_all

/-! ## The claim as stated -/

/-- Nothing is lost: two glyphs that are written and show the same are the same. -/
def C99Statement : Prop := ∀ (cfg : Config) (g g' : Glyph) (bs bs' : List UInt8) (l : List Observation) (out : Outcome),
  g.Valid → g'.Valid → g.Bytes bs → g'.Bytes bs' → bs.length < 2 ^ 63 → bs'.length < 2 ^ 63 →
  Run cfg (Program.new bs [] []) l out → Run cfg (Program.new bs' [] []) l out → g = g'

/-- `sampleGlyph` with other vertical stems: `15 15` in place of `10 10`. -/
def shiftedGlyph : Glyph where
  width := some (F32.ofInt 20)
  items := [.plain .opHStemHM [F32.ofInt 10, F32.ofInt 15], .masked .opCntrMask [F32.ofInt 15, F32.ofInt 15] [0xc0],
    .plain .opHMoveTo [F32.ofInt 10], .plain .opRLineTo [F32.ofInt 15, F32.ofInt 20]]

theorem shiftedGlyph_valid : shiftedGlyph.Valid := by
  refine ⟨⟨⟨.inr (by decide), 1, by decide, rfl⟩, ⟨by decide, by decide, by decide⟩, ⟨.inl (by decide), rfl⟩,
    ⟨.inl (by decide), 1, by decide, rfl⟩, trivial⟩, fun i hi => ?_⟩
  simp only [shiftedGlyph, List.head?_cons, Option.mem_def, Option.some.injEq] at hi
  subst hi
  exact ⟨by simp [Item.TakesWidth], trivial⟩

theorem shiftedGlyph_bytes : shiftedGlyph.Bytes [159, 149, 154, 18, 154, 154, 20, 0xc0, 149, 22, 154, 159, 5, 14] := by
  have h10 : Operand (F32.ofInt 10) [149] := operand_byte 149 (by decide) (by decide)
  have h20 : Operand (F32.ofInt 20) [159] := operand_byte 159 (by decide) (by decide)
  have h15 : Operand (F32.ofInt 15) [154] := operand_byte 154 (by decide) (by decide)
  have e1 : Written [F32.ofInt 20] (.plain .opHStemHM [F32.ofInt 10, F32.ofInt 15]) [159, 149, 154, 18] :=
    .plain (bs := [159, 149, 154]) (.cons h20 (.cons h10 (.cons h15 .nil)))
  have e2 : Written [] (.masked .opCntrMask [F32.ofInt 15, F32.ofInt 15] [0xc0]) [154, 154, 20, 0xc0] :=
    .masked (bs := [154, 154]) (.cons h15 (.cons h15 .nil))
  have e3 : Written [] (.plain .opHMoveTo [F32.ofInt 10]) [149, 22] := .plain (bs := [149]) (.cons h10 .nil)
  have e4 : Written [] (.plain .opRLineTo [F32.ofInt 15, F32.ofInt 20]) [154, 159, 5] :=
    .plain (bs := [154, 159]) (.cons h15 (.cons h20 .nil))
  exact .cons e1 (.cons e2 (.cons e3 (.cons e4 (.nil (bs := []) .nil))))

/-- **C99.**  The claim is false: where the vertical stems are that are declared on the side of a mask
is not shown, so that two glyphs that differ in this, even with the same masks, cannot be told
apart. -/
theorem C99_false : ¬ C99Statement := by
  intro h
  have hi : List.Forall₂ Indistinct sampleGlyph.items shiftedGlyph.items :=
    .cons (.plain _ _) (.cons (.masked rfl) (.cons (.plain _ _) (.cons (.plain _ _) .nil)))
  have hr := (C55_glyph (cfg := release) sampleGlyph_valid sampleGlyph_bytes [] (global := []) («local» := []) (by decide) (by simp) (by simp) _ _).mpr
    ⟨rfl, rfl⟩
  have hr' := ((C99_same_iff (cfg := release) (cfg' := release) sampleGlyph_valid shiftedGlyph_valid sampleGlyph_bytes shiftedGlyph_bytes [] []
    (global := []) («local» := []) (global' := []) (local' := []) (by decide) (by decide) (by simp) (by simp) (by simp) (by simp)).mpr
    ⟨rfl, hi⟩ _ _).mp hr
  have := h release sampleGlyph shiftedGlyph _ _ _ _ sampleGlyph_valid shiftedGlyph_valid sampleGlyph_bytes shiftedGlyph_bytes
    (by decide) (by decide) (by simpa using hr) (by simpa using hr')
  revert this
  simp only [sampleGlyph, shiftedGlyph, Glyph.mk.injEq, List.cons.injEq, Item.masked.injEq]
  decide +kernel

/-! ## Examples -/

/-- `10 hmoveto` -/
def movedGlyph : Glyph := ⟨none, [.plain .opHMoveTo [F32.ofInt 10]]⟩

theorem movedGlyph_valid : movedGlyph.Valid :=
  ⟨⟨⟨.inl (by decide), rfl⟩, trivial⟩, fun i hi => by
    simp only [movedGlyph, List.mem_cons, List.not_mem_nil, or_false] at hi
    subst hi
    exact trivial⟩

/-- The hypotheses of `C99_maskless_partial` are met, with the operand in one byte or in three. -/
example : movedGlyph.Valid ∧ movedGlyph.Maskless ∧ movedGlyph.Bytes [149, 22, 14] ∧ movedGlyph.Bytes [28, 0, 10, 22, 14] ∧
    ∃ l out, Run release (Program.new ([149, 22, 14] ++ []) [] []) l out ∧ Run release (Program.new ([28, 0, 10, 22, 14] ++ [1]) [] []) l out := by
  have h1 : Operand (F32.ofInt 10) [149] := operand_byte 149 (by decide) (by decide)
  have h2 : Operand (F32.ofInt 10) [28, 0, 10] := operand_iff.mpr (.inl ⟨10, .word 10 (by decide) (by decide), rfl⟩)
  have b1 : movedGlyph.Bytes [149, 22, 14] := .cons (.plain (op := .opHMoveTo) (bs := [149]) (.cons h1 .nil)) (.nil (bs := []) .nil)
  have b2 : movedGlyph.Bytes [28, 0, 10, 22, 14] := .cons (.plain (op := .opHMoveTo) (bs := [28, 0, 10]) (.cons h2 .nil)) (.nil (bs := []) .nil)
  refine ⟨movedGlyph_valid, fun i hi => ?_, b1, b2, _, _, (C55_glyph movedGlyph_valid b1 [] (by decide) (by simp) (by simp) _ _).mpr ⟨rfl, rfl⟩,
    (C55_glyph movedGlyph_valid b2 [1] (by decide) (by simp) (by simp) _ _).mpr ⟨rfl, rfl⟩⟩
  simp only [movedGlyph, List.mem_cons, List.not_mem_nil, or_false] at hi
  exact ⟨_, _, hi⟩

end PS.Type2
