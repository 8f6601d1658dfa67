import Verif.Props.Type2Calls
import Verif.Spec.Glyph
/-!
# Property C55: glyphs are read back as written
-/
namespace PS.Type2
open PS.Spec hiding Operand Operation
open PS.Type2.Spec

theorem seq_pushes {xs : List F32} {bs rest : List UInt8} (h : Seq Operand xs bs) (σ : State) (hc : σ.code = bs ++ rest) :
    Pushes σ { σ with code := rest, stack := σ.stack ++ xs } :=
  pushes_iff.mpr ⟨xs, bs, h, hc, rfl⟩

/-- A run is unique. -/
theorem run_unique {cfg : Config} {s : Program} {l l' : List Observation} {out out' : Outcome} (h : Run cfg s l out)
    (h' : Run cfg s l' out') : l = l' ∧ out = out' := by
  induction h generalizing l' out' with
  | ended h =>
    cases h' with
    | ended h' => obtain ⟨-, rfl⟩ := next_unique h h'; exact ⟨rfl, rfl⟩
    | failed h' hn => exact absurd (next_unique h h').1.symm (hn _)
    | more h' => have := (next_unique h h').1; simp at this
  | failed h hn =>
    cases h' with
    | ended h' => exact absurd (next_unique h h').1 (hn _)
    | failed h' hn => exact ⟨rfl, rfl⟩
    | more h' => exact absurd (next_unique h h').1 (hn _)
  | more h _ ih =>
    obtain ⟨y, rfl, hy⟩ := (run_more h _ _).mp h'
    obtain ⟨rfl, rfl⟩ := ih hy
    exact ⟨rfl, rfl⟩

theorem takesWidth_longest {op : Operator} {args : List F32} {w : F32} (h : (Item.plain op args).TakesWidth)
    (ha : Accepts op args.length) : Longest op (w :: args) [w] args := by
  refine ⟨rfl, ha, fun args' hs ha' => ?_⟩
  have hl := hs.length_le
  rw [List.length_cons] at hl
  simp only [Item.TakesWidth, List.mem_cons, List.not_mem_nil, or_false] at h
  rcases h with rfl | rfl | rfl | rfl | rfl | rfl | rfl <;> simp only [Accepts] at ha ha' <;> omega

theorem longest_self {op : Operator} {args : List F32} (ha : Accepts op args.length) : Longest op args [] args :=
  ⟨rfl, ha, fun _ hs _ => hs.length_le⟩

/-- One instruction, with `extra` in front of its arguments. -/
theorem item_yields {checks : Bool} {σ : State} {extra : List F32} {i : Item} {bs rest : List UInt8} {w : Option F32}
    (hw : Written extra i bs) (hv : i.Valid σ.stems) (hc : σ.code = bs ++ rest) (hst : σ.stack = [])
    (hx : (extra = [] ∧ w = σ.width ∧ (w = none → i.NoStems)) ∨
      (∃ x, extra = [x] ∧ σ.width = none ∧ w = some x ∧ i.TakesWidth ∧ i.NoStems)) :
    Yields checks σ i.operation { σ with code := rest, width := w, stems := σ.stems + i.stems } := by
  cases hw with
  | @plain op args bs hs =>
    obtain ⟨hop, ha⟩ := hv
    have hp := seq_pushes (rest := bytes op ++ rest) hs σ (by rw [hc, List.append_assoc])
    refine ⟨σ, _, .refl, hp, ?_⟩
    have hl : Longest op (σ.stack ++ (extra ++ args)) extra args ∧ newWidth σ.width extra = w := by
      rw [hst, List.nil_append]
      rcases hx with ⟨rfl, rfl, -⟩ | ⟨x, rfl, h1, rfl, h2, -⟩
      · exact ⟨longest_self ha, by simp [newWidth]⟩
      · exact ⟨takesWidth_longest h2 ha, by simp [newWidth, h1]⟩
    obtain ⟨hl, rfl⟩ := hl
    rcases hop with hop | hop
    · have hns : ¬ Stem op := by
        revert hop; cases op <;> decide
      have := Emit.path (σ := { σ with code := bytes op ++ rest, stack := σ.stack ++ (extra ++ args) }) hop rfl hl
      simpa only [Item.operation, Item.stems, if_neg hns, Nat.add_zero, hst] using this
    · have := Emit.stem (σ := { σ with code := bytes op ++ rest, stack := σ.stack ++ (extra ++ args) }) hop rfl hl
      have hlen : (σ.stack ++ (extra ++ args)).length / 2 = args.length / 2 := by
        rw [hst, List.nil_append]
        rcases hx with ⟨rfl, -⟩ | ⟨x, rfl, -⟩
        · rfl
        · have : args.length % 2 = 0 := by
            simp only [Stem, List.mem_cons, List.not_mem_nil, or_false] at hop
            rcases hop with rfl | rfl | rfl | rfl <;> (obtain ⟨k, -, hk⟩ := ha; omega)
          simp only [List.cons_append, List.nil_append, List.length_cons]
          omega
      simp only [hlen] at this
      simpa only [Item.operation, Item.stems, if_pos hop, hst] using this
  | @masked op stems mask bs hs =>
    obtain ⟨hop, hev, hm⟩ := hv
    have hp := seq_pushes (rest := bytes op ++ mask ++ rest) hs σ (by rw [hc]; simp only [List.append_assoc])
    refine ⟨σ, _, .refl, hp, ?_⟩
    have hl : (σ.stack ++ (extra ++ stems)).length / 2 = stems.length / 2 ∧
        newWidth σ.width (σ.stack ++ (extra ++ stems)) = w := by
      rw [hst, List.nil_append]
      rcases hx with ⟨rfl, rfl, h⟩ | ⟨x, rfl, h1, rfl, -, h2⟩
      · refine ⟨rfl, ?_⟩
        rcases hw : σ.width with _ | w
        · have : stems = [] := h hw
          subst this; rfl
        · rfl
      · have : stems = [] := h2
        subst this
        exact ⟨by simp, by simp [newWidth, h1]⟩
    have := Emit.mask (σ := { σ with code := bytes op ++ mask ++ rest, stack := σ.stack ++ (extra ++ stems) }) hop rfl
      (by rw [hl.1]; exact hm)
    simp only [hl.1, hl.2] at this
    simpa only [Item.operation, Item.stems, hst] using this

theorem written_run {cfg : Config} {items : List Item} {bs rest : List UInt8} :
    ∀ {extra : List F32} {s : Program} {w : Option F32}, WrittenAll extra items bs → Sound s → s.callers = [] →
      AllValid s.stems items → left s.routine = bs ++ rest → s.stack = [] →
      ((extra = [] ∧ w = s.width ∧ (w = none → ∀ i ∈ items, i.NoStems)) ∨
        (∃ x, extra = [x] ∧ s.width = none ∧ w = some x ∧ ∀ i ∈ items.head?, i.TakesWidth ∧ i.NoStems)) →
      Run cfg s (seen w s.stems items) (.ended w) := by
  induction items generalizing bs with
  | nil =>
    rintro extra s w h hs hcs - hc hst hx
    cases h with
    | @nil _ bs h =>
    rcases endchar_cases (cfg := cfg) hs ⟨bs, h, hc⟩ with ⟨-, t, hn, -, -, -, ht⟩ | ⟨hn, -⟩
    · have : t.width = w := by
        rw [ht, hst, List.nil_append]
        rcases hx with ⟨rfl, rfl, -⟩ | ⟨x, rfl, h1, rfl, -⟩
        · simp
        · simp [h1]
      rw [← this]
      exact .ended hn
    · exact absurd (by simp [hcs]) hn
  | cons i items ih =>
    rintro extra s w h hs hcs ⟨hv, hvs⟩ hc hst hx
    cases h with
    | @cons _ _ _ bs bs' h h' =>
    have hy := item_yields (checks := cfg.checks) (σ := view s) (rest := bs' ++ rest) (w := w) h hv
      (by rw [← List.append_assoc]; exact hc) hst
      (hx.imp (fun ⟨a, b, c⟩ => ⟨a, b, fun hw => c hw i (by simp)⟩) (fun ⟨x, a, b, c, d⟩ =>
        ⟨x, a, b, c, (d i (by simp)).1, (d i (by simp)).2⟩))
    obtain ⟨t, hn, htv, ht⟩ := yields_next hs hy
    have e1 : t.width = w := congrArg State.width htv
    have e2 : t.stems = s.stems + i.stems := congrArg State.stems htv
    have e3 : t.stack = [] := (congrArg State.stack htv).trans hst
    have e4 : left t.routine = bs' ++ rest := congrArg State.code htv
    have e5 : t.callers = [] := by
      have : t.callers.map left = s.callers.map left := congrArg State.callers htv
      simpa [hcs] using this
    have := ih (w := w) h' ht e5 (by rw [e2]; exact hvs) e4 e3 (.inl ⟨rfl, e1.symm, fun hw => by
      rcases hx with ⟨-, -, h⟩ | ⟨x, -, -, h, -⟩
      · exact fun i hi => h hw i (List.mem_cons_of_mem _ hi)
      · rw [hw] at h; simp at h⟩)
    rw [e2] at this
    have hr := Run.more hn this
    rw [e1, e2] at hr
    exact hr

/-- **C55.**  Running the bytes of a valid glyph, however its operands are encoded and
whatever follows `endchar`, shows its instructions one after the other, with its
width from the first one on and the number of stems declared so far, and ends with
its width; it shows nothing else. -/
theorem C55_glyph {cfg : Config} {g : Glyph} (hg : g.Valid) {bs : List UInt8} (hb : g.Bytes bs) (rest : List UInt8)
    {global «local» : List (List UInt8)} (h1 : (bs ++ rest).length < 2 ^ 63)
    (h2 : ∀ c ∈ global ++ «local», c.length < 2 ^ 63) (h3 : global.length ≤ 2 ^ 31 ∧ «local».length ≤ 2 ^ 31)
    (l : List Observation) (out : Outcome) :
    Run cfg (Program.new (bs ++ rest) global «local») l out ↔ l = seen g.width 0 g.items ∧ out = .ended g.width := by
  have hr : Run cfg (Program.new (bs ++ rest) global «local») (seen g.width 0 g.items) (.ended g.width) := by
    refine written_run (rest := rest) hb (sound_new h1 h2 h3) rfl hg.1 rfl rfl ?_
    have h := hg.2
    rcases hw : g.width with _ | w <;> rw [hw] at h
    · exact .inl ⟨rfl, rfl, fun _ => h⟩
    · exact .inr ⟨w, rfl, rfl, rfl, h⟩
  exact ⟨fun h => run_unique h hr, fun ⟨a, b⟩ => by rw [a, b]; exact hr⟩

/-- **C55.**  Every glyph with operands that can be written can be written: the bytes
exist. -/
theorem C55_writable {items : List Item} {extra : List F32} (he : ∀ x ∈ extra, ∃ bs, Operand x bs)
    (h : ∀ i ∈ items, ∀ x ∈ (match i with | .plain _ args => args | .masked _ stems _ => stems), ∃ bs, Operand x bs) :
    ∃ bs, WrittenAll extra items bs := by
  have seq : ∀ xs : List F32, (∀ x ∈ xs, ∃ bs, Operand x bs) → ∃ bs, Seq Operand xs bs := by
    intro xs hx
    induction xs with
    | nil => exact ⟨_, .nil⟩
    | cons x xs ih =>
      obtain ⟨bs, hb⟩ := hx x (by simp)
      obtain ⟨bs', hb'⟩ := ih fun y hy => hx y (by simp [hy])
      exact ⟨_, .cons hb hb'⟩
  induction items generalizing extra with
  | nil =>
    obtain ⟨bs, hb⟩ := seq extra he
    exact ⟨_, .nil hb⟩
  | cons i items ih =>
    obtain ⟨bs', hb'⟩ := ih (extra := []) (by simp) fun j hj => h j (by simp [hj])
    have hi := h i (by simp)
    cases i with
    | plain op args =>
      obtain ⟨bs, hb⟩ := seq (extra ++ args) (by simpa [or_imp, forall_and] using ⟨he, hi⟩)
      exact ⟨_, .cons (.plain hb) hb'⟩
    | masked op stems mask =>
      obtain ⟨bs, hb⟩ := seq (extra ++ stems) (by simpa [or_imp, forall_and] using ⟨he, hi⟩)
      exact ⟨_, .cons (.masked hb) hb'⟩

/-- `20 10 15 hstemhm; 10 10 cntrmask 11000000; 10 hmoveto; 15 20 rlineto`, of the width 20. -/
def sampleGlyph : Glyph where
  width := some (F32.ofInt 20)
  items := [.plain .opHStemHM [F32.ofInt 10, F32.ofInt 15], .masked .opCntrMask [F32.ofInt 10, F32.ofInt 10] [0xc0],
    .plain .opHMoveTo [F32.ofInt 10], .plain .opRLineTo [F32.ofInt 15, F32.ofInt 20]]

theorem sampleGlyph_valid : sampleGlyph.Valid := by
  refine ⟨⟨⟨.inr (by decide), 1, by decide, rfl⟩, ⟨by decide, by decide, by decide⟩, ⟨.inl (by decide), rfl⟩,
    ⟨.inl (by decide), 1, by decide, rfl⟩, trivial⟩, fun i hi => ?_⟩
  simp only [sampleGlyph, List.head?_cons, Option.mem_def, Option.some.injEq] at hi
  subst hi
  exact ⟨by simp [Item.TakesWidth], trivial⟩

theorem sampleGlyph_bytes : sampleGlyph.Bytes [159, 149, 154, 18, 149, 149, 20, 0xc0, 149, 22, 154, 159, 5, 14] := by
  have h10 : Operand (F32.ofInt 10) [149] := operand_byte 149 (by decide) (by decide)
  have h20 : Operand (F32.ofInt 20) [159] := operand_byte 159 (by decide) (by decide)
  have h15 : Operand (F32.ofInt 15) [154] := operand_byte 154 (by decide) (by decide)
  have e1 : Written [F32.ofInt 20] (.plain .opHStemHM [F32.ofInt 10, F32.ofInt 15]) [159, 149, 154, 18] :=
    .plain (bs := [159, 149, 154]) (.cons h20 (.cons h10 (.cons h15 .nil)))
  have e2 : Written [] (.masked .opCntrMask [F32.ofInt 10, F32.ofInt 10] [0xc0]) [149, 149, 20, 0xc0] :=
    .masked (bs := [149, 149]) (.cons h10 (.cons h10 .nil))
  have e3 : Written [] (.plain .opHMoveTo [F32.ofInt 10]) [149, 22] := .plain (bs := [149]) (.cons h10 .nil)
  have e4 : Written [] (.plain .opRLineTo [F32.ofInt 15, F32.ofInt 20]) [154, 159, 5] :=
    .plain (bs := [154, 159]) (.cons h15 (.cons h20 .nil))
  exact .cons e1 (.cons e2 (.cons e3 (.cons e4 (.nil (bs := []) .nil))))

/-- Whatever follows it and whatever the subroutines are, the sample is drawn as it is. -/
example (cfg : Config) (l : List Observation) (out : Outcome) :
    Run cfg (Program.new ([159, 149, 154, 18, 149, 149, 20, 0xc0, 149, 22, 154, 159, 5, 14] ++ [1, 2, 3]) [[11]] [[14], []]) l out ↔
      l = seen (some (F32.ofInt 20)) 0 sampleGlyph.items ∧ out = .ended (some (F32.ofInt 20)) :=
  C55_glyph sampleGlyph_valid sampleGlyph_bytes [1, 2, 3] (by decide) (by decide) (by decide) l out

/-- Its items can be written, with the width in front of them. -/
example : ∃ bs, WrittenAll [F32.ofInt 20] sampleGlyph.items bs := by
  have h10 : ∃ bs, Operand (F32.ofInt 10) bs := ⟨_, operand_byte 149 (by decide) (by decide)⟩
  have h15 : ∃ bs, Operand (F32.ofInt 15) bs := ⟨_, operand_byte 154 (by decide) (by decide)⟩
  have h20 : ∃ bs, Operand (F32.ofInt 20) bs := ⟨_, operand_byte 159 (by decide) (by decide)⟩
  refine C55_writable (by simpa using h20) ?_
  simp only [sampleGlyph, List.mem_cons, List.not_mem_nil, or_false]
  rintro i (rfl | rfl | rfl | rfl) x hx
  all_goals
    simp only [List.mem_cons, List.not_mem_nil, or_false] at hx
    rcases hx with rfl | rfl <;> assumption

end PS.Type2
