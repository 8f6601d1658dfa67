import Verif.Spec.Distinct
import Verif.Props.Writer
/-!
# Property C100: font sets that differ are read as different ones
-/
namespace PS
open PS.Spec

theorem forall₂_transfer {α β γ δ : Type} {R : α → β → Prop} {S : γ → δ → Prop} {T : α → γ → Prop} {U : β → δ → Prop}
    {as : List α} {bs : List β} {cs : List γ} {ds : List δ} (h1 : List.Forall₂ R as bs) (h2 : List.Forall₂ S cs ds)
    (h : ∀ a ∈ as, ∀ c ∈ cs, ∀ b d, R a b → S c d → (T a c ↔ U b d)) : List.Forall₂ T as cs ↔ List.Forall₂ U bs ds := by
  induction h1 generalizing cs ds with
  | nil => cases h2 <;> simp
  | @cons a b as bs hab _ ih =>
    cases h2 with
    | nil => simp
    | @cons c d cs ds hcd hrest =>
      simp only [List.forall₂_cons]
      rw [h a List.mem_cons_self c List.mem_cons_self b d hab hcd,
        ih hrest fun a ha c hc => h a (List.mem_cons_of_mem _ ha) c (List.mem_cons_of_mem _ hc)]

theorem entries_same {e e' : Entries} {reserved : List Operator} {o o' : Operations} (hv : e.Valid reserved) (hv' : e'.Valid reserved)
    (h : e.In reserved o) (h' : e'.In reserved o') : e.Same e' ↔ SameDict reserved o o' := by
  constructor
  · intro hs op hop
    apply Option.ext
    intro ns
    rw [h op hop, h' op hop, hs]
  · intro hs op ns
    by_cases hop : op ∈ reserved
    · have key : ∀ {e : Entries}, e.Valid reserved → ¬ Last e.ops op ns := by
        rintro e hv ⟨pre, post, h1, -⟩
        exact hv.2 (op, ns) (by rw [h1]; simp) hop
      exact ⟨fun h => absurd h (key hv), fun h => absurd h (key hv')⟩
    · rw [← h op hop, ← h' op hop, hs op hop]

theorem private_same {p p' : PrivateDef} {r r' : PrivateRecord} (hv : p.Valid) (hv' : p'.Valid) (h : p.In r) (h' : p'.In r') :
    p.Same p' ↔ SamePrivate r r' := by
  unfold PrivateDef.Same SamePrivate
  rw [entries_same hv.1 hv'.1 h.1 h'.1, h.2, h'.2]

theorem keying_same {k k' : Keying} {r r' : Record} {n n' : Nat} (hv : k.Valid n) (hv' : k'.Valid n') (h : k.In r) (h' : k'.In r') :
    k.Same k' ↔ SameRecord r r' := by
  cases k with
  | names p =>
    cases r with
    | characterIDKeyed r => exact absurd h id
    | characterNameKeyed r =>
      cases k' with
      | names p' =>
        cases r' with
        | characterIDKeyed r => exact absurd h' id
        | characterNameKeyed r' => exact private_same hv hv' h h'
      | identifiers =>
        cases r' with
        | characterIDKeyed r => exact Iff.rfl
        | characterNameKeyed r' => exact absurd h' id
  | identifiers registry ordering supplement select dicts =>
    cases r with
    | characterNameKeyed r => exact absurd h id
    | characterIDKeyed r =>
      cases k' with
      | names p' =>
        cases r' with
        | characterIDKeyed r => exact absurd h' id
        | characterNameKeyed r' => exact Iff.rfl
      | identifiers registry' ordering' supplement' select' dicts' =>
        cases r' with
        | characterNameKeyed r' => exact absurd h' id
        | characterIDKeyed r' =>
          obtain ⟨a1, a2, a3, a4, a5, a6⟩ := h
          obtain ⟨b1, b2, b3, b4, b5, b6⟩ := h'
          obtain ⟨-, -, -, -, -, hv⟩ := hv
          obtain ⟨-, -, -, -, -, hv'⟩ := hv'
          have e1 := forall₂_transfer (T := fun d d' : FontDictDef => d.entries.Same d'.entries) (U := SameDict [.opPrivate]) a5 b5
            fun d hd d' hd' o o' h h' => entries_same (hv d hd).1 (hv' d' hd').1 h h'
          have e2 := forall₂_transfer (T := fun d d' : FontDictDef => d.priv.Same d'.priv) (U := SamePrivate) a6 b6
            fun d hd d' hd' o o' h h' => private_same (hv d hd).2 (hv' d' hd').2 h h'
          have e3 : List.Forall₂ FontDictDef.Same dicts dicts' ↔
              List.Forall₂ (fun d d' : FontDictDef => d.entries.Same d'.entries) dicts dicts' ∧
                List.Forall₂ (fun d d' : FontDictDef => d.priv.Same d'.priv) dicts dicts' := by
            clear a5 a6 b5 b6 hv hv' e1 e2
            induction dicts generalizing dicts' with
            | nil => cases dicts' <;> simp
            | cons d dicts ih =>
              cases dicts' with
              | nil => simp
              | cons d' dicts' =>
                simp only [List.forall₂_cons, ih, FontDictDef.Same]
                constructor
                · rintro ⟨⟨x, y⟩, z, w⟩; exact ⟨⟨x, z⟩, y, w⟩
                · rintro ⟨⟨x, z⟩, y, w⟩; exact ⟨⟨x, y⟩, z, w⟩
          simp only [Keying.Same, SameRecord, e3, e1, e2, ← a1, ← a2, ← a3, ← a4, ← b1, ← b2, ← b3, ← b4]
          rw [← UInt16.toNat_inj, ← UInt16.toNat_inj]

/-- **C100.**  What is read of two font sets that were written has the same contents if and only if
they are made of the same things: whatever differs in one thing is read as something different. -/
theorem C100_same_iff {d d' : FontSetDef} (hv : d.Valid) (hv' : d'.Valid) (cfg cfg' : Config) (pre pre' post post' : List UInt8)
    (hsize : (pre ++ d.write ++ post).length < 2 ^ 61) (hsize' : (pre' ++ d'.write ++ post').length < 2 ^ 61)
    (hseek : pre.length + 2 ^ 31 ≤ cfg.maxSeek) (hseek' : pre'.length + 2 ^ 31 ≤ cfg'.maxSeek) {fs fs' : FontSet} {q q' : Nat}
    (h : FontSet.read (tape cfg (pre ++ d.write ++ post)) pre.length = (.ok fs, q))
    (h' : FontSet.read (tape cfg' (pre' ++ d'.write ++ post')) pre'.length = (.ok fs', q')) :
    SameContents fs fs' ↔ d.Same d' := by
  obtain ⟨_, _, g, a1, a2, a3, a4, a5, a6, a7, a8⟩ := C60_round_trip hv cfg pre post hsize hseek
  obtain ⟨rfl, rfl⟩ := Prod.mk.inj (h.symm.trans g) |>.imp (fun e => Res.ok.inj e) id
  obtain ⟨_, _, g', b1, b2, b3, b4, b5, b6, b7, b8⟩ := C60_round_trip hv' cfg' pre' post' hsize' hseek'
  obtain ⟨rfl, rfl⟩ := Prod.mk.inj (h'.symm.trans g') |>.imp (fun e => Res.ok.inj e) id
  obtain ⟨-, -, -, -, hf, -⟩ := hv
  obtain ⟨-, -, -, -, hf', -⟩ := hv'
  have e1 := forall₂_transfer (T := fun f f' : FontDef => f.entries.Same f'.entries) (U := SameDict FontDef.reserved) a4 b4
    fun f hm f' hm' o o' h h' => entries_same (hf f hm).1 (hf' f' hm').1 h h'
  have e2 := forall₂_transfer (T := fun f f' : FontDef => f.codes = f'.codes) (U := fun a b : Index => a.data = b.data) a5 b5
    fun f hm f' hm' o o' h h' => by rw [h, h']
  have e3 := forall₂_transfer (T := fun f f' : FontDef => f.keying.Same f'.keying) (U := SameRecord) a8 b8
    fun f hm f' hm' o o' h h' => keying_same (hf f hm).2.2.2.2 (hf' f' hm').2.2.2.2 h h'
  have e4 : fs.characterStrings.map Index.data = fs'.characterStrings.map Index.data ↔
      List.Forall₂ (fun a b : Index => a.data = b.data) fs.characterStrings fs'.characterStrings := by
    rw [← List.forall₂_eq_eq_eq, List.forall₂_map_left_iff, List.forall₂_map_right_iff]
  unfold SameContents FontSetDef.Same
  rw [e4, ← e1, ← e2, ← e3, a1, a2, a3, a6, a7, b1, b2, b3, b6, b7]
  refine and_congr_right fun _ => and_congr_right fun _ => and_congr_right fun _ => ?_
  generalize d.fonts = l
  generalize d'.fonts = l'
  clear * -
  induction l generalizing l' with
  | nil => cases l' <;> simp
  | cons f l ih =>
    cases l' with
    | nil => simp
    | cons f' l' =>
      simp only [List.forall₂_cons, ← ih, FontDef.Same, List.map_cons, List.cons.injEq]
      constructor
      · rintro ⟨⟨x1, y1⟩, ⟨x2, y2⟩, ⟨x3, y3⟩, ⟨x4, y4⟩, x5, y5⟩
        exact ⟨⟨x1, x2, x3, x4, x5⟩, y1, y2, y3, y4, y5⟩
      · rintro ⟨⟨x1, x2, x3, x4, x5⟩, y1, y2, y3, y4, y5⟩
        exact ⟨⟨x1, y1⟩, ⟨x2, y2⟩, ⟨x3, y3⟩, ⟨x4, y4⟩, x5, y5⟩

/-! ## Examples -/

/-- `sampleDef` with the operand of `FullName` in three bytes, and given twice. -/
def reencodedDef : FontSetDef :=
  { sampleDef with fonts := sampleDef.fonts.modifyHead fun f =>
      { f with entries := ⟨[(.opFullName, [.integer 7]), (.opFullName, [.integer 1])], [146, 2, 28, 0, 1, 2]⟩ } }

/-- `sampleDef` with another local subroutine in its first font. -/
def changedDef : FontSetDef :=
  { sampleDef with fonts := sampleDef.fonts.modifyHead fun f =>
      { f with keying := .names ⟨⟨[(.opDefaultWidthX, [.integer 2])], [141, 20]⟩, [[14]]⟩ } }

theorem reencodedDef_valid : reencodedDef.Valid := by
  obtain ⟨h1, h2, h3, -, h5, -⟩ := sampleDef_valid
  refine ⟨h1, h2, h3, by decide, ?_, by decide +kernel⟩
  simp only [reencodedDef, sampleDef, List.modifyHead, List.forall_mem_cons] at h5 ⊢
  refine ⟨⟨⟨?_, by decide⟩, h5.1.2⟩, h5.2⟩
  have e1 : Operand (.integer 7) [146] := show DictInt 7 [146] from .short (.oneByte 146 (by decide) (by decide))
  have e2 : Operand (.integer 1) [28, 0, 1] := show DictInt 1 [28, 0, 1] from .short (.word 1 (by decide) (by decide))
  exact .cons (b := [146, 2]) ⟨[146], .cons (b := [146]) e1 .nil, rfl⟩
    (.cons (b := [28, 0, 1, 2]) (bs := []) ⟨[28, 0, 1], .cons (b := [28, 0, 1]) e2 .nil, rfl⟩ .nil)

theorem changedDef_valid : changedDef.Valid := by
  obtain ⟨h1, h2, h3, -, h5, -⟩ := sampleDef_valid
  refine ⟨h1, h2, h3, by decide, ?_, by decide +kernel⟩
  simp only [changedDef, sampleDef, List.modifyHead, List.forall_mem_cons] at h5 ⊢
  exact ⟨⟨h5.1.1, h5.1.2.1, h5.1.2.2.1, h5.1.2.2.2.1, h5.1.2.2.2.2.1, by decide, by decide, by decide, by decide⟩, h5.2⟩

/-- The hypotheses of `C100_same_iff` are met, by font sets that are made of the same things and by
such that are not. -/
example : (∃ fs fs' q q', FontSet.read (tape checkedBuild ([] ++ sampleDef.write ++ [])) 0 = (.ok fs, q) ∧
      FontSet.read (tape checkedBuild ([] ++ changedDef.write ++ [])) 0 = (.ok fs', q') ∧ ¬ SameContents fs fs') ∧
    ∃ fs fs' q q', FontSet.read (tape checkedBuild ([] ++ sampleDef.write ++ [])) 0 = (.ok fs, q) ∧
      FontSet.read (tape checkedBuild ([7] ++ reencodedDef.write ++ [])) 1 = (.ok fs', q') ∧ SameContents fs fs' := by
  obtain ⟨fs, q, h, -⟩ := C60_round_trip sampleDef_valid checkedBuild [] [] (by decide +kernel) (by decide)
  obtain ⟨fs1, q1, h1, -⟩ := C60_round_trip changedDef_valid checkedBuild [] [] (by decide +kernel) (by decide)
  obtain ⟨fs2, q2, h2, -⟩ := C60_round_trip reencodedDef_valid checkedBuild [7] [] (by decide +kernel) (by decide)
  refine ⟨⟨fs, fs1, q, q1, h, h1, fun hs => ?_⟩, fs, fs2, q, q2, h, h2, ?_⟩
  · have := (C100_same_iff sampleDef_valid changedDef_valid _ _ _ _ _ _ (by decide +kernel) (by decide +kernel) (by decide) (by decide) h h1).mp hs
    simp [FontSetDef.Same, sampleDef, changedDef, FontDef.Same, Keying.Same, PrivateDef.Same] at this
  · refine (C100_same_iff sampleDef_valid reencodedDef_valid _ _ _ _ _ _ (by decide +kernel) (by decide +kernel) (by decide) (by decide) h h2).mpr ?_
    have refl : ∀ e : Entries, e.Same e := fun _ _ _ => Iff.rfl
    simp only [FontSetDef.Same, sampleDef, reencodedDef, FontDef.Same, Keying.Same, PrivateDef.Same, FontDictDef.Same, List.modifyHead,
      List.forall₂_cons, List.forall₂_nil_right_iff, refl, and_true, true_and]
    intro op ns
    constructor
    · rintro ⟨pre, post, e, hp⟩
      obtain ⟨rfl, rfl, rfl, rfl⟩ : pre = [] ∧ op = .opFullName ∧ ns = [Number.integer 1] ∧ post = [] := by
        cases pre with
        | nil => simpa [eq_comm, and_assoc] using e
        | cons => simp at e
      exact ⟨[(.opFullName, [.integer 7])], [], rfl, hp⟩
    · rintro ⟨pre, post, e, hp⟩
      match pre, e with
      | [], e =>
        obtain ⟨rfl, rfl, rfl⟩ : op = .opFullName ∧ ns = [Number.integer 7] ∧ post = [(.opFullName, [.integer 1])] := by
          simpa [eq_comm, and_assoc] using e
        simp at hp
      | [x], e =>
        obtain ⟨-, rfl, rfl, rfl⟩ : x = (.opFullName, [.integer 7]) ∧ op = .opFullName ∧ ns = [Number.integer 1] ∧ post = [] := by
          simpa [eq_comm, and_assoc] using e
        exact ⟨[], [], rfl, hp⟩
      | _ :: _ :: pre, e => simp at e

end PS
