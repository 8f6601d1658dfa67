import Verif.Props.Mixed
import Verif.Props.Edit
import Verif.Props.OutlineSet
import Verif.Props.RemaskSet
import Verif.Props.Rewrite
import Verif.Lemmas.Subset
/-!
# Properties: fonts of font sets that are written again
-/
namespace PS
open PS.Spec

namespace Keep

/-- What there is of the font `k` of `fs`, there is of the font `j` of `fs'`, apart from where things are. -/
structure Copied (fs : FontSet) (k : Nat) (fs' : FontSet) (j : Nat) : Prop where
  strings : fs'.strings.data = fs.strings.data
  subroutines : fs'.subroutines.data = fs.subroutines.data
  name : ∀ x, fs.names.data[k]? = some x → fs'.names.data[j]? = some x
  top : ∀ o, fs.operations[k]? = some o → ∃ o', fs'.operations[j]? = some o' ∧ SameDict FontDef.reserved o o'
  glyphs : ∀ cs, fs.characterStrings[k]? = some cs → ∃ cs', fs'.characterStrings[j]? = some cs' ∧ cs'.data = cs.data
  set : ∀ s, fs.characterSets[k]? = some s → fs'.characterSets[j]? = some s
  encoding : ∀ e, fs.encodings[k]? = some e → fs'.encodings[j]? = some e
  record : ∀ r, fs.records[k]? = some r → ∃ r', fs'.records[j]? = some r' ∧ SameRecord r r'

/-- The records agree, apart from where things are and from the local subroutines. -/
def Kin : Record → Record → Prop
  | .characterNameKeyed r, .characterNameKeyed r' => SameDict [.opSubrs] r.operations r'.operations
  | .characterIDKeyed r, .characterIDKeyed r' =>
    r.registry = r'.registry ∧ r.ordering = r'.ordering ∧ r.supplement = r'.supplement ∧ r.encoding = r'.encoding ∧
    List.Forall₂ (SameDict [.opPrivate]) r.operations r'.operations ∧
    List.Forall₂ (fun p p' => SameDict [.opSubrs] p.operations p'.operations) r.records r'.records
  | _, _ => False

/-- As `Copied`, but the glyphs need only show the same. -/
structure Like (fs : FontSet) (k : Nat) (fs' : FontSet) (j : Nat) : Prop where
  strings : fs'.strings.data = fs.strings.data
  name : ∀ x, fs.names.data[k]? = some x → fs'.names.data[j]? = some x
  top : ∀ o, fs.operations[k]? = some o → ∃ o', fs'.operations[j]? = some o' ∧ SameDict FontDef.reserved o o'
  glyphs : ∀ cs, fs.characterStrings[k]? = some cs → ∃ cs', fs'.characterStrings[j]? = some cs' ∧ cs'.data.length = cs.data.length
  shows : ∀ cs r, fs.characterStrings[k]? = some cs → fs.records[k]? = some r →
    ∀ cfg g l out, Shows cfg fs' j g l out ↔ Shows cfg fs k g l out
  set : ∀ s, fs.characterSets[k]? = some s → fs'.characterSets[j]? = some s
  encoding : ∀ e, fs.encodings[k]? = some e → fs'.encodings[j]? = some e
  record : ∀ r, fs.records[k]? = some r → ∃ r', fs'.records[j]? = some r' ∧ Kin r r'

theorem localFor {r r' : Record} (h : SameRecord r r') (g : Nat) (data : List (List UInt8)) :
    (∃ ix, LocalFor r' g ix ∧ ix.data = data) ↔ ∃ ix, LocalFor r g ix ∧ ix.data = data := by
  cases r with
  | characterNameKeyed r =>
    cases r' with
    | characterIDKeyed r' => exact h.elim
    | characterNameKeyed r' =>
      simp only [LocalFor, exists_eq_left]
      rw [show r.subroutines.data = r'.subroutines.data from h.2]
  | characterIDKeyed r =>
    cases r' with
    | characterNameKeyed r' => exact h.elim
    | characterIDKeyed r' =>
      obtain ⟨-, -, -, h4, -, h6⟩ := h
      constructor
      · rintro ⟨_, ⟨d, p, c1, c2, rfl⟩, rfl⟩
        obtain ⟨p', c3, c4⟩ := forall₂_getElem? (List.Forall₂.flip h6) c2
        exact ⟨_, ⟨d, p', by rw [h4]; exact c1, c3, rfl⟩, c4.2⟩
      · rintro ⟨_, ⟨d, p, c1, c2, rfl⟩, rfl⟩
        obtain ⟨p', c3, c4⟩ := forall₂_getElem? h6 c2
        exact ⟨_, ⟨d, p', by rw [← h4]; exact c1, c3, rfl⟩, c4.2.symm⟩

theorem shows {fs fs' : FontSet} {k j : Nat} (h : Copied fs k fs' j) {cs : Index} {r : Record}
    (a2 : fs.characterStrings[k]? = some cs) (a5 : fs.records[k]? = some r) (cfg : Config) (g : Nat)
    (l : List Type2.Spec.Observation) (out : Type2.Spec.Outcome) : Shows cfg fs' j g l out ↔ Shows cfg fs k g l out := by
  obtain ⟨cs', b2, hc⟩ := h.glyphs _ a2
  obtain ⟨r', b5, hr⟩ := h.record _ a5
  constructor
  · rintro ⟨x1, x2, code, loc, y1, y2, y3, y4, y5⟩
    rw [b2] at y1
    rw [b5] at y2
    injection y1 with y1
    injection y2 with y2
    subst y1 y2
    obtain ⟨loc', z1, z2⟩ := (localFor hr g _).mp ⟨loc, y4, rfl⟩
    exact ⟨cs, r, code, loc', a2, a5, by rw [← hc]; exact y3, z1, by rw [z2, ← h.subroutines]; exact y5⟩
  · rintro ⟨x1, x2, code, loc, y1, y2, y3, y4, y5⟩
    rw [a2] at y1
    rw [a5] at y2
    injection y1 with y1
    injection y2 with y2
    subst y1 y2
    obtain ⟨loc', z1, z2⟩ := (localFor hr g _).mpr ⟨loc, y4, rfl⟩
    exact ⟨cs', r', code, loc', b2, b5, by rw [hc]; exact y3, z1, by rw [z2, h.subroutines]; exact y5⟩

theorem namedBy {fs fs' : FontSet} (h : fs'.strings.data = fs.strings.data) {id : UInt16} {name : List UInt8} (hn : NamedBy fs id name) :
    NamedBy fs' id name := by
  intro text
  rw [← hn text, Index.getString, Index.getString, h]

theorem entries {e : Entries} {apart apart' : List Operator} {o o' : Operations} (h : e.In apart o) (hs : SameDict apart' o o')
    (ha : ∀ op ∈ apart', op ∈ apart) : e.In apart o' := by
  intro op hop operands
  rw [← hs op fun hm => hop (ha op hm)]
  exact h op hop operands

theorem textual_free {op : Operator} (h : op ∈ textual) : op ∉ FontDef.reserved := by
  revert op
  decide

theorem tops {fs fs' : FontSet} {k j : Nat} (h : Like fs k fs' j) {e : Entries} {texts : List (Operator × List UInt8)}
    (ht : ∀ x ∈ texts, x.1 ∈ textual)
    (hi : ∃ top, fs.operations[k]? = some top ∧ e.In (FontDef.reserved ++ texts.map Prod.fst) top ∧
      ∀ x ∈ texts, ∃ id : UInt16, top.map x.1 = some [.integer id.toNat] ∧ NamedBy fs id x.2) :
    ∃ top, fs'.operations[j]? = some top ∧ e.In (FontDef.reserved ++ texts.map Prod.fst) top ∧
      ∀ x ∈ texts, ∃ id : UInt16, top.map x.1 = some [.integer id.toNat] ∧ NamedBy fs' id x.2 := by
  obtain ⟨top, h1, h2, h3⟩ := hi
  obtain ⟨top', h4, h5⟩ := h.top _ h1
  refine ⟨top', h4, entries h2 h5 (by simp +contextual), fun x hx => ?_⟩
  obtain ⟨id, h6, h7⟩ := h3 x hx
  exact ⟨id, by rw [← h5 _ (textual_free (ht x hx)), h6], namedBy h.strings h7⟩

theorem through {α β γ : Type} {R : α → β → Prop} {S : β → γ → Prop} {T : α → γ → Prop} (hT : ∀ a b c, R a b → S b c → T a c) :
    ∀ {as : List α} {bs : List β} {cs : List γ}, List.Forall₂ R as bs → List.Forall₂ S bs cs → List.Forall₂ T as cs
  | _, _, _, .nil, .nil => .nil
  | _, _, _, .cons h1 h2, .cons h3 h4 => .cons (hT _ _ _ h1 h3) (through hT h2 h4)

theorem likes {fs fs' : FontSet} {k j : Nat} (h : Like fs k fs' j) {f : AnyFace} (hv : f.Valid) (hf : f.In k fs) : f.In j fs' := by
  cases f with
  | named f =>
    obtain ⟨a1, a2, ⟨r, a3, a3'⟩, ⟨cs, a4, a4'⟩, a5, a6, s, a7, a8, a9⟩ := hf
    obtain ⟨r', b3, hr⟩ := h.record _ a3
    obtain ⟨cs', b4, hc⟩ := h.glyphs _ a4
    cases r' with
    | characterIDKeyed r' => exact hr.elim
    | characterNameKeyed r' =>
      refine ⟨h.name _ a1, tops h hv.2.2.2.2.2.1 a2, ⟨r', b3, entries a3' hr (by simp)⟩, ⟨cs', b4, by rw [hc, a4']⟩, ?_,
        h.encoding _ a6, s, h.set _ a7, a8, ?_⟩
      · intro cfg i d hd l out
        rw [h.shows _ _ a4 a3]
        exact a5 cfg i d hd l out
      · intro i name d hd
        obtain ⟨id, c1, c2⟩ := a9 i name d hd
        exact ⟨id, c1, namedBy h.strings c2⟩
  | keyed f =>
    obtain ⟨a1, a2, ⟨cs, a4, a4'⟩, a5, ⟨s, a7, a8, a9⟩, a6, r, a3, a10, a11, a12, a13, a14, a15⟩ := hf
    obtain ⟨r', b3, hr⟩ := h.record _ a3
    obtain ⟨cs', b4, hc⟩ := h.glyphs _ a4
    cases r' with
    | characterNameKeyed r' => exact hr.elim
    | characterIDKeyed r' =>
      obtain ⟨r1, r2, r3, r4, r5, r6⟩ := hr
      refine ⟨h.name _ a1, tops h hv.2.2.2.2.2.2.2.2.1 a2, ⟨cs', b4, by rw [hc, a4']⟩, ?_, ⟨s, h.set _ a7, a8, a9⟩, h.encoding _ a6,
        r', b3, r1 ▸ namedBy h.strings a10, r2 ▸ namedBy h.strings a11, r3 ▸ a12, ?_, ?_, r4 ▸ a15⟩
      · intro cfg i d hd l out
        rw [h.shows _ _ a4 a3]
        exact a5 cfg i d hd l out
      · refine through ?_ a13 r5
        intro d o o' x y
        exact entries x y (by simp)
      · refine through ?_ a14 r6
        intro d o o' x y
        exact entries x y (by simp)

theorem kin {r r' : Record} (h : SameRecord r r') : Kin r r' := by
  cases r with
  | characterNameKeyed r =>
    cases r' with
    | characterIDKeyed r' => exact h.elim
    | characterNameKeyed r' => exact h.1
  | characterIDKeyed r =>
    cases r' with
    | characterNameKeyed r' => exact h.elim
    | characterIDKeyed r' =>
      obtain ⟨h1, h2, h3, h4, h5, h6⟩ := h
      exact ⟨h1, h2, h3, h4, h5, h6.imp fun _ _ h => h.1⟩

theorem keeps {fs fs' : FontSet} {k j : Nat} (h : Copied fs k fs' j) {f : AnyFace} (hv : f.Valid) (hf : f.In k fs) : f.In j fs' := by
  refine likes ⟨h.strings, h.name, h.top, fun cs hcs => ?_, fun cs r h1 h2 => shows h h1 h2, h.set, h.encoding, fun r hr => ?_⟩ hv hf
  · obtain ⟨cs', h1, h2⟩ := h.glyphs cs hcs
    exact ⟨cs', h1, by rw [h2]⟩
  · obtain ⟨r', h1, h2⟩ := h.record r hr
    exact ⟨r', h1, kin h2⟩

theorem dict_symm {apart : List Operator} {o o' : Operations} (h : SameDict apart o o') : SameDict apart o' o :=
  fun op hop => (h op hop).symm

theorem private_symm {r r' : PrivateRecord} (h : SamePrivate r r') : SamePrivate r' r := ⟨dict_symm h.1, h.2.symm⟩

theorem record_symm {r r' : Record} (h : SameRecord r r') : SameRecord r' r := by
  cases r with
  | characterNameKeyed r =>
    cases r' with
    | characterIDKeyed r' => exact h.elim
    | characterNameKeyed r' => exact private_symm h
  | characterIDKeyed r =>
    cases r' with
    | characterNameKeyed r' => exact h.elim
    | characterIDKeyed r' =>
      obtain ⟨h1, h2, h3, h4, h5, h6⟩ := h
      exact ⟨h1.symm, h2.symm, h3.symm, h4.symm, (h5.imp fun _ _ => dict_symm).flip, (h6.imp fun _ _ => private_symm).flip⟩

theorem kin_symm {r r' : Record} (h : Kin r r') : Kin r' r := by
  cases r with
  | characterNameKeyed r =>
    cases r' with
    | characterIDKeyed r' => exact h.elim
    | characterNameKeyed r' => exact dict_symm h
  | characterIDKeyed r =>
    cases r' with
    | characterNameKeyed r' => exact h.elim
    | characterIDKeyed r' =>
      obtain ⟨h1, h2, h3, h4, h5, h6⟩ := h
      exact ⟨h1.symm, h2.symm, h3.symm, h4.symm, (h5.imp fun _ _ => dict_symm).flip, (h6.imp fun _ _ => dict_symm).flip⟩

theorem kin_new {L : Nat → List (List UInt8)} {r r' : Record} (h : NewRecord L r r') : Kin r r' := by
  cases r with
  | characterNameKeyed r =>
    cases r' with
    | characterIDKeyed r' => exact h.elim
    | characterNameKeyed r' => exact h.1
  | characterIDKeyed r =>
    cases r' with
    | characterNameKeyed r' => exact h.elim
    | characterIDKeyed r' =>
      obtain ⟨h1, h2, h3, h4, h5, h6, h7⟩ := h
      refine ⟨h1, h2, h3, h4, h5, List.forall₂_iff_get.mpr ⟨h6, fun i hi hi' => ?_⟩⟩
      exact (h7 i _ _ (List.getElem?_eq_getElem hi) (List.getElem?_eq_getElem hi')).1

theorem at_same {α β : Type} {l : List α} {l' : List β} (h : l'.length = l.length) {k : Nat} {a : α} (ha : l[k]? = some a) :
    ∃ b, l'[k]? = some b := by
  obtain ⟨hk, -⟩ := List.getElem?_eq_some_iff.mp ha
  exact ⟨_, List.getElem?_eq_getElem (h ▸ hk)⟩

theorem like_recoded {G : List (List UInt8)} {L : Nat → Nat → List (List UInt8)} {C : Nat → List (List UInt8)} {fs fs' : FontSet}
    (hfit : CodeFits G L C fs) (h : Recoded G L C fs fs') (hs : ∀ cfg k g l out, Shows cfg fs' k g l out ↔ Shows cfg fs k g l out) (k : Nat) :
    Like fs k fs' k ∧ Like fs' k fs k := by
  obtain ⟨h1, h2, -, h4, h5, h6, h7, h8, h9, h10⟩ := h
  constructor
  · refine ⟨h2, fun x hx => h1 ▸ hx, fun o ho => forall₂_getElem? h4 ho, fun cs hcs => ?_, fun _ _ _ _ cfg g l out => hs cfg k g l out,
      fun s e => h7 ▸ e, fun e he => h8 ▸ he, fun r hr => ?_⟩
    · obtain ⟨cs', hcs'⟩ := at_same h5 hcs
      exact ⟨cs', hcs', by rw [h6 k cs' hcs', hfit.1 k cs hcs]⟩
    · obtain ⟨r', hr'⟩ := at_same h9.symm hr
      exact ⟨r', hr', kin_new (h10 k r r' hr hr')⟩
  · refine ⟨h2.symm, fun x hx => h1 ▸ hx, fun o ho => ?_, fun cs hcs => ?_, fun _ _ _ _ cfg g l out => (hs cfg k g l out).symm,
      fun s e => h7 ▸ e, fun e he => h8 ▸ he, fun r hr => ?_⟩
    · obtain ⟨o', a, b⟩ := forall₂_getElem? h4.flip ho
      exact ⟨o', a, dict_symm b⟩
    · obtain ⟨cs', hcs'⟩ := at_same h5.symm hcs
      exact ⟨cs', hcs', by rw [h6 k cs hcs, hfit.1 k cs' hcs']⟩
    · obtain ⟨r', hr'⟩ := at_same h9 hr
      exact ⟨r', hr', kin_symm (kin_new (h10 k r' r hr' hr))⟩

theorem contents_symm {fs fs' : FontSet} (h : SameContents fs fs') : SameContents fs' fs := by
  obtain ⟨h1, h2, h3, h4, h5, h6, h7, h8⟩ := h
  exact ⟨h1.symm, h2.symm, h3.symm, (h4.imp fun _ _ => dict_symm).flip, h5.symm, h6.symm, h7.symm, (h8.imp fun _ _ => record_symm).flip⟩

theorem map_some {l l' : List Index} {k j : Nat} (h : (l'.map Index.data)[j]? = (l.map Index.data)[k]?) {cs : Index} (hk : l[k]? = some cs) :
    ∃ cs', l'[j]? = some cs' ∧ cs'.data = cs.data := by
  rw [List.getElem?_map, List.getElem?_map, hk, Option.map_some, Option.map_eq_some_iff] at h
  exact h

theorem copied_same {fs fs' : FontSet} (h : SameContents fs fs') (k : Nat) : Copied fs k fs' k := by
  obtain ⟨h1, h2, h3, h4, h5, h6, h7, h8⟩ := h
  exact ⟨h2.symm, h3.symm, fun x hx => h1 ▸ hx, fun o ho => forall₂_getElem? h4 ho, fun cs hcs => map_some (by rw [h5]) hcs,
    fun s hs => h6 ▸ hs, fun e he => h7 ▸ he, fun r hr => forall₂_getElem? h8 hr⟩

/-- There are all parts of the fonts at the positions `ks`. -/
def Has (ks : List Nat) (fs : FontSet) : Prop :=
  ∀ k ∈ ks, k < fs.names.data.length ∧ k < fs.operations.length ∧ k < fs.characterStrings.length ∧ k < fs.characterSets.length ∧
    k < fs.encodings.length ∧ k < fs.records.length

theorem picked {α : Type} {ks : List Nat} {l : List α} (h : ∀ k ∈ ks, k < l.length) {j k : Nat} (hj : ks[j]? = some k) :
    (pick ks l)[j]? = l[k]? := by
  rw [pick_getElem? h, hj, Option.bind_some]

theorem copied_picked {ks : List Nat} {fs fs' : FontSet} (h : Selected ks fs fs') (hk : Has ks fs) {j k : Nat} (hj : ks[j]? = some k) :
    Copied fs k fs' j ∧ Copied fs' j fs k := by
  obtain ⟨h1, h2, h3, h4, h5, h6, h7, h8⟩ := h
  have e1 := picked (fun k m => (hk k m).1) hj
  have e2 := picked (fun k m => (hk k m).2.1) hj
  have e3 := picked (l := fs.characterStrings.map Index.data) (fun k m => by rw [List.length_map]; exact (hk k m).2.2.1) hj
  have e4 := picked (fun k m => (hk k m).2.2.2.1) hj
  have e5 := picked (fun k m => (hk k m).2.2.2.2.1) hj
  have e6 := picked (fun k m => (hk k m).2.2.2.2.2) hj
  rw [← h1] at e1
  rw [← h5] at e3
  rw [← h6] at e4
  rw [← h7] at e5
  constructor
  · exact ⟨h2, h3, fun x hx => e1 ▸ hx, fun o ho => forall₂_getElem? h4 (e2 ▸ ho), fun cs hcs => map_some e3 hcs,
      fun s hs => e4 ▸ hs, fun e he => e5 ▸ he, fun r hr => forall₂_getElem? h8 (e6 ▸ hr)⟩
  · refine ⟨h2.symm, h3.symm, fun x hx => e1 ▸ hx, fun o ho => ?_, fun cs hcs => map_some e3.symm hcs,
      fun s hs => e4 ▸ hs, fun e he => e5 ▸ he, fun r hr => ?_⟩
    · obtain ⟨o', a, b⟩ := forall₂_getElem? h4.flip ho
      exact ⟨o', e2 ▸ a, dict_symm b⟩
    · obtain ⟨r', a, b⟩ := forall₂_getElem? h8.flip hr
      exact ⟨r', e6 ▸ a, record_symm b⟩

end Keep

/-! ## C106 -/

/-- **C106.**  Font sets with the same contents have the same fonts. -/
theorem C106_contents {fs fs' : FontSet} (h : SameContents fs fs') {f : AnyFace} (hv : f.Valid) (k : Nat) : f.In k fs ↔ f.In k fs' :=
  ⟨Keep.keeps (Keep.copied_same h k) hv, Keep.keeps (Keep.copied_same (Keep.contents_symm h) k) hv⟩

/-- **C106.**  A font set that was read from any file, in any layout, and is not too big, can be written in one piece, with
the same fonts. -/
theorem C106_rewrite (cfg : Config) (data : List UInt8) (hdata : data.length < 2 ^ 61) (base q : Nat) (fs : FontSet)
    (h : FontSet.read (tape cfg data) base = (.ok fs, q))
    (hsize : 100 * (data.length + 1) * (1 + fs.operations.length + FontSet.privates fs) < 2 ^ 31) :
    ∃ bytes : List UInt8, bytes.length < 2 ^ 31 ∧
      ∀ (cfg' : Config) (pre post : List UInt8), (pre ++ bytes ++ post).length < 2 ^ 61 → pre.length + 2 ^ 31 ≤ cfg'.maxSeek →
        ∃ fs' q', FontSet.read (tape cfg' (pre ++ bytes ++ post)) pre.length = (.ok fs', q') ∧
          fs'.records.length = fs.records.length ∧ ∀ (k : Nat) (f : AnyFace), f.Valid → (f.In k fs' ↔ f.In k fs) := by
  obtain ⟨bytes, h1, h2⟩ := C62_rewrite cfg data hdata base q fs h hsize
  refine ⟨bytes, h1, fun cfg' pre post h3 h4 => ?_⟩
  obtain ⟨fs', q', h5, h6⟩ := h2 cfg' pre post h3 h4
  exact ⟨fs', q', h5, h6.2.2.2.2.2.2.2.length_eq.symm, fun k f hv => (C106_contents h6 hv k).symm⟩

/-- **C106.**  Some fonts of a font set can be taken out, in any order, and they are the same fonts then. -/
theorem C106_select (cfg : Config) (data : List UInt8) (hdata : data.length < 2 ^ 61) (base q : Nat) (fs : FontSet)
    (h : FontSet.read (tape cfg data) base = (.ok fs, q))
    (hsize : 100 * (data.length + 1) * (1 + fs.operations.length + FontSet.privates fs) < 2 ^ 31)
    (hnames : fs.names.data.length = fs.records.length)
    (ks : List Nat) (h1 : ks.Nodup) (h2 : ∀ k ∈ ks, k < fs.records.length) :
    ∃ bytes : List UInt8, bytes.length < 2 ^ 31 ∧
      ∀ (cfg' : Config) (pre post : List UInt8), (pre ++ bytes ++ post).length < 2 ^ 61 → pre.length + 2 ^ 31 ≤ cfg'.maxSeek →
        ∃ fs' q', FontSet.read (tape cfg' (pre ++ bytes ++ post)) pre.length = (.ok fs', q') ∧
          fs'.records.length = ks.length ∧
          ∀ (j k : Nat), ks[j]? = some k → ∀ f : AnyFace, f.Valid → (f.In j fs' ↔ f.In k fs) := by
  obtain ⟨-, -, l1, l2, l3, l4, -⟩ := (C32_layout_iff cfg data hdata base fs).mp ⟨q, h⟩
  obtain ⟨bytes, h3, h4⟩ := C79_select cfg data hdata base q fs h hsize (by omega) ks h1 fun k hk => by have := h2 k hk; omega
  refine ⟨bytes, h3, fun cfg' pre post h5 h6 => ?_⟩
  obtain ⟨fs', q', h7, h8⟩ := h4 cfg' pre post h5 h6
  have hk : Keep.Has ks fs := fun k hk => by
    have := h2 k hk
    refine ⟨?_, ?_, ?_, ?_, ?_, ?_⟩ <;> omega
  refine ⟨fs', q', h7, by rw [← h8.2.2.2.2.2.2.2.length_eq, pick_length h2], fun j k hj f hv => ?_⟩
  obtain ⟨c1, c2⟩ := Keep.copied_picked h8 hk hj
  exact ⟨Keep.keeps c2 hv, Keep.keeps c1 hv⟩

/-- **C106.**  Other code, with other subroutines, leaves fonts what they are, if the glyphs show the same with it: so it is with
the code of `C97_fonts`, which has fragments in subroutines, and of `C98_fonts`, with other masks and other encodings of operands. -/
theorem C106_recoded {G : List (List UInt8)} {L : Nat → Nat → List (List UInt8)} {C : Nat → List (List UInt8)} {fs fs' : FontSet}
    (hfit : CodeFits G L C fs) (h : Recoded G L C fs fs') (hs : ∀ cfg k g l out, Shows cfg fs' k g l out ↔ Shows cfg fs k g l out)
    {f : AnyFace} (hv : f.Valid) (k : Nat) : f.In k fs' ↔ f.In k fs :=
  ⟨Keep.likes (Keep.like_recoded hfit h hs k).2 hv, Keep.likes (Keep.like_recoded hfit h hs k).1 hv⟩

/-- **C106.**  A font set of which fragments of the code are put into subroutines can be written, and has the same fonts then.
The hypotheses are those of `C97_fonts`; `nested_outlined` shows that they are met. -/
theorem C106_outlined (cfg : Config) (data : List UInt8) (hdata : data.length < 2 ^ 61) (base q : Nat) (fs : FontSet)
    (h : FontSet.read (tape cfg data) base = (.ok fs, q)) (G : List (List UInt8)) (L : Nat → Nat → List (List UInt8))
    (C : Nat → List (List UInt8)) (hfit : CodeFits G L C fs)
    (hsize : 100 * (data.length + 1) * (1 + fs.operations.length + FontSet.privates fs) + codeBulk G L C fs < 2 ^ 31)
    (hc : ∀ checks, OutlinedCode checks G L C fs) :
    ∃ bytes : List UInt8, bytes.length < 2 ^ 31 ∧
      ∀ (cfg' : Config) (pre post : List UInt8), (pre ++ bytes ++ post).length < 2 ^ 61 → pre.length + 2 ^ 31 ≤ cfg'.maxSeek →
        ∃ fs' q', FontSet.read (tape cfg' (pre ++ bytes ++ post)) pre.length = (.ok fs', q') ∧ fs'.subroutines.data = G ∧
          fs'.records.length = fs.records.length ∧ ∀ (k : Nat) (f : AnyFace), f.Valid → (f.In k fs' ↔ f.In k fs) := by
  obtain ⟨bytes, h1, h2⟩ := C97_fonts cfg data hdata base q fs h G L C hfit hsize hc
  refine ⟨bytes, h1, fun cfg' pre post h3 h4 => ?_⟩
  obtain ⟨fs', q', h5, h6, h7⟩ := h2 cfg' pre post h3 h4
  exact ⟨fs', q', h5, h6.2.2.1, h6.2.2.2.2.2.2.2.2.1.symm, fun k f hv => C106_recoded hfit h6 h7 hv k⟩

/-- **C106.**  A font set with other contents of masks and other encodings of operands in the code can be written, and has the same
fonts then.  The hypotheses are those of `C98_fonts`, beside which there is a case that meets them. -/
theorem C106_remasked (cfg : Config) (data : List UInt8) (hdata : data.length < 2 ^ 61) (base q : Nat) (fs : FontSet)
    (h : FontSet.read (tape cfg data) base = (.ok fs, q)) (G : List (List UInt8)) (L : Nat → Nat → List (List UInt8))
    (C : Nat → List (List UInt8)) (hfit : CodeFits G L C fs)
    (hsize : 100 * (data.length + 1) * (1 + fs.operations.length + FontSet.privates fs) + codeBulk G L C fs < 2 ^ 31)
    (hc : ∀ checks, RemaskedCode checks G L C fs) :
    ∃ bytes : List UInt8, bytes.length < 2 ^ 31 ∧
      ∀ (cfg' : Config) (pre post : List UInt8), (pre ++ bytes ++ post).length < 2 ^ 61 → pre.length + 2 ^ 31 ≤ cfg'.maxSeek →
        ∃ fs' q', FontSet.read (tape cfg' (pre ++ bytes ++ post)) pre.length = (.ok fs', q') ∧ fs'.subroutines.data = G ∧
          fs'.records.length = fs.records.length ∧ ∀ (k : Nat) (f : AnyFace), f.Valid → (f.In k fs' ↔ f.In k fs) := by
  obtain ⟨bytes, h1, h2⟩ := C98_fonts cfg data hdata base q fs h G L C hfit hsize hc
  refine ⟨bytes, h1, fun cfg' pre post h3 h4 => ?_⟩
  obtain ⟨fs', q', h5, h6, h7⟩ := h2 cfg' pre post h3 h4
  exact ⟨fs', q', h5, h6.2.2.1, h6.2.2.2.2.2.2.2.2.1.symm, fun k f hv => C106_recoded hfit h6 h7 hv k⟩

/-! ## A font set with two fonts -/

/-- The font set of `sampleDef` meets the hypotheses of `C106_rewrite` and `C106_select`, and a font is in it. -/
example : ∃ fs q, FontSet.read (tape checkedBuild sampleDef.write) 0 = (.ok fs, q) ∧
    100 * (sampleDef.write.length + 1) * (1 + fs.operations.length + FontSet.privates fs) < 2 ^ 31 ∧
    fs.names.data.length = fs.records.length ∧ ([1, 0] : List Nat).Nodup ∧ (∀ k ∈ [1, 0], k < fs.records.length) ∧
    ∃ f : AnyFace, f.Valid ∧ f.In 0 fs := by
  obtain ⟨fs, q, h, hin⟩ := C60_round_trip sampleDef_valid checkedBuild [] [] (by decide +kernel) (by decide)
  rw [List.nil_append, List.append_nil] at h
  have h1 : fs.records.length = 2 := hin.2.2.2.2.2.2.2.length_eq.symm
  have h2 : fs.names.data.length = 2 := by rw [hin.1]; rfl
  refine ⟨fs, q, h, by simpa only [Nat.add_zero] using sampleDef_size hin 0 (by omega), by omega, by simp, by simp [h1], ?_⟩
  have hd : sampleDef.write.length < 2 ^ 61 := by decide +kernel
  obtain ⟨cs, a1, a2⟩ := forall₂_getElem? hin.2.2.2.2.1 (k := 0) rfl
  obtain ⟨r, a3, a4⟩ := forall₂_getElem? hin.2.2.2.2.2.2.2 (k := 0) rfl
  cases r with
  | characterIDKeyed r => exact a4.elim
  | characterNameKeyed r =>
    have comes : ∀ (i : Nat) (g : Type2.Spec.Glyph) bs, cs.data[i]? = some bs → g.Valid → g.Bytes bs →
        ∀ cfg, Comes cfg fs 0 i (Type2.Spec.seen g.width 0 g.items) (.ended g.width) := by
      intro i g bs hi hg hb cfg l out
      obtain ⟨s1, s2, s3⟩ := program_sound checkedBuild _ hd 0 fs ((C32_layout_iff _ _ hd _ fs).mp ⟨q, h⟩) 0 cs _ a1 a3 bs
        (List.mem_of_getElem? hi) r.subroutines rfl
      have := Type2.C55_glyph (cfg := cfg) hg hb [] (by rwa [List.append_nil]) s2 s3 l out
      rw [List.append_nil] at this
      rw [← this]
      constructor
      · rintro ⟨x1, x2, code, loc, y1, y2, y3, y4, y5⟩
        rw [a1] at y1
        rw [a3] at y2
        injection y1 with y1
        injection y2 with y2
        subst y1 y2
        rw [hi] at y3
        injection y3 with y3
        subst y3
        rwa [show loc = r.subroutines from y4] at y5
      · exact fun y => ⟨cs, _, bs, r.subroutines, a1, a3, hi, rfl, y⟩
    have hl : cs.data.length = 2 := by rw [a2]; rfl
    obtain ⟨f, f1, f2⟩ := C103_made checkedBuild _ hd 0 q fs h 0 (name := [65]) (s := .format0 0 [34]) (by rw [hin.1]; rfl) a1
      (by rw [hin.2.2.2.2.2.1]; rfl) a3 (by rw [a2]; decide) (by
        intro g hg
        rw [hl] at hg
        match g, hg with
        | 0, _ => exact ⟨0, _, rfl, rfl⟩
        | 1, _ => exact ⟨34, _, rfl, rfl⟩) (by
        intro g hg
        rw [hl] at hg
        match g, hg with
        | 0, _ => exact ⟨_, _, comes 0 ⟨none, []⟩ [14] (by rw [a2]; rfl) ⟨trivial, by simp⟩ (.nil (bs := []) .nil)⟩
        | 1, _ => exact ⟨_, _, comes 1 Type2.sampleGlyph _ (by rw [a2]; rfl) Type2.sampleGlyph_valid Type2.sampleGlyph_bytes⟩)
    exact ⟨.named f, f1, f2⟩

/-- Two font sets that are not equal meet the hypothesis of `C106_contents`, and fonts of both kinds are in them. -/
example : ∃ fs fs' : FontSet, fs ≠ fs' ∧ SameContents fs fs' ∧ (AnyFace.keyed sampleCollection).Valid ∧
    (AnyFace.keyed sampleCollection).In 0 fs ∧ (AnyFace.named sampleFaces[0]).In 1 fs := by
  obtain ⟨bytes, h1, h2⟩ := C105_make sampleMixed_fits
  obtain ⟨fs, q, h3, h4, h5⟩ := h2 checkedBuild [] [] (by simp; omega) (by decide)
  have hr : ∀ r : Record, SameRecord r r := by
    intro r
    cases r with
    | characterNameKeyed r => exact ⟨fun _ _ => rfl, rfl⟩
    | characterIDKeyed r =>
      exact ⟨rfl, rfl, rfl, rfl, List.forall₂_same.mpr fun _ _ _ _ => rfl, List.forall₂_same.mpr fun _ _ => ⟨fun _ _ => rfl, rfl⟩⟩
  refine ⟨fs, { fs with header := { fs.header with major := fs.header.major + 1 } }, ?_, ⟨rfl, rfl, rfl,
    List.forall₂_same.mpr fun _ _ _ _ => rfl, rfl, rfl, rfl, List.forall₂_same.mpr fun r _ => hr r⟩, sampleMixed_fits.2.1 _ (by simp [sampleMixed]),
    h5 0 _ rfl, h5 1 _ rfl⟩
  intro e
  have e := congrArg (fun x => x.header.major) e
  simp at e

/-- The hypotheses of `C106_recoded` are met: the whole glyph of `nestedDef` is put into a subroutine. -/
example : ∃ fs fs', CodeFits [] (fun _ _ => lengthened) (fun _ => [[34, 10]]) fs ∧
    Recoded [] (fun _ _ => lengthened) (fun _ => [[34, 10]]) fs fs' ∧
    ∀ cfg k g l out, Shows cfg fs' k g l out ↔ Shows cfg fs k g l out := by
  obtain ⟨fs, q, h1, h2, h3, h4⟩ := nested_outlined
  obtain ⟨bytes, h5, h6⟩ := C97_fonts checkedBuild _ (by decide +kernel) 0 q fs h1 _ _ _ h2 h3 h4
  obtain ⟨fs', q', -, h7, h8⟩ := h6 checkedBuild [] [] (by simp; omega) (by decide)
  exact ⟨fs, fs', h2, h7, h8⟩

end PS
