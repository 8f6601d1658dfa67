import Verif.Lemmas.Thin
import Verif.Spec.Recode
/-!
# Font sets of which the code was replaced
-/
namespace PS.Recoding
open Spec

theorem index_bulk (items : List (List UInt8)) : (encodeIndex 4 items).length ≤ indexBulk items := by
  rw [encodeIndex_length, indexBulk, List.length_flatten]
  split <;> omega

/-- A private dictionary with other subroutines. -/
def privateDef (items : List (List UInt8)) (p : PrivateDef) : PrivateDef := { p with locals := items }

/-- A record with other subroutines. -/
def keying (L : Nat → List (List UInt8)) : Keying → Keying
  | .names p => .names (privateDef (L 0) p)
  | .identifiers r o s e ds => .identifiers r o s e (ds.mapIdx fun d x => { x with priv := privateDef (L d) x.priv })

/-- How many private dictionaries a record has. -/
def count : Keying → Nat
  | .names _ => 1
  | .identifiers _ _ _ _ ds => ds.length

/-- A font with other code. -/
def font (L : Nat → List (List UInt8)) (C : List (List UInt8)) (f : FontDef) : FontDef :=
  { f with keying := keying L f.keying, codes := C }

/-- A font set with other code. -/
def fontSet (G : List (List UInt8)) (L : Nat → Nat → List (List UInt8)) (C : Nat → List (List UInt8)) (d : FontSetDef) : FontSetDef :=
  { d with globals := G, fonts := d.fonts.mapIdx fun k f => font (L k) (C k) f }

theorem mapIdx_sum_bound {α : Type} {g : α → Nat} (F : Nat → α → α) (a : Nat → α → Nat) (h : ∀ i x, g (F i x) ≤ g x + a i x) (l : List α) :
    ((l.mapIdx F).map g).sum ≤ (l.map g).sum + (l.mapIdx a).sum := by
  induction l generalizing F a with
  | nil => simp
  | cons x l ih =>
    have := ih (fun i => F (i + 1)) (fun i => a (i + 1)) fun i => h (i + 1)
    rw [List.mapIdx_cons, List.map_cons, List.map_cons, List.sum_cons, List.sum_cons, List.mapIdx_cons, List.sum_cons]
    have := h 0 x
    omega

theorem private_length (items : List (List UInt8)) (p : PrivateDef) :
    (privateDef items p).blob.length ≤ p.blob.length + indexBulk items := by
  unfold PrivateDef.blob
  rw [List.length_append, List.length_append]
  have := index_bulk items
  show p.dict.length + (encodeIndex 4 items).length ≤ _
  omega

theorem mapIdx_range {α : Type} (l : List α) (F : Nat → Nat) : (l.mapIdx fun i _ => F i) = (List.range l.length).map F := by
  apply List.ext_getElem
  · simp
  · intro i h1 h2; simp

theorem keying_length (L : Nat → List (List UInt8)) (k : Keying) (o o' : Nat) :
    ((keying L k).blob o).length ≤ (k.blob o').length + ((List.range (count k)).map fun d => indexBulk (L d)).sum := by
  cases k with
  | names p =>
    have := private_length (L 0) p
    simp only [count, List.range_one, List.map_cons, List.map_nil, List.sum_cons, List.sum_nil, Nat.add_zero]
    exact this
  | identifiers r ord s e ds =>
    set ds' := ds.mapIdx fun d x => { x with priv := privateDef (L d) x.priv } with hds
    show ((Keying.identifiers r ord s e ds').blob o).length ≤ _
    simp only [Keying.blob, List.length_append]
    rw [array_length ds' _ 0]
    have a2 := array_length ds (o' + (encodeSelect e).length + (Keying.array ds 0).length) 0
    have a3 : (Keying.array ds' 0).length = (Keying.array ds 0).length := by
      unfold Keying.array
      refine encodeIndex_sizes ?_
      have key : ∀ (start start' : Nat) (ds : List FontDictDef) (L : Nat → List (List UInt8)),
          ((place (fun d : FontDictDef => d.priv.blob.length) start
            (ds.mapIdx fun d x => { x with priv := privateDef (L d) x.priv })).map fun x => x.1.dict x.2).map List.length =
          ((place (fun d : FontDictDef => d.priv.blob.length) start' ds).map fun x => x.1.dict x.2).map List.length := by
        intro start start' ds
        induction ds generalizing start start' with
        | nil => intro L; rfl
        | cons x ds ih =>
          intro L
          simp only [List.mapIdx_cons, place, List.map_cons]
          rw [ih _ (start' + x.priv.blob.length) fun d => L (d + 1)]
          congr 1
          simp only [FontDictDef.dict, List.length_append, encodeOps_length]
          simp [long_length]
      exact key 0 0 ds L
    have a4 : ((ds'.map fun d => d.priv.blob).flatten).length ≤ ((ds.map fun d => d.priv.blob).flatten).length +
        (ds.mapIdx fun d _ => indexBulk (L d)).sum := by
      rw [List.length_flatten, List.length_flatten, List.map_map, List.map_map]
      exact mapIdx_sum_bound (g := fun d : FontDictDef => d.priv.blob.length) _ _ (fun d x => private_length (L d) x.priv) ds
    rw [mapIdx_range] at a4
    simp only [count]
    omega

theorem font_blob (L : Nat → List (List UInt8)) (C : List (List UInt8)) (f : FontDef) : ((font L C f).blob 0).length ≤
    (f.blob 0).length + (indexBulk C + ((List.range (count f.keying)).map fun d => indexBulk (L d)).sum) := by
  unfold FontDef.blob
  simp only [List.length_append]
  have := keying_length L f.keying ((font L C f).recordAt 0) (f.recordAt 0)
  have e : (font L C f).keying = keying L f.keying ∧ (font L C f).set = f.set ∧ (font L C f).encoding = f.encoding ∧
    (font L C f).codes = C := ⟨rfl, rfl, rfl, rfl⟩
  rw [e.1, e.2.1, e.2.2.1, e.2.2.2]
  have := index_bulk C
  omega

theorem font_dict (L : Nat → List (List UInt8)) (C : List (List UInt8)) (f : FontDef) : ((font L C f).dict 0).length = (f.dict 0).length := by
  unfold FontDef.dict FontDef.ops
  rw [List.length_append, List.length_append, encodeOps_length, encodeOps_length]
  have : (font L C f).keying = keying L f.keying ∧ (font L C f).entries = f.entries := ⟨rfl, rfl⟩
  rw [this.1, this.2]
  cases f.keying <;> simp [Keying.ops, keying, long_length]

/-- A bound for the size of new code. -/
def bulk (G : List (List UInt8)) (L : Nat → Nat → List (List UInt8)) (C : Nat → List (List UInt8)) (d : FontSetDef) : Nat :=
  indexBulk G + (d.fonts.mapIdx fun k f => indexBulk (C k) + ((List.range (count f.keying)).map fun d => indexBulk (L k d)).sum).sum

theorem write_bound (G : List (List UInt8)) (L : Nat → Nat → List (List UInt8)) (C : Nat → List (List UInt8)) (d : FontSetDef) :
    (fontSet G L C d).write.length ≤ d.write.length + bulk G L C d := by
  rw [write_length, write_length]
  have q1 : (fontSet G L C d).strings = d.strings ∧ (fontSet G L C d).globals = G ∧ (fontSet G L C d).names = d.names ∧
    (fontSet G L C d).fonts = d.fonts.mapIdx fun k f => font (L k) (C k) f := ⟨rfl, rfl, rfl, rfl⟩
  rw [q1.1, q1.2.1, q1.2.2.1, q1.2.2.2, List.length_mapIdx]
  have h1 := mapIdx_sum_bound (g := fun f => (f.blob 0).length) (fun k (f : FontDef) => font (L k) (C k) f) _
    (fun k f => font_blob (L k) (C k) f) d.fonts
  have h2 := mapIdx_sum_le (g := fun f => (f.dict 0).length) (fun k (f : FontDef) => font (L k) (C k) f) (fun k f => (font_dict (L k) (C k) f).le) d.fonts
  have h3 := index_bulk G
  unfold bulk
  split <;> omega

theorem fits {items : List (List UInt8)} (h1 : items.length ≤ 65535) (h2 : indexBulk items ≤ 2 ^ 31) : IndexFits 4 items :=
  ⟨h1, by omega, by omega, by unfold indexBulk at h2; norm_num at h2 ⊢; omega⟩

theorem font_valid {L : Nat → List (List UInt8)} {C : List (List UInt8)} {f : FontDef} (h : f.Valid) (hc : C.length = f.codes.length)
    (hl : ∀ d, (L d).length ≤ 65535)
    (hs : indexBulk C + ((List.range (count f.keying)).map fun d => indexBulk (L d)).sum < 2 ^ 31) : (font L C f).Valid := by
  obtain ⟨h1, h2, h3, h4, h5⟩ := h
  have e : (font L C f).codes = C := rfl
  have each : ∀ d < count f.keying, IndexFits 4 (L d) := fun d hd => by
    refine fits (hl d) ?_
    have : indexBulk (L d) ≤ ((List.range (count f.keying)).map fun d => indexBulk (L d)).sum :=
      List.single_le_sum (by simp) _ (List.mem_map_of_mem (List.mem_range.mpr hd))
    omega
  refine ⟨h1, fits (by rw [e, hc]; exact h2.1) (by rw [e]; omega), by rw [e, hc]; exact h3, h4, ?_⟩
  rw [e, hc]
  show (keying L f.keying).Valid f.codes.length
  cases hq : f.keying with
  | names p => rw [hq] at h5 each; exact ⟨h5.1, each 0 (by simp [count])⟩
  | identifiers r o s e ds =>
    rw [hq] at h5 each
    obtain ⟨a, b, c, d, g, k⟩ := h5
    refine ⟨a, b, c, d, by rw [List.length_mapIdx]; exact g, ?_⟩
    intro x hx
    obtain ⟨i, hi, rfl⟩ := List.mem_mapIdx.mp hx
    have := k _ (List.getElem_mem hi)
    exact ⟨this.1, this.2.1, each i hi⟩

theorem valid {G : List (List UInt8)} {L : Nat → Nat → List (List UInt8)} {C : Nat → List (List UInt8)} {d : FontSetDef} (h : d.Valid)
    (hc : ∀ (k : Nat) f, d.fonts[k]? = some f → (C k).length = f.codes.length) (hg : G.length ≤ 65535) (hl : ∀ k d, (L k d).length ≤ 65535)
    (hs : d.write.length + bulk G L C d < 2 ^ 31) : (fontSet G L C d).Valid := by
  obtain ⟨h1, h2, h3, h4, h5, h6⟩ := h
  have hb : indexBulk G ≤ bulk G L C d := Nat.le_add_right _ _
  refine ⟨h1, h2, fits hg (by show indexBulk G ≤ _; omega), ?_, ?_, Nat.lt_of_le_of_lt (write_bound G L C d) hs⟩
  · show (d.fonts.mapIdx _).length ≤ _
    rw [List.length_mapIdx]; exact h4
  · intro f hf
    obtain ⟨i, hi, rfl⟩ := List.mem_mapIdx.mp hf
    refine font_valid (h5 _ (List.getElem_mem hi)) (hc i _ (List.getElem?_eq_getElem hi)) (hl i) ?_
    have : indexBulk (C i) + ((List.range (count d.fonts[i].keying)).map fun d => indexBulk (L i d)).sum ≤
        (d.fonts.mapIdx fun k f => indexBulk (C k) + ((List.range (count f.keying)).map fun d => indexBulk (L k d)).sum).sum :=
      List.single_le_sum (by simp) _ (List.mem_mapIdx.mpr ⟨i, hi, rfl⟩)
    unfold bulk at hs
    omega

theorem record_in {L : Nat → List (List UInt8)} {k : Keying} {r r' : Record} (h : k.In r) (h' : (keying L k).In r') :
    NewRecord L r r' := by
  cases k with
  | names p =>
    cases r with
    | characterIDKeyed r => exact h.elim
    | characterNameKeyed r =>
      cases r' with
      | characterIDKeyed r' => exact h'.elim
      | characterNameKeyed r' => exact ⟨same_dict h.1 h'.1, h'.2⟩
  | identifiers a b c e ds =>
    cases r with
    | characterNameKeyed r => exact h.elim
    | characterIDKeyed r =>
      cases r' with
      | characterNameKeyed r' => exact h'.elim
      | characterIDKeyed r' =>
        obtain ⟨p1, p2, p3, p4, p5, p6⟩ := h'
        obtain ⟨o1, o2, o3, o4, o5, o6⟩ := h
        refine ⟨UInt16.toNat_inj.mp (o1.trans p1.symm), UInt16.toNat_inj.mp (o2.trans p2.symm), o3.trans p3.symm, o4.trans p4.symm, ?_, ?_, ?_⟩
        · have p5' : List.Forall₂ (fun (d : FontDictDef) o => d.entries.In [.opPrivate] o) ds r'.operations := by
            rw [List.forall₂_iff_get] at p5 ⊢
            obtain ⟨l1, l2⟩ := p5
            rw [List.length_mapIdx] at l1
            refine ⟨l1, fun i h1 h2 => ?_⟩
            have := l2 i (by rw [List.length_mapIdx]; exact h1) h2
            simpa using this
          exact forall₂_both o5 p5' fun _ _ _ h h' => same_dict h h'
        · rw [← o6.length_eq, ← p6.length_eq, List.length_mapIdx]
        · intro d x x' hx hx'
          obtain ⟨y, hy, hy'⟩ := forall₂_getElem? (List.Forall₂.flip p6) hx'
          rw [List.getElem?_mapIdx] at hy
          obtain ⟨z, hz, rfl⟩ := Option.map_eq_some_iff.mp hy
          obtain ⟨x1, hx1, hx2⟩ := forall₂_getElem? o6 hz
          rw [hx] at hx1
          injection hx1 with hx1
          subst hx1
          exact ⟨same_dict hx2.1 hy'.1, hy'.2⟩

theorem fontSet_in {G : List (List UInt8)} {L : Nat → Nat → List (List UInt8)} {C : Nat → List (List UInt8)} {d : FontSetDef}
    {fs fs' : FontSet} (h : d.In fs) (h' : (fontSet G L C d).In fs') : Recoded G L C fs fs' := by
  obtain ⟨i1, i2, i3, i4, i5, i6, i7, i8⟩ := h
  obtain ⟨g1, g2, g3, g4, g5, g6, g7, g8⟩ := h'
  have e : (fontSet G L C d).fonts = d.fonts.mapIdx fun k f => font (L k) (C k) f := rfl
  have drop : ∀ {β : Type} {R : FontDef → β → Prop} {bs : List β}, (∀ k f b, R (font (L k) (C k) f) b → R f b) →
      List.Forall₂ R (fontSet G L C d).fonts bs → List.Forall₂ R d.fonts bs := by
    intro β R bs hR hf
    rw [e, List.forall₂_iff_get] at hf
    rw [List.forall₂_iff_get]
    obtain ⟨l1, l2⟩ := hf
    rw [List.length_mapIdx] at l1
    refine ⟨l1, fun i h1 h2 => hR i _ _ ?_⟩
    have := l2 i (by rw [List.length_mapIdx]; exact h1) h2
    simpa using this
  refine ⟨g1.trans i1.symm, g2.trans i2.symm, g3,
    forall₂_both i4 (drop (R := fun f o => f.entries.In FontDef.reserved o) (fun _ _ _ h => h) g4) fun _ _ _ h h' => same_dict h h', ?_, ?_, ?_, ?_, ?_, ?_⟩
  · rw [← i5.length_eq, ← g5.length_eq, e, List.length_mapIdx]
  · intro k cs hcs
    obtain ⟨f, hf, hin⟩ := forall₂_getElem? (List.Forall₂.flip g5) hcs
    rw [e, List.getElem?_mapIdx] at hf
    obtain ⟨f', -, rfl⟩ := Option.map_eq_some_iff.mp hf
    exact hin
  · rw [g6, i6]; exact mapIdx_map_eq (fun k (f : FontDef) => font (L k) (C k) f) (fun _ _ => rfl) d.fonts
  · rw [g7, i7]; exact mapIdx_map_eq (fun k (f : FontDef) => font (L k) (C k) f) (fun _ _ => rfl) d.fonts
  · rw [← i8.length_eq, ← g8.length_eq, e, List.length_mapIdx]
  · intro k r r' hr hr'
    obtain ⟨f, hf, hin⟩ := forall₂_getElem? (List.Forall₂.flip i8) hr
    obtain ⟨f', hf', hin'⟩ := forall₂_getElem? (List.Forall₂.flip g8) hr'
    rw [e, List.getElem?_mapIdx, hf] at hf'
    injection hf' with hf'
    subst hf'
    exact record_in hin hin'

theorem count_in {k : Keying} {r : Record} (h : k.In r) : count k = (privateList r).length := by
  cases k with
  | names p =>
    cases r with
    | characterIDKeyed r => exact h.elim
    | characterNameKeyed r => rfl
  | identifiers a b c e ds =>
    cases r with
    | characterNameKeyed r => exact h.elim
    | characterIDKeyed r => exact h.2.2.2.2.2.length_eq

theorem bulk_in {G : List (List UInt8)} {L : Nat → Nat → List (List UInt8)} {C : Nat → List (List UInt8)} {d : FontSetDef}
    {fs : FontSet} (h : d.In fs) : bulk G L C d = codeBulk G L C fs := by
  have i8 := h.2.2.2.2.2.2.2
  unfold bulk codeBulk
  congr 2
  apply List.ext_getElem?
  intro k
  rw [List.getElem?_mapIdx, List.getElem?_mapIdx]
  cases hf : d.fonts[k]? with
  | none =>
    have : fs.records[k]? = none := by
      rw [List.getElem?_eq_none_iff] at hf ⊢
      rw [← i8.length_eq]; exact hf
    rw [this]; rfl
  | some f =>
    obtain ⟨r, hr, hin⟩ := forall₂_getElem? i8 hf
    rw [hr]
    simp only [Option.map_some]
    rw [count_in hin]

theorem new_records {L : Nat → List (List UInt8)} {r r' : Record} (h : NewRecord L r r') :
    (∀ g d, Chooses r g d ↔ Chooses r' g d) ∧
    (∀ (d : Nat) p, (privateList r)[d]? = some p → ∃ p', (privateList r')[d]? = some p' ∧ p'.subroutines.data = L d) ∧
    ∀ (d : Nat) p', (privateList r')[d]? = some p' → p'.subroutines.data = L d ∧ ∃ p, (privateList r)[d]? = some p := by
  cases r with
  | characterNameKeyed r =>
    cases r' with
    | characterIDKeyed r' => exact h.elim
    | characterNameKeyed r' =>
      refine ⟨fun _ _ => Iff.rfl, fun d p hp => ?_, fun d p hp => ?_⟩
      · have hd : d = 0 := by
          have := (List.getElem?_eq_some_iff.mp hp).1
          simp only [privateList, List.length_cons, List.length_nil] at this
          omega
        subst hd
        exact ⟨r', rfl, h.2⟩
      · have hd : d = 0 := by
          have := (List.getElem?_eq_some_iff.mp hp).1
          simp only [privateList, List.length_cons, List.length_nil] at this
          omega
        subst hd
        have : r' = p := by simpa [privateList] using hp
        exact ⟨this ▸ h.2, r, rfl⟩
  | characterIDKeyed r =>
    cases r' with
    | characterNameKeyed r' => exact h.elim
    | characterIDKeyed r' =>
      obtain ⟨-, -, -, h4, -, h6, h7⟩ := h
      refine ⟨fun g d => by simp only [Chooses, h4], fun d p hp => ?_, fun d p hp => ?_⟩
      · have hlt := (List.getElem?_eq_some_iff.mp hp).1
        simp only [privateList] at hlt hp ⊢
        have hp' : r'.records[d]? = some (r'.records[d]'(by omega)) := List.getElem?_eq_getElem (by omega)
        exact ⟨_, hp', (h7 d _ _ hp hp').2⟩
      · have hlt := (List.getElem?_eq_some_iff.mp hp).1
        simp only [privateList] at hlt hp ⊢
        have hp' : r.records[d]? = some (r.records[d]'(by omega)) := List.getElem?_eq_getElem (by omega)
        exact ⟨(h7 d _ _ hp' hp).2, _, hp'⟩

theorem privates_eq (r : Record) : (privateList r).length = Spec.privates r := by
  cases r <;> rfl

theorem flat_bulk {fs : FontSet} {C : Nat → List (List UInt8)} {N : Nat} (hl : fs.records.length = fs.characterStrings.length)
    (hc : ∀ (k : Nat) cs, fs.characterStrings[k]? = some cs → (C k).length = cs.data.length ∧ ∀ c ∈ C k, c.length ≤ N) :
    codeBulk [] (fun _ _ => []) C fs ≤ 7 * (1 + fs.records.length + FontSet.privates fs) + glyphCount fs * (N + 4) := by
  have key : ∀ (rs : List Record) (css : List Index) (C : Nat → List (List UInt8)), rs.length = css.length →
      (∀ (k : Nat) cs, css[k]? = some cs → (C k).length = cs.data.length ∧ ∀ c ∈ C k, c.length ≤ N) →
      (rs.mapIdx fun k r => indexBulk (C k) + ((List.range (privateList r).length).map fun _ => indexBulk []).sum).sum ≤
        7 * (rs.length + (rs.map Spec.privates).sum) + (css.map fun cs => cs.data.length).sum * (N + 4) := by
    intro rs
    induction rs with
    | nil => intro css C _ _; simp
    | cons r rs ih =>
      intro css C h1 h2
      cases css with
      | nil => simp at h1
      | cons cs css =>
        have := ih css (fun k => C (k + 1)) (by simpa using h1) fun k cs h => h2 (k + 1) cs (by simpa using h)
        obtain ⟨a1, a2⟩ := h2 0 cs rfl
        have a3 : (C 0).flatten.length ≤ cs.data.length * N := by
          rw [List.length_flatten, ← a1]
          have := List.sum_le_card_nsmul ((C 0).map List.length) N (by simpa using a2)
          simpa using this
        have a4 : ((List.range (privateList r).length).map fun _ => indexBulk []).sum = 7 * Spec.privates r := by
          rw [privates_eq, List.map_const', List.sum_replicate, List.length_range]
          simp [indexBulk, Nat.mul_comm]
        have a5 : indexBulk (C 0) ≤ cs.data.length * (N + 4) + 7 := by
          unfold indexBulk
          rw [a1]
          nlinarith
        rw [List.mapIdx_cons, List.sum_cons, List.map_cons, List.map_cons, List.sum_cons, List.sum_cons, List.length_cons, Nat.add_mul, a4]
        omega
  have := key fs.records fs.characterStrings C hl hc
  unfold codeBulk FontSet.privates glyphCount
  have e : indexBulk [] = 7 := rfl
  simp only [e] at this ⊢
  omega

end PS.Recoding
