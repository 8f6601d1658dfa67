import Verif.Lemmas.Uncalled
import Verif.Lemmas.Subset
/-!
# Font sets without some subroutines
-/
namespace PS
open Spec

theorem emptied_length (P : Nat → Prop) (l : List (List UInt8)) : (emptied P l).length = l.length := by
  simp [emptied]

open Classical in
theorem emptied_getElem? (P : Nat → Prop) (l : List (List UInt8)) (i : Nat) :
    (emptied P l)[i]? = l[i]?.map fun b => if P i then b else [] := by
  simp [emptied]

theorem emptied_keeps {P : Nat → Prop} {l : List (List UInt8)} {i : Nat} (h : P i) : (emptied P l)[i]? = l[i]? := by
  rw [emptied_getElem?]
  simp [h]

open Classical in
theorem emptied_sum (P : Nat → Prop) (l : List (List UInt8)) : ((emptied P l).map List.length).sum ≤ (l.map List.length).sum := by
  unfold emptied
  induction l generalizing P with
  | nil => simp
  | cons b l ih =>
    have := ih fun i => P (i + 1)
    rw [List.mapIdx_cons, List.map_cons, List.map_cons, List.sum_cons, List.sum_cons]
    refine Nat.add_le_add ?_ ?_
    · split <;> simp
    · convert this using 6

theorem emptied_index (P : Nat → Prop) (l : List (List UInt8)) :
    (encodeIndex 4 (emptied P l)).length ≤ (encodeIndex 4 l).length :=
  encodeIndex_mono (emptied_length P l).le (emptied_sum P l)

theorem emptied_fits {P : Nat → Prop} {l : List (List UInt8)} (h : IndexFits 4 l) : IndexFits 4 (emptied P l) := by
  refine ⟨by rw [emptied_length]; exact h.1, h.2.1, h.2.2.1, ?_⟩
  have q1 := emptied_sum P l
  have q2 := h.2.2.2
  rw [List.length_flatten] at q2 ⊢
  exact Nat.lt_of_le_of_lt (Nat.add_le_add_left q1 1) q2

/-! ## Parts of a font set with fewer subroutines -/

/-- A private dictionary of which only the local subroutines `P` are left. -/
noncomputable def Spec.PrivateDef.thin (P : Nat → Prop) (p : PrivateDef) : PrivateDef := { p with locals := emptied P p.locals }

/-- A record of which only the local subroutines `L` are left. -/
noncomputable def Spec.Keying.thin (L : Nat → Nat → Prop) : Keying → Keying
  | .names p => .names (p.thin (L 0))
  | .identifiers r o s e ds => .identifiers r o s e (ds.mapIdx fun d x => { x with priv := x.priv.thin (L d) })

/-- A font of which only the local subroutines `L` are left. -/
noncomputable def Spec.FontDef.thin (L : Nat → Nat → Prop) (f : FontDef) : FontDef := { f with keying := f.keying.thin L }

/-- A font set of which only the subroutines `G` and `L` are left. -/
noncomputable def Spec.FontSetDef.thin (G : Nat → Prop) (L : Nat → Nat → Nat → Prop) (d : FontSetDef) : FontSetDef :=
  { d with globals := emptied G d.globals, fonts := d.fonts.mapIdx fun k f => f.thin (L k) }

theorem thin_private_length (P : Nat → Prop) (p : PrivateDef) : (p.thin P).blob.length ≤ p.blob.length := by
  unfold PrivateDef.blob
  rw [List.length_append, List.length_append]
  exact Nat.add_le_add (Nat.le_refl _) (emptied_index P p.locals)

theorem mapIdx_sum_le {α : Type} {g : α → Nat} (F : Nat → α → α) (h : ∀ i x, g (F i x) ≤ g x) (l : List α) :
    ((l.mapIdx F).map g).sum ≤ (l.map g).sum := by
  induction l generalizing F with
  | nil => simp
  | cons x l ih =>
    have := ih (fun i => F (i + 1)) fun i => h (i + 1)
    rw [List.mapIdx_cons, List.map_cons, List.map_cons, List.sum_cons, List.sum_cons]
    exact Nat.add_le_add (h 0 x) this

theorem mapIdx_map_eq {α β : Type} {g : α → β} (F : Nat → α → α) (h : ∀ i x, g (F i x) = g x) (l : List α) :
    (l.mapIdx F).map g = l.map g := by
  apply List.ext_getElem?
  intro i
  simp only [List.getElem?_map, List.getElem?_mapIdx, Option.map_map]
  congr 1
  funext x
  exact h i x

theorem thin_keying_length (L : Nat → Nat → Prop) (k : Keying) (o o' : Nat) : ((k.thin L).blob o).length ≤ (k.blob o').length := by
  cases k with
  | names p => exact thin_private_length (L 0) p
  | identifiers r ord s e ds =>
    set ds' := ds.mapIdx fun d x => { x with priv := x.priv.thin (L d) } with hds
    show ((Keying.identifiers r ord s e ds').blob o).length ≤ _
    simp only [Keying.blob, List.length_append]
    rw [array_length ds' _ 0]
    have a2 := array_length ds (o' + (encodeSelect e).length + (Keying.array ds 0).length) 0
    have a3 : (Keying.array ds' 0).length = (Keying.array ds 0).length := by
      unfold Keying.array
      refine encodeIndex_sizes ?_
      have key : ∀ (start start' : Nat) (ds : List FontDictDef) (L : Nat → Nat → Prop),
          ((place (fun d : FontDictDef => d.priv.blob.length) start
            (ds.mapIdx fun d x => { x with priv := x.priv.thin (L d) })).map fun x => x.1.dict x.2).map List.length =
          ((place (fun d : FontDictDef => d.priv.blob.length) start' ds).map fun x => x.1.dict x.2).map List.length := by
        intro start start' ds
        induction ds generalizing start start' with
        | nil => intro L; rfl
        | cons x ds ih =>
          intro L
          simp only [List.mapIdx_cons, place, List.map_cons]
          rw [ih _ (start' + x.priv.blob.length) fun d => L (d + 1)]
          congr 1
          simp only [FontDictDef.dict, List.length_append, encodeOps_length]
          simp [long_length]
      exact key 0 0 ds L
    have a4 : ((ds'.map fun d => d.priv.blob).flatten).length ≤ ((ds.map fun d => d.priv.blob).flatten).length := by
      rw [List.length_flatten, List.length_flatten, List.map_map, List.map_map]
      exact mapIdx_sum_le (g := fun d : FontDictDef => d.priv.blob.length) _ (fun d x => thin_private_length (L d) x.priv) ds
    omega

theorem thin_blob (L : Nat → Nat → Prop) (f : FontDef) : ((f.thin L).blob 0).length ≤ (f.blob 0).length := by
  unfold FontDef.blob
  simp only [List.length_append]
  have := thin_keying_length L f.keying ((f.thin L).recordAt 0) (f.recordAt 0)
  have e : (f.thin L).keying = f.keying.thin L ∧ (f.thin L).set = f.set ∧ (f.thin L).encoding = f.encoding ∧
    (f.thin L).codes = f.codes := ⟨rfl, rfl, rfl, rfl⟩
  rw [e.1, e.2.1, e.2.2.1, e.2.2.2]
  omega

theorem thin_dict (L : Nat → Nat → Prop) (f : FontDef) : ((f.thin L).dict 0).length = (f.dict 0).length := by
  unfold FontDef.dict FontDef.ops
  rw [List.length_append, List.length_append, encodeOps_length, encodeOps_length]
  have : (f.thin L).keying = f.keying.thin L ∧ (f.thin L).entries = f.entries := ⟨rfl, rfl⟩
  rw [this.1, this.2]
  cases f.keying <;> simp [Keying.ops, Keying.thin, long_length]

theorem thin_write (G : Nat → Prop) (L : Nat → Nat → Nat → Prop) (d : FontSetDef) : (d.thin G L).write.length ≤ d.write.length := by
  rw [write_length, write_length]
  have q1 : (d.thin G L).strings = d.strings ∧ (d.thin G L).globals = emptied G d.globals ∧ (d.thin G L).names = d.names ∧
    (d.thin G L).fonts = d.fonts.mapIdx fun k f => f.thin (L k) := ⟨rfl, rfl, rfl, rfl⟩
  rw [q1.1, q1.2.1, q1.2.2.1, q1.2.2.2, List.length_mapIdx]
  have h1 := mapIdx_sum_le (g := fun f => (f.blob 0).length) (fun k (f : FontDef) => f.thin (L k)) (fun k f => thin_blob (L k) f) d.fonts
  have h2 := mapIdx_sum_le (g := fun f => (f.dict 0).length) (fun k (f : FontDef) => f.thin (L k)) (fun k f => (thin_dict (L k) f).le) d.fonts
  have h3 := emptied_index G d.globals
  split <;> omega

theorem thin_private_valid {P : Nat → Prop} {p : PrivateDef} (h : p.Valid) : (p.thin P).Valid := ⟨h.1, emptied_fits h.2⟩

theorem thin_font_valid {L : Nat → Nat → Prop} {f : FontDef} (h : f.Valid) : (f.thin L).Valid := by
  obtain ⟨h1, h2, h3, h4, h5⟩ := h
  refine ⟨h1, h2, h3, h4, ?_⟩
  show (f.keying.thin L).Valid f.codes.length
  cases hq : f.keying with
  | names p => rw [hq] at h5; exact thin_private_valid h5
  | identifiers r o s e ds =>
    rw [hq] at h5
    obtain ⟨a, b, c, d, g, k⟩ := h5
    refine ⟨a, b, c, d, by rw [List.length_mapIdx]; exact g, ?_⟩
    intro x hx
    obtain ⟨i, hi, rfl⟩ := List.mem_mapIdx.mp hx
    have := k _ (List.getElem_mem hi)
    exact ⟨this.1, thin_private_valid this.2⟩

theorem thin_valid {G : Nat → Prop} {L : Nat → Nat → Nat → Prop} {d : FontSetDef} (h : d.Valid) : (d.thin G L).Valid := by
  obtain ⟨h1, h2, h3, h4, h5, h6⟩ := h
  refine ⟨h1, h2, emptied_fits h3, ?_, ?_, Nat.lt_of_le_of_lt (thin_write G L d) h6⟩
  · show (d.fonts.mapIdx _).length ≤ _
    rw [List.length_mapIdx]; exact h4
  · intro f hf
    obtain ⟨i, hi, rfl⟩ := List.mem_mapIdx.mp hf
    exact thin_font_valid (h5 _ (List.getElem_mem hi))

theorem thin_private_in {P : Nat → Prop} {p : PrivateDef} {r r' : PrivateRecord} (h : p.In r) (h' : (p.thin P).In r') :
    ThinPrivate P r r' :=
  ⟨same_dict h.1 h'.1, by rw [h'.2, h.2]; rfl⟩

theorem thin_record_in {L : Nat → Nat → Prop} {k : Keying} {r r' : Record} (h : k.In r) (h' : (k.thin L).In r') :
    ThinRecord L r r' := by
  cases k with
  | names p =>
    cases r with
    | characterIDKeyed r => exact h.elim
    | characterNameKeyed r =>
      cases r' with
      | characterIDKeyed r' => exact h'.elim
      | characterNameKeyed r' => exact thin_private_in h h'
  | identifiers a b c e ds =>
    cases r with
    | characterNameKeyed r => exact h.elim
    | characterIDKeyed r =>
      cases r' with
      | characterNameKeyed r' => exact h'.elim
      | characterIDKeyed r' =>
        obtain ⟨p1, p2, p3, p4, p5, p6⟩ := h'
        obtain ⟨o1, o2, o3, o4, o5, o6⟩ := h
        refine ⟨UInt16.toNat_inj.mp (o1.trans p1.symm), UInt16.toNat_inj.mp (o2.trans p2.symm), o3.trans p3.symm, o4.trans p4.symm, ?_, ?_, ?_⟩
        · have p5' : List.Forall₂ (fun (d : FontDictDef) o => d.entries.In [.opPrivate] o) ds r'.operations := by
            rw [List.forall₂_iff_get] at p5 ⊢
            obtain ⟨l1, l2⟩ := p5
            rw [List.length_mapIdx] at l1
            refine ⟨l1, fun i h1 h2 => ?_⟩
            have := l2 i (by rw [List.length_mapIdx]; exact h1) h2
            simpa using this
          exact forall₂_both o5 p5' fun _ _ _ h h' => same_dict h h'
        · rw [← o6.length_eq, ← p6.length_eq, List.length_mapIdx]
        · intro d x x' hx hx'
          obtain ⟨y, hy, hy'⟩ := forall₂_getElem? (List.Forall₂.flip p6) hx'
          rw [List.getElem?_mapIdx] at hy
          obtain ⟨z, hz, rfl⟩ := Option.map_eq_some_iff.mp hy
          obtain ⟨x1, hx1, hx2⟩ := forall₂_getElem? o6 hz
          rw [hx] at hx1
          injection hx1 with hx1
          subst hx1
          exact thin_private_in hx2 hy'

theorem thin_in {G : Nat → Prop} {L : Nat → Nat → Nat → Prop} {d : FontSetDef} {fs fs' : FontSet} (h : d.In fs)
    (h' : (d.thin G L).In fs') : Thinned G L fs fs' := by
  obtain ⟨i1, i2, i3, i4, i5, i6, i7, i8⟩ := h
  obtain ⟨g1, g2, g3, g4, g5, g6, g7, g8⟩ := h'
  have drop : ∀ {β : Type} {R : FontDef → β → Prop} {bs : List β}, (∀ k f b, R (f.thin (L k)) b → R f b) →
      List.Forall₂ R (d.thin G L).fonts bs → List.Forall₂ R d.fonts bs := by
    intro β R bs hR hf
    have e : (d.thin G L).fonts = d.fonts.mapIdx fun k f => f.thin (L k) := rfl
    rw [e, List.forall₂_iff_get] at hf
    rw [List.forall₂_iff_get]
    obtain ⟨l1, l2⟩ := hf
    rw [List.length_mapIdx] at l1
    refine ⟨l1, fun i h1 h2 => hR i _ _ ?_⟩
    have := l2 i (by rw [List.length_mapIdx]; exact h1) h2
    simpa using this
  refine ⟨g1.trans i1.symm, g2.trans i2.symm, by rw [g3, i3]; rfl,
    forall₂_both i4 (drop (R := fun f o => f.entries.In FontDef.reserved o) (fun _ _ _ h => h) g4) fun _ _ _ h h' => same_dict h h', ?_, ?_, ?_, ?_, ?_⟩
  · have := forall₂_both (T := fun a b : Index => a.data = b.data) (drop (R := fun f (cs : Index) => cs.data = f.codes) (fun _ _ _ h => h) g5) i5
      fun f a b (x : a.data = f.codes) (y : b.data = f.codes) => x.trans y.symm
    rw [← List.forall₂_eq_eq_eq, List.forall₂_map_left_iff, List.forall₂_map_right_iff]
    exact this
  · rw [g6, i6]; exact mapIdx_map_eq (fun k (f : FontDef) => f.thin (L k)) (fun _ _ => rfl) d.fonts
  · rw [g7, i7]; exact mapIdx_map_eq (fun k (f : FontDef) => f.thin (L k)) (fun _ _ => rfl) d.fonts
  · rw [← i8.length_eq, ← g8.length_eq]
    show _ = (d.fonts.mapIdx _).length
    rw [List.length_mapIdx]
  · intro k r r' hr hr'
    obtain ⟨f, hf, hin⟩ := forall₂_getElem? (List.Forall₂.flip i8) hr
    obtain ⟨f', hf', hin'⟩ := forall₂_getElem? (List.Forall₂.flip g8) hr'
    have e : (d.thin G L).fonts[k]? = some (f.thin (L k)) := by
      show (d.fonts.mapIdx fun k f => f.thin (L k))[k]? = _
      rw [List.getElem?_mapIdx, hf]; rfl
    rw [e] at hf'
    injection hf' with hf'
    subst hf'
    exact thin_record_in hin hin'

theorem localFor_iff (r : Record) (g : Nat) (ix : Index) :
    LocalFor r g ix ↔ ∃ d p, Chooses r g d ∧ (privateList r)[d]? = some p ∧ ix = p.subroutines := by
  cases r with
  | characterNameKeyed r =>
    constructor
    · intro h; exact ⟨0, r, rfl, rfl, h⟩
    · rintro ⟨d, p, rfl, h2, h3⟩
      have : r = p := by simpa [privateList] using h2
      rw [← this] at h3
      exact h3
  | characterIDKeyed r => exact Iff.rfl

theorem localOf_of_private {r : Record} {d : Nat} {p : PrivateRecord} (h : (privateList r)[d]? = some p) : LocalOf r p.subroutines := by
  cases r with
  | characterNameKeyed r =>
    have : p = r := by simpa [privateList] using List.mem_of_getElem? h
    rw [this]
    exact rfl
  | characterIDKeyed r => exact ⟨p, List.mem_of_getElem? h, rfl⟩

theorem thin_records {L : Nat → Nat → Prop} {r r' : Record} (h : ThinRecord L r r') :
    (∀ g d, Chooses r g d ↔ Chooses r' g d) ∧
    (∀ (d : Nat) p, (privateList r)[d]? = some p → ∃ p', (privateList r')[d]? = some p' ∧ ThinPrivate (L d) p p') ∧
    ∀ (d : Nat) p', (privateList r')[d]? = some p' → ∃ p, (privateList r)[d]? = some p ∧ ThinPrivate (L d) p p' := by
  cases r with
  | characterNameKeyed r =>
    cases r' with
    | characterIDKeyed r' => exact h.elim
    | characterNameKeyed r' =>
      refine ⟨fun _ _ => Iff.rfl, fun d p hp => ?_, fun d p hp => ?_⟩
      · have hd : d = 0 := by
          have := (List.getElem?_eq_some_iff.mp hp).1
          simp only [privateList, List.length_cons, List.length_nil] at this
          omega
        subst hd
        have : r = p := by simpa [privateList] using hp
        exact ⟨r', rfl, this ▸ h⟩
      · have hd : d = 0 := by
          have := (List.getElem?_eq_some_iff.mp hp).1
          simp only [privateList, List.length_cons, List.length_nil] at this
          omega
        subst hd
        have : r' = p := by simpa [privateList] using hp
        exact ⟨r, rfl, this ▸ h⟩
  | characterIDKeyed r =>
    cases r' with
    | characterNameKeyed r' => exact h.elim
    | characterIDKeyed r' =>
      obtain ⟨-, -, -, h4, -, h6, h7⟩ := h
      refine ⟨fun g d => by simp only [Chooses, h4], fun d p hp => ?_, fun d p hp => ?_⟩
      · have hlt := (List.getElem?_eq_some_iff.mp hp).1
        simp only [privateList] at hlt hp ⊢
        have hp' : r'.records[d]? = some (r'.records[d]'(by omega)) := List.getElem?_eq_getElem (by omega)
        exact ⟨_, hp', h7 d p _ hp hp'⟩
      · have hlt := (List.getElem?_eq_some_iff.mp hp).1
        simp only [privateList] at hlt hp ⊢
        have hp' : r.records[d]? = some (r.records[d]'(by omega)) := List.getElem?_eq_getElem (by omega)
        exact ⟨_, hp', h7 d _ p hp' hp⟩

end PS
