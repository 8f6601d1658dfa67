import Verif.Spec.Footprint
import Verif.Props.FontSet
/-!
# Property C78: bytes elsewhere do not matter
-/
namespace PS
open Spec

/-- Two files agree on the parts of a font set. -/
theorem laidOut_of_parts {A : Addressing} {data data' : List UInt8} {base : Nat} {fs : FontSet}
    (hp : ∀ k p bs, Part A data base fs k p bs → Sits data p bs → Sits data' p bs) (h : LaidOut A data base fs) :
    LaidOut A data' base fs := by
  obtain ⟨h0, ⟨p1, p2, p3, p4, p5, ix, ha, ⟨b1, i1, s1, e1⟩, ⟨b2, i2, s2, e2⟩, ⟨b3, i3, s3, e3⟩, ⟨b4, i4, s4, e4⟩, hd⟩, l1, l2, l3, l4, hf⟩ := h
  have hpriv : ∀ top r, PrivateOf fs top r → PrivateAt A data top r → PrivateAt A data' top r := by
    rintro top r ho ⟨size, offset, rest, p, chunk, g1, g2, g3, g4, g5, g6⟩
    refine ⟨size, offset, rest, p, chunk, g1, g2, g3, hp _ p chunk (.privateDictionary ho g1 g2 g3) g4, g5, ?_⟩
    rcases g6 with ⟨o, s, p', k1, k2, k3, bs, k4, k5⟩ | g6
    · exact .inl ⟨o, s, p', k1, k2, k3, bs, k4, hp _ p' bs (.localSubroutines ho g1 k1 k2 k3 k4) k5⟩
    · exact .inr g6
  refine ⟨hp _ _ _ .header h0, ⟨p1, p2, p3, p4, p5, ix, ha, ⟨b1, i1, hp _ _ _ (.names ha i1) s1, e1⟩,
    ⟨b2, i2, hp _ _ _ (.dictionaries ha ⟨b1, i1, s1, e1⟩ i2) s2, e2⟩,
    ⟨b3, i3, hp _ _ _ (.strings ha ⟨b1, i1, s1, e1⟩ ⟨b2, i2, s2, e2⟩ i3) s3, e3⟩,
    ⟨b4, i4, hp _ _ _ (.subroutines ha ⟨b1, i1, s1, e1⟩ ⟨b2, i2, s2, e2⟩ ⟨b3, i3, s3, e3⟩ i4) s4, e4⟩, hd⟩, l1, l2, l3, l4, ?_⟩
  intro i top ht
  obtain ⟨cs, s, e, r, f1, f2, f3, f4, ⟨o1, q1, c1, c2, c3, bs, c4, c5⟩, ⟨o2, c6, c7⟩, ⟨o3, c8, c9⟩, c10⟩ := hf i top ht
  refine ⟨cs, s, e, r, f1, f2, f3, f4, ⟨o1, q1, c1, c2, c3, bs, c4, hp _ _ _ (.characterStrings ht f1 c1 c2 c4) c5⟩, ⟨o2, c6, ?_⟩,
    ⟨o3, c8, ?_⟩, ?_⟩
  · rcases c7 with c7 | c7 | c7 | ⟨n0, n1, n2, p, d1, d2, d3, d4⟩
    · exact .inl c7
    · exact .inr (.inl c7)
    · exact .inr (.inr (.inl c7))
    · exact .inr (.inr (.inr ⟨n0, n1, n2, p, d1, d2, d3, hp _ _ _ (.characterSet ht f2 c6 (by simp [n0, n1, n2]) d1) d4⟩))
  · rcases c9 with c9 | c9 | ⟨n0, n1, p, d1, d2, d4⟩
    · exact .inl c9
    · exact .inr (.inl c9)
    · exact .inr (.inr ⟨n0, n1, p, d1, d2, hp _ _ _ (.encoding ht f3 c8 (by simp [n0, n1]) d1) d4⟩)
  · cases r with
    | characterNameKeyed r => exact ⟨c10.1, hpriv _ _ (.inl ⟨i, ht, f4⟩) c10.2⟩
    | characterIDKeyed r =>
      obtain ⟨d1, ⟨o4, p, d2, d3, d4, d5⟩, ⟨o5, p', dx, d6, d7, ⟨bs, d8, d9⟩, d10⟩, d11⟩ := c10
      refine ⟨d1, ⟨o4, p, d2, d3, d4, hp _ _ _ (.select ht f4 d2 d3) d5⟩,
        ⟨o5, p', dx, d6, d7, ⟨bs, d8, hp _ _ _ (.fontDictionaries ht f4 d6 d7 d8) d9⟩, d10⟩, ?_⟩
      rw [List.forall₂_iff_get] at d11 ⊢
      refine ⟨d11.1, fun j hj hj' => hpriv _ _ (.inr ⟨r, j, List.mem_of_getElem? f4, ?_, ?_⟩) (d11.2 j hj hj')⟩
      · simp
      · simp

theorem sits_iff {data : List UInt8} {p : Nat} {bs : List UInt8} :
    Sits data p bs ↔ ∀ i, i < bs.length → data[p + i]? = bs[i]? := by
  unfold Sits
  rw [List.prefix_iff_getElem?]
  simp only [List.getElem?_drop]
  constructor
  · intro h i hi
    rw [h i hi, List.getElem?_eq_getElem hi]
  · intro h i hi
    rw [h i hi, List.getElem?_eq_getElem hi]

/-- **C78.**  The bytes that belong to no part of a font set do not matter: another file
that has the same bytes wherever a part is, and any others elsewhere, holds the same font
set. -/
theorem C78_elsewhere (cfg : Config) (data data' : List UInt8) (hdata : data.length < 2 ^ 61) (hdata' : data'.length < 2 ^ 61)
    (base q : Nat) (fs : FontSet) (h : FontSet.read (tape cfg data) base = (.ok fs, q))
    (hsame : ∀ i, Occupied (machine cfg base) data base fs i → data'[i]? = data[i]?) :
    ∃ q', FontSet.read (tape cfg data') base = (.ok fs, q') := by
  rw [C32_layout_iff cfg data' hdata' base fs]
  refine laidOut_of_parts ?_ ((C32_layout_iff cfg data hdata base fs).mp ⟨q, h⟩)
  intro k p bs hp hs
  rw [sits_iff]
  intro i hi
  rw [hsame (p + i) ⟨k, p, bs, hp, hs, by omega, by omega⟩]
  exact sits_iff.mp hs i hi


theorem addr_unique {cfg : Config} {base p p' : Nat} {o : Int} (h : (machine cfg base).addr o p) (h' : (machine cfg base).addr o p') :
    p = p' := by
  have h1 := h.1
  have h2 := h'.1
  omega

theorem sum_unique {cfg : Config} {base : Nat} {a b c c' : Int} (h : (machine cfg base).sum a b c) (h' : (machine cfg base).sum a b c') :
    c = c' := by
  obtain ⟨h1, h2, h3, -⟩ := h
  obtain ⟨h4, h5, h6, -⟩ := h'
  omega

theorem intOf_unique {o : Operations} {op : Operator} {i j : Int} (h : IntOf o op i) (h' : IntOf o op j) : i = j := by
  rw [intOf_iff] at h h'
  obtain ⟨r, h⟩ := h
  obtain ⟨r', h'⟩ := h'
  rw [h] at h'
  simp only [Option.some.injEq, List.cons.injEq, Number.integer.injEq] at h'
  exact h'.1

theorem indexBytes_unique {ix : Index} {bs bs' : List UInt8} (h : IndexBytes ix bs) (h' : IndexBytes ix bs') : bs = bs' := by
  rcases h with ⟨rfl, rfl⟩ | ⟨h1, -, -, -, rfl⟩ <;> rcases h' with ⟨h2, rfl⟩ | ⟨h3, -, -, -, rfl⟩
  · rfl
  · exact absurd rfl h3
  · rw [h2] at h1; exact absurd rfl h1
  · rfl

theorem sits_unique {data bs bs' : List UInt8} {p : Nat} (h : Sits data p bs) (h' : Sits data p bs') (hl : bs.length = bs'.length) :
    bs = bs' := by
  unfold Sits at h h'
  rw [List.prefix_iff_eq_take.mp h, List.prefix_iff_eq_take.mp h', hl]

theorem index_sits_unique {data bs bs' : List UInt8} {p : Nat} {ix ix' : Index} (h : IndexBytes ix bs) (h' : IndexBytes ix' bs')
    (hs : Sits data p bs) (hs' : Sits data p bs') : bs = bs' := by
  have c : Config := ⟨false, false, 0, fun _ _ => 0⟩
  have h1 := (exact_indexBytes (tape c data) p ix _).mpr ⟨bs, h, hs, rfl⟩
  have h2 := (exact_indexBytes (tape c data) p ix' _).mpr ⟨bs', h', hs', rfl⟩
  rw [h1] at h2
  simp only [Prod.mk.injEq] at h2
  exact sits_unique hs hs' (by omega)

theorem laidOut_names {cfg : Config} {base : Nat} {fs : FontSet} {data : List UInt8} {p1 q1 q2 : Nat} {b1 : List UInt8}
    (ha : (machine cfg base).addr fs.header.headerSize.toNat p1) (i1 : IndexBytes fs.names b1)
    (g1 : (machine cfg base).addr fs.header.headerSize.toNat q1) (h : IndexFromTo data q1 fs.names q2) : q2 = p1 + b1.length := by
  obtain ⟨c, g2, -, rfl⟩ := h
  rw [addr_unique g1 ha, indexBytes_unique g2 i1]

theorem laidOut_private {A : Addressing} {data : List UInt8} {base : Nat} {fs : FontSet} (h : LaidOut A data base fs)
    {top : Operations} {r : PrivateRecord} (hp : PrivateOf fs top r) : PrivateAt A data top r := by
  obtain ⟨-, -, -, -, -, l4, hf⟩ := h
  rcases hp with ⟨i, g1, g2⟩ | ⟨c, i, g1, g2, g3⟩
  · obtain ⟨_, _, _, r', -, -, -, f4, -, -, -, f5⟩ := hf i top g1
    rw [g2, Option.some.injEq] at f4
    exact (f4 ▸ f5 : RecordAt _ _ _ _ (Record.characterNameKeyed r)).2
  · obtain ⟨j, g4⟩ := List.getElem?_of_mem g1
    have hj : j < fs.operations.length := by
      rw [← l4]
      exact (List.getElem?_eq_some_iff.mp g4).1
    obtain ⟨_, _, _, r', -, -, -, f4, -, -, -, f5⟩ := hf j _ (List.getElem?_eq_getElem hj)
    rw [g4, Option.some.injEq] at f4
    have f6 := (f4 ▸ f5 : RecordAt _ _ _ _ (Record.characterIDKeyed c)).2.2.2
    rw [List.forall₂_iff_get] at f6
    obtain ⟨k1, rfl⟩ := List.getElem?_eq_some_iff.mp g2
    obtain ⟨k2, rfl⟩ := List.getElem?_eq_some_iff.mp g3
    exact f6.2 i k1 k2

/-- The dictionaries of a font set in a file are where they are in a shorter one that holds it. -/
theorem meaning_of_laidOut {cfg : Config} {data data' : List UInt8} {base : Nat} {fs : FontSet}
    (hsub : ∀ p bs, Sits data' p bs → Sits data p bs) (h : LaidOut (machine cfg base) data' base fs) {p : Nat} {bs : List UInt8}
    (hp : Part (machine cfg base) data base fs .meaning p bs) (hs : Sits data p bs) : Sits data' p bs := by
  have h' := h
  obtain ⟨-, ⟨p1, p2, p3, p4, p5, ix, ha, ⟨b1, i1, s1, rfl⟩, ⟨b2, i2, s2, rfl⟩, -⟩, -, -, -, -, hf⟩ := h
  cases hp with
  | dictionaries g1 g2 g3 =>
    obtain rfl := laidOut_names ha i1 g1 g2
    rw [index_sits_unique g3 i2 hs (hsub _ _ s2)]; exact s2
  | @fontDictionaries i p o top c _ _ g1 g2 g3 g4 g5 =>
    obtain ⟨_, _, _, r, -, -, -, f1, -, -, -, f2⟩ := hf _ _ g1
    rw [g2, Option.some.injEq] at f1
    obtain ⟨-, -, ⟨o', q, dx, d1, d2, ⟨b, d3, d4⟩, -⟩, -⟩ := (f1 ▸ f2 : RecordAt _ _ _ _ (Record.characterIDKeyed c))
    obtain rfl := intOf_unique g3 d1
    obtain rfl := addr_unique g4 d2
    rw [index_sits_unique g5 d3 hs (hsub _ _ d4)]; exact d4
  | privateDictionary g1 g2 g3 g4 =>
    obtain ⟨size, offset, rest, q, chunk, c1, c2, c3, c4, -, -⟩ := laidOut_private h' g1
    rw [g2] at c1
    simp only [Option.some.injEq, List.cons.injEq, Number.integer.injEq] at c1
    obtain ⟨rfl, rfl, -⟩ := c1
    obtain rfl := addr_unique g3 c2
    rw [sits_unique hs (hsub _ _ c4) (by omega)]; exact c4

/-- If the dictionaries of a font set are at the same places in two files that hold it, then
so are all parts. -/
theorem parts_of_laidOut {cfg : Config} {data data' : List UInt8} {base : Nat} {fs : FontSet}
    (h : LaidOut (machine cfg base) data' base fs)
    (hdict : ∀ p bs, Part (machine cfg base) data base fs .meaning p bs → Sits data p bs → Sits data' p bs) {k : Kept} {p : Nat} {bs : List UInt8}
    (hp : Part (machine cfg base) data base fs k p bs) (hs : Sits data p bs) : Sits data' p bs := by
  have h' := h
  obtain ⟨h0, ⟨p1, p2, p3, p4, p5, ix, ha, ⟨b1, i1, s1, rfl⟩, ⟨b2, i2, s2, rfl⟩, ⟨b3, i3, s3, rfl⟩, ⟨b4, i4, s4, e4⟩, hd⟩, l1, l2, l3, l4, hf⟩ := h
  have hdicts : ∀ {q0 q1 q2 ix'}, (machine cfg base).addr fs.header.headerSize.toNat q0 → IndexFromTo data q0 fs.names q1 →
      IndexFromTo data q1 ix' q2 → q2 = p1 + b1.length + b2.length := by
    rintro q0 q1 q2 ix' g0 g1 ⟨c, g2, g3, rfl⟩
    have g4 := hdict _ _ (.dictionaries g0 g1 g2) g3
    obtain rfl := laidOut_names ha i1 g0 g1
    rw [index_sits_unique g2 i2 g4 s2]
  cases hp with
  | header => exact h0
  | names g1 g2 => rw [addr_unique g1 ha, indexBytes_unique g2 i1]; exact s1
  | dictionaries g1 g2 g3 => exact hdict _ _ (.dictionaries g1 g2 g3) hs
  | strings g1 g2 g3 g4 =>
    obtain rfl := hdicts g1 g2 g3
    rw [indexBytes_unique g4 i3]; exact s3
  | subroutines g1 g2 g3 g4 g5 =>
    obtain rfl := hdicts g1 g2 g3
    obtain ⟨c, g6, -, rfl⟩ := g4
    rw [indexBytes_unique g6 i3, indexBytes_unique g5 i4]; exact s4
  | characterStrings g1 g2 g3 g4 g5 =>
    obtain ⟨cs, _, _, _, f1, -, -, -, ⟨o, q, c1, c2, -, b, c4, c5⟩, -⟩ := hf _ _ g1
    rw [g2, Option.some.injEq] at f1
    subst f1
    obtain rfl := intOf_unique g3 c1
    rw [addr_unique g4 c2, indexBytes_unique g5 c4]; exact c5
  | characterSet g1 g2 g3 g4 g5 =>
    obtain ⟨_, s, _, _, -, f1, -, -, -, ⟨o, c1, c2⟩, -⟩ := hf _ _ g1
    rw [g2, Option.some.injEq] at f1
    subst f1
    obtain rfl := intOf_unique g3 c1
    rcases c2 with ⟨rfl, -⟩ | ⟨rfl, -⟩ | ⟨rfl, -⟩ | ⟨-, -, -, q, d1, -, -, d2⟩
    · simp at g4
    · simp at g4
    · simp at g4
    · rw [addr_unique g5 d1]; exact d2
  | encoding g1 g2 g3 g4 g5 =>
    obtain ⟨_, _, e, _, -, -, f1, -, -, -, ⟨o, c1, c2⟩, -⟩ := hf _ _ g1
    rw [g2, Option.some.injEq] at f1
    subst f1
    obtain rfl := intOf_unique g3 c1
    rcases c2 with ⟨rfl, -⟩ | ⟨rfl, -⟩ | ⟨-, -, q, d1, -, d2⟩
    · simp at g4
    · simp at g4
    · rw [addr_unique g5 d1]; exact d2
  | @select i p o top c g1 g2 g3 g4 =>
    obtain ⟨_, _, _, r, -, -, -, f1, -, -, -, f2⟩ := hf _ _ g1
    rw [g2, Option.some.injEq] at f1
    obtain ⟨-, ⟨o', q, d1, d2, -, d3⟩, -⟩ := (f1 ▸ f2 : RecordAt _ _ _ _ (Record.characterIDKeyed c))
    obtain rfl := intOf_unique g3 d1
    rw [addr_unique g4 d2]; exact d3
  | fontDictionaries g1 g2 g3 g4 g5 => exact hdict _ _ (.fontDictionaries g1 g2 g3 g4 g5) hs
  | privateDictionary g1 g2 g3 g4 => exact hdict _ _ (.privateDictionary g1 g2 g3 g4) hs
  | localSubroutines g1 g2 g3 g4 g5 g6 =>
    obtain ⟨size, offset, rest, q, chunk, c1, -, -, -, -, ⟨o, s, p', k1, k2, k3, b, k4, k5⟩ | ⟨k1, -⟩⟩ := laidOut_private h' g1
    · rw [g2] at c1
      simp only [Option.some.injEq, List.cons.injEq, Number.integer.injEq] at c1
      obtain ⟨rfl, rfl, -⟩ := c1
      obtain rfl := intOf_unique g3 k1
      obtain rfl := sum_unique g4 k2
      rw [addr_unique g5 k3, indexBytes_unique g6 k4]; exact k5
    · rw [intOf_iff] at g3
      rw [absent_iff] at k1
      obtain ⟨_, g3⟩ := g3
      rw [g3] at k1
      simp at k1

/-- **C78.**  Every one of these bytes is needed: a file that was cut short holds the same
font set if and only if none of them is cut off.  Otherwise reading fails with an end of
file (`C57_truncation`). -/
theorem C78_truncated (cfg : Config) (data : List UInt8) (hdata : data.length < 2 ^ 61)
    (base q n : Nat) (fs : FontSet) (h : FontSet.read (tape cfg data) base = (.ok fs, q)) :
    (∃ q', FontSet.read (tape cfg (data.take n)) base = (.ok fs, q')) ↔ ∀ i, Occupied (machine cfg base) data base fs i → i < n := by
  constructor
  · rintro ⟨q', h'⟩ i ⟨k, p, bs, hp, hs, h1, h2⟩
    have h3 := (C32_layout_iff cfg (data.take n) (by rw [List.length_take]; omega) base fs).mp ⟨q', h'⟩
    have hsub : ∀ p bs, Sits (data.take n) p bs → Sits data p bs := by
      intro p bs h
      unfold Sits at *
      rw [List.drop_take] at h
      exact h.trans (List.take_prefix _ _)
    have h4 := sits_iff.mp (parts_of_laidOut h3 (fun _ _ => meaning_of_laidOut hsub h3) hp hs) (i - p) (by omega)
    have h6 : bs[i - p]? = some (bs[i - p]'(by omega)) := List.getElem?_eq_getElem (by omega)
    rw [Nat.add_sub_cancel' h1, h6] at h4
    have h5 := (List.getElem?_eq_some_iff.mp h4).1
    rw [List.length_take] at h5
    omega
  · intro h'
    refine C78_elsewhere cfg data _ hdata (by rw [List.length_take]; omega) base q fs h fun i hi => ?_
    rw [List.getElem?_take_of_lt (h' i hi)]

/-- **C78.**  A font set determines these bytes, apart from how the dictionaries are written:
two files that hold the same font set and have the same dictionaries at the same places
have the same bytes wherever a part is.  So no such byte can be changed, outside the
dictionaries, without changing what is read or making it fail. -/
theorem C78_determined (cfg : Config) (data data' : List UInt8) (hdata' : data'.length < 2 ^ 61)
    (base q' : Nat) (fs : FontSet) (h' : FontSet.read (tape cfg data') base = (.ok fs, q'))
    (hsame : ∀ p bs, Part (machine cfg base) data base fs .meaning p bs → Sits data p bs → Sits data' p bs)
    (i : Nat) (hi : Occupied (machine cfg base) data base fs i) : data'[i]? = data[i]? := by
  obtain ⟨k, p, bs, hp, hs, h1, h2⟩ := hi
  have h3 := (C32_layout_iff cfg data' hdata' base fs).mp ⟨q', h'⟩
  have h4 := sits_iff.mp (parts_of_laidOut h3 hsame hp hs) (i - p) (by omega)
  have h5 := sits_iff.mp hs (i - p) (by omega)
  rw [Nat.add_sub_cancel' h1] at h4 h5
  rw [h4, h5]

/-! ## An example -/

/-- The font set of `sampleFont` with a byte between its header and its names. -/
def gappedFont (x : UInt8) : List UInt8 :=
  [1, 0, 5, 1, x] ++ [0, 1, 1, 1, 2, 65] ++ [0, 1, 1, 1, 6, 164, 17, 141, 170, 18] ++ [0, 0] ++ [0, 0] ++
  [0, 1, 1, 1, 2, 14] ++ [141, 19] ++ [0, 1, 1, 1, 2, 11]

/-- That byte belongs to no part, so it does not matter; the one before belongs to one. -/
example : ∃ fs q, FontSet.read (tape checkedBuild (gappedFont 0)) 0 = (.ok fs, q) ∧ fs.records.length = 1 ∧
    Occupied (machine checkedBuild 0) (gappedFont 0) 0 fs 3 ∧ ¬ Occupied (machine checkedBuild 0) (gappedFont 0) 0 fs 4 ∧
    ∀ x, ∃ q', FontSet.read (tape checkedBuild (gappedFont x)) 0 = (.ok fs, q') := by
  obtain ⟨fs, q, h, h1, hh, g1, g2, g3, g4, g5, g6⟩ : ∃ fs q, FontSet.read (tape checkedBuild (gappedFont 0)) 0 = (.ok fs, q) ∧
      fs.records.length = 1 ∧ fs.header = ⟨1, 0, 5, 1⟩ ∧
      (fs.operations.map fun o => o.map .opPrivate) = [some [.integer 2, .integer 31]] ∧
      (fs.operations.map fun o => o.get .opCharStrings) = [some [.integer 25]] ∧
      (fs.operations.map fun o => o.get .opCharSet) = [some [.integer 0]] ∧
      (fs.operations.map fun o => o.get .opEncoding) = [some [.integer 0]] ∧
      (fs.records.map fun | .characterIDKeyed _ => none | .characterNameKeyed r => some (r.operations.get .opSubrs)) =
        [some (some [.integer 2])] ∧ (fs.records.all fun | .characterIDKeyed _ => false | .characterNameKeyed _ => true) :=
    ⟨_, _, rfl, rfl, rfl, rfl, rfl, rfl, rfl, rfl, rfl⟩
  have hint : ∀ {op : Operator} {i : Nat} {top : Operations} {o k : Int}, (fs.operations.map fun o => o.get op) = [some [.integer k]] →
      fs.operations[i]? = some top → IntOf top op o → o = k := by
    intro op i top o k h1 h2 h3
    obtain ⟨rest, h3⟩ := intOf_iff.mp h3
    have := List.mem_map_of_mem (f := fun o => Operations.get o op) (List.mem_of_getElem? h2)
    rw [h1, List.mem_singleton, h3] at this
    simp only [Option.some.injEq, List.cons.injEq, Number.integer.injEq] at this
    exact this.1
  have hcid : ∀ {c}, Record.characterIDKeyed c ∉ fs.records := fun hc => absurd (List.all_eq_true.mp g6 _ hc) (by simp)
  have hpriv : ∀ {top r size offset rest}, PrivateOf fs top r →
      top.map .opPrivate = some (.integer size :: .integer offset :: rest) → offset = 31 ∧
      r.operations.get .opSubrs = some [.integer 2] := by
    rintro top r size offset rest (⟨i, k1, k2⟩ | ⟨c, i, k1, -⟩) hp
    · have e1 := List.mem_map_of_mem (f := fun o => Operations.map o .opPrivate) (List.mem_of_getElem? k1)
      rw [g1, List.mem_singleton, hp] at e1
      simp only [Option.some.injEq, List.cons.injEq, Number.integer.injEq] at e1
      have e2 := List.mem_map_of_mem (f := fun r : Record => match r with
        | .characterIDKeyed _ => none
        | .characterNameKeyed r => some (r.operations.get .opSubrs)) (List.mem_of_getElem? k2)
      rw [g5, List.mem_singleton, Option.some.injEq] at e2
      exact ⟨e1.2.1, e2⟩
    · exact absurd k1 hcid
  have hfree : ¬ Occupied (machine checkedBuild 0) (gappedFont 0) 0 fs 4 := by
    rintro ⟨k, p, bs, hp, hs, k1, k2⟩
    have haddr : ∀ {o : Int} {p : Nat}, 5 ≤ o → o < 100 → (machine checkedBuild 0).addr o p → 5 ≤ p := by
      rintro o p k1 k2 ⟨k3, -, -⟩
      omega
    have hhead : ∀ {p : Nat}, (machine checkedBuild 0).addr fs.header.headerSize.toNat p → 5 ≤ p := by
      intro p
      rw [hh]
      exact haddr (by decide) (by decide)
    have hft : ∀ {p q ix}, IndexFromTo (gappedFont 0) p ix q → p ≤ q := by
      rintro p q ix ⟨_, -, -, rfl⟩
      omega
    suffices k = .bytes ∧ bs.length = 4 ∧ p = 0 ∨ 5 ≤ p by omega
    cases hp with
    | header => exact .inl ⟨rfl, rfl, rfl⟩
    | names k1 k2 => exact .inr (hhead k1)
    | dictionaries k1 k2 k3 => exact .inr ((hhead k1).trans (hft k2))
    | strings k1 k2 k3 k4 => exact .inr ((hhead k1).trans ((hft k2).trans (hft k3)))
    | subroutines k1 k2 k3 k4 k5 => exact .inr ((hhead k1).trans ((hft k2).trans ((hft k3).trans (hft k4))))
    | characterStrings k1 k2 k3 k4 k5 => exact .inr (haddr (by rw [hint g2 k1 k3]; decide) (by rw [hint g2 k1 k3]; decide) k4)
    | characterSet m1 m2 m3 m4 m5 => rw [hint g3 m1 m3] at m4; exact absurd m4 (by decide)
    | encoding m1 m2 m3 m4 m5 => rw [hint g4 m1 m3] at m4; exact absurd m4 (by decide)
    | select m1 m2 => exact absurd (List.mem_of_getElem? m2) hcid
    | fontDictionaries k1 k2 => exact absurd (List.mem_of_getElem? k2) hcid
    | privateDictionary k1 k2 k3 => exact .inr (haddr (by rw [(hpriv k1 k2).1]; decide) (by rw [(hpriv k1 k2).1]; decide) k3)
    | localSubroutines k1 k2 k3 k4 k5 =>
      obtain ⟨e1, e2⟩ := hpriv k1 k2
      obtain ⟨_, e3⟩ := intOf_iff.mp k3
      rw [e2] at e3
      simp only [Option.some.injEq, List.cons.injEq, Number.integer.injEq] at e3
      have := k4.2.2.2 rfl
      exact .inr (haddr (by omega) (by omega) k5)
  refine ⟨fs, q, h, h1, ⟨.bytes, 0, _, .header, ?_, by decide, ?_⟩, hfree, fun x => ?_⟩
  · rw [hh]; exact ⟨_, rfl⟩
  · rw [hh]; decide
  · refine C78_elsewhere checkedBuild (gappedFont 0) (gappedFont x) (by decide) (by simp [gappedFont]) 0 q fs h fun i hi => ?_
    by_cases h4 : i = 4
    · exact absurd (h4 ▸ hi) hfree
    · unfold gappedFont
      rcases i with _ | _ | _ | _ | _ | i
      · rfl
      · rfl
      · rfl
      · rfl
      · exact absurd rfl h4
      · rfl

end PS
