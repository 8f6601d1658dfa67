import Verif.Spec.Rewrite
import Verif.Lemmas.Writer
import Verif.Props.Programs
/-!
# Lemmas: writing what was read
-/
namespace PS
open Spec

/-! ## Dictionaries -/

theorem seq_filter {α : Type} {R : α → List UInt8 → Prop} (p : α → Bool) {as : List α} {bs : List UInt8} (h : Seq R as bs) :
    ∃ bs', Seq R (as.filter p) bs' ∧ bs'.length ≤ bs.length := by
  induction h with
  | nil => exact ⟨[], .nil, Nat.le_refl _⟩
  | @cons a b as bs h _ ih =>
    obtain ⟨bs', h1, h2⟩ := ih
    by_cases hp : p a
    · exact ⟨b ++ bs', by rw [List.filter_cons_of_pos hp]; exact .cons h h1, by simp only [List.length_append]; omega⟩
    · exact ⟨bs', by rw [List.filter_cons_of_neg hp]; exact h1, by simp only [List.length_append]; omega⟩

theorem seq_mem_length {α : Type} {R : α → List UInt8 → Prop} {as : List α} {bs : List UInt8} (h : Seq R as bs) {a : α} (ha : a ∈ as) :
    ∃ b, R a b ∧ b.length ≤ bs.length := by
  induction h with
  | nil => simp at ha
  | @cons a' b as bs h _ ih =>
    rcases List.mem_cons.mp ha with rfl | ha
    · exact ⟨b, h, by simp⟩
    · obtain ⟨b', h1, h2⟩ := ih ha
      exact ⟨b', h1, by simp only [List.length_append]; omega⟩

theorem last_filter {ops : List (Operator × List Number)} {reserved : List Operator} {op : Operator} (h : op ∉ reserved)
    (ns : List Number) : Last (ops.filter fun x => x.1 ∉ reserved) op ns ↔ Last ops op ns := by
  induction ops using List.reverseRecOn with
  | nil => rfl
  | append_singleton l x ih =>
    have one : ∀ {l : List (Operator × List Number)} {x : Operator × List Number}, x.1 ≠ op →
        (Last (l ++ [x]) op ns ↔ Last l op ns) := fun {l x} hx =>
      last_append_of_not_mem (by simpa using hx) ns
    have hit : ∀ {l : List (Operator × List Number)} {x : Operator × List Number}, x.1 = op →
        (Last (l ++ [x]) op ns ↔ x.2 = ns) := by
      intro l x hx
      constructor
      · rintro ⟨b, a, h1, h2⟩
        rcases List.eq_nil_or_concat a with rfl | ⟨a', y, rfl⟩
        · have := List.append_inj_right' h1 rfl
          simp at this
          rw [this]
        · rw [List.concat_eq_append, ← List.cons_append, ← List.append_assoc] at h1
          have := List.append_inj_right' h1 rfl
          simp at this
          exact absurd hx (this ▸ h2 y (by simp))
      · rintro rfl
        exact ⟨l, [], by rw [← hx], by simp⟩
    rw [List.filter_append]
    by_cases hx : x.1 = op
    · have : x.1 ∉ reserved := hx ▸ h
      rw [List.filter_cons_of_pos (by simpa using this), List.filter_nil, hit hx, hit hx]
    · by_cases hr : x.1 ∈ reserved
      · rw [List.filter_cons_of_neg (by simpa using hr), List.filter_nil, List.append_nil, ih, one hx]
      · rw [List.filter_cons_of_pos (by simpa using hr), List.filter_nil, one hx, one hx, ih]

theorem entries_of {chunk : List UInt8} {o : Operations} (h : DictOf chunk o) (reserved : List Operator) :
    ∃ e : Entries, e.Valid reserved ∧ e.In reserved o ∧ e.bytes.length ≤ chunk.length := by
  obtain ⟨ops, bs, rest, h1, rfl, -, h2⟩ := h
  obtain ⟨bs', h3, h4⟩ := seq_filter (fun x : Operator × List Number => x.1 ∉ reserved) h1
  refine ⟨⟨_, bs'⟩, ⟨h3, fun x hx => by simpa using (List.mem_filter.mp hx).2⟩, ?_, by simp only [List.length_append]; omega⟩
  intro op hop ns
  rw [h2, last_filter hop]

/-! ## Sizes -/

theorem fits_of {w : Nat} {items : List (List UInt8)} (h : IndexFits w items) : IndexFits 4 items :=
  ⟨h.1, by omega, by omega, Nat.lt_of_lt_of_le h.2.2.2 (Nat.pow_le_pow_right (by omega) h.2.2.1)⟩

theorem index_fits {data : List UInt8} {p : Nat} {ix : Index} (h : IndexAt data p ix) :
    IndexFits 4 ix.data ∧ (encodeIndex 4 ix.data).length ≤ 4 * data.length := by
  obtain ⟨bs, h, hs⟩ := h
  have hl := sits_length hs
  rcases h with ⟨rfl, rfl⟩ | ⟨h1, h2, -, -, rfl⟩
  · have e : noObjects.data = [] := rfl
    rw [e]
    refine ⟨⟨by simp, by omega, by omega, by simp⟩, ?_⟩
    rw [be_length] at hl
    rw [encodeIndex_length]
    simp
    omega
  · refine ⟨fits_of h2, ?_⟩
    have hne : ¬ ix.data.length = 0 := by simpa using h1
    rw [encodeIndex_length, if_neg hne] at hl ⊢
    have : 1 * (ix.data.length + 1) ≤ ix.offsetSize.toNat * (ix.data.length + 1) := Nat.mul_le_mul_right _ h2.2.1
    omega

/-! ## Private dictionaries -/

theorem private_of {A : Addressing} {data : List UInt8} {top : Operations} {r : PrivateRecord} (h : PrivateAt A data top r) :
    ∃ p : PrivateDef, p.Valid ∧ p.In r ∧ p.blob.length ≤ 8 * (data.length + 1) := by
  obtain ⟨_, _, _, _, chunk, _, _, _, hs, hd, h⟩ := h
  obtain ⟨e, h1, h2, h3⟩ := entries_of hd [.opSubrs]
  have hl := sits_length hs
  have hix : IndexFits 4 r.subroutines.data ∧ (encodeIndex 4 r.subroutines.data).length ≤ 4 * data.length + 2 := by
    rcases h with ⟨_, _, _, _, _, _, h⟩ | ⟨-, h⟩
    · have := index_fits h
      exact ⟨this.1, by omega⟩
    · rw [h]
      have e : noObjects.data = [] := rfl
      rw [e]
      exact ⟨⟨by simp, by omega, by omega, by simp⟩, by simp [encodeIndex, be_length]⟩
  refine ⟨⟨e, r.subroutines.data⟩, ⟨h1, hix.1⟩, ⟨h2, rfl⟩, ?_⟩
  unfold PrivateDef.blob PrivateDef.dict
  have h6 : (opCode .opSubrs).length = 1 := rfl
  simp only [List.length_append, encodeOps_length, List.map_cons, List.map_nil, List.sum_cons, List.sum_nil, long_length, h6]
  omega

/-! ## Records -/

theorem dicts_of {A : Addressing} {data : List UInt8} {ops : List Operations} {rs : List PrivateRecord}
    (h1 : ∀ o ∈ ops, ∃ chunk, DictOf chunk o ∧ chunk.length ≤ data.length) (h2 : List.Forall₂ (PrivateAt A data) ops rs) :
    ∃ dicts : List FontDictDef, (∀ d ∈ dicts, d.entries.Valid [.opPrivate] ∧ d.priv.Valid ∧
        d.entries.bytes.length ≤ data.length ∧ d.priv.blob.length ≤ 8 * (data.length + 1)) ∧
      List.Forall₂ (fun (d : FontDictDef) o => d.entries.In [.opPrivate] o) dicts ops ∧
      List.Forall₂ (fun (d : FontDictDef) r => d.priv.In r) dicts rs := by
  induction h2 with
  | nil => exact ⟨[], by simp, .nil, .nil⟩
  | @cons o r ops rs h _ ih =>
    obtain ⟨dicts, g1, g2, g3⟩ := ih fun o ho => h1 o (by simp [ho])
    obtain ⟨chunk, hc, hl⟩ := h1 o (by simp)
    obtain ⟨e, e1, e2, e3⟩ := entries_of hc [.opPrivate]
    obtain ⟨p, p1, p2, p3⟩ := private_of h
    refine ⟨⟨e, p⟩ :: dicts, ?_, .cons e2 g2, .cons p2 g3⟩
    intro d hd
    rcases List.mem_cons.mp hd with rfl | hd
    · exact ⟨e1, p1, Nat.le_trans e3 hl, p3⟩
    · exact g1 d hd

theorem operand_of {chunk : List UInt8} {o : Operations} (h : DictOf chunk o) {op : Operator} {ns : List Number}
    (hn : o.map op = some ns) {n : Number} (hm : n ∈ ns) : ∃ bs, Operand n bs ∧ bs.length ≤ chunk.length := by
  obtain ⟨ops, bs, rest, h1, rfl, -, h2⟩ := h
  obtain ⟨b, a, rfl, -⟩ := (h2 op ns).mp hn
  obtain ⟨b', ⟨c, h3, rfl⟩, h4⟩ := seq_mem_length h1 (a := (op, ns)) (by simp)
  obtain ⟨b'', h5, h6⟩ := seq_mem_length h3 hm
  exact ⟨b'', h5, by simp only [List.length_append] at h4 ⊢; omega⟩

theorem sum_le {α : Type} {f : α → Nat} {l : List α} {c : Nat} (h : ∀ a ∈ l, f a ≤ c) : (l.map f).sum ≤ l.length * c := by
  induction l with
  | nil => simp
  | cons a l ih =>
    have h1 := h a (by simp)
    have h2 := ih fun b hb => h b (by simp [hb])
    rw [List.map_cons, List.sum_cons, List.length_cons, Nat.succ_mul]
    omega

theorem place_length {α : Type} (size : α → Nat) (start : Nat) (xs : List α) : (place size start xs).length = xs.length := by
  rw [← List.length_map (f := Prod.fst), place_fst]

theorem array_le {dicts : List FontDictDef} {N : Nat} (h : ∀ d ∈ dicts, d.entries.bytes.length ≤ N) (o : Nat) :
    (Keying.array dicts o).length ≤ 9 + dicts.length * (N + 15) := by
  unfold Keying.array
  rw [encodeIndex_length]
  have h1 : ((place (fun d : FontDictDef => d.priv.blob.length) o dicts).map fun x => x.1.dict x.2).length = dicts.length := by
    rw [List.length_map, place_length]
  have h2 : (((place (fun d : FontDictDef => d.priv.blob.length) o dicts).map fun x => x.1.dict x.2).map List.length).sum ≤
      dicts.length * (N + 11) := by
    rw [← place_length (fun d : FontDictDef => d.priv.blob.length) o dicts, List.map_map]
    refine sum_le fun x hx => ?_
    have := h x.1 (sub_of_mem_place (show (x.1, x.2) ∈ _ from hx))
    have h6 : (opCode .opPrivate).length = 1 := rfl
    simp only [Function.comp, FontDictDef.dict, List.length_append, encodeOps_length, List.map_cons, List.map_nil,
      List.sum_cons, List.sum_nil, long_length, h6]
    omega
  rw [h1]
  split
  · omega
  · have : dicts.length * (N + 15) = dicts.length * (N + 11) + dicts.length * 4 := by ring
    omega

theorem keying_of {A : Addressing} {data chunk : List UInt8} {top : Operations} (htop : DictOf chunk top)
    (hchunk : chunk.length ≤ data.length) {glyphs : Nat} {r : Record} (h : RecordAt A data top glyphs r) :
    ∃ k : Keying, k.Valid glyphs ∧ k.In r ∧ (∀ o, (k.blob o).length ≤ (data.length + 1) * (10 + 24 * privates r)) ∧
      ∀ o, (encodeOps (k.ops o)).length ≤ data.length + 26 := by
  cases r with
  | characterNameKeyed r =>
    obtain ⟨p, h1, h2, h3⟩ := private_of h.2
    refine ⟨.names p, h1, h2, fun o => ?_, fun o => ?_⟩
    · show p.blob.length ≤ (data.length + 1) * (10 + 24 * 1)
      omega
    · have h6 : (opCode .opPrivate).length = 1 := rfl
      simp only [Keying.ops, encodeOps_length, List.map_cons, List.map_nil, List.sum_cons, List.sum_nil, long_length, h6]
      omega
  | characterIDKeyed r =>
    obtain ⟨⟨a, b, h1, -, -⟩, ⟨_, _, -, -, h2, h3⟩, ⟨_, _, ix, -, -, h4, h5⟩, h6⟩ := h
    have hops : ∀ o ∈ r.operations, ∃ chunk, DictOf chunk o ∧ chunk.length ≤ data.length := by
      intro o ho
      obtain ⟨c, hc, hd⟩ := forall₂_right_mem h5 ho
      exact ⟨c, hd, (index_small h4).2 c hc⟩
    obtain ⟨dicts, g1, g2, g3⟩ := dicts_of hops h6
    obtain ⟨sb, s1, s2⟩ := operand_of htop h1 (n := r.supplement) (by simp)
    have hsel := sits_length h3
    have hlen : dicts.length = r.records.length := g3.length_eq
    have hn : dicts.length ≤ 65535 := by
      rw [g2.length_eq, ← h5.length_eq]
      exact (index_small h4).1
    refine ⟨.identifiers r.registry.toNat r.ordering.toNat (r.supplement, sb) r.encoding dicts,
      ⟨r.registry.toNat_lt, r.ordering.toNat_lt, s1, h2, hn, fun d hd => ⟨(g1 d hd).1, (g1 d hd).2.1⟩⟩,
      ⟨rfl, rfl, rfl, rfl, g2, g3⟩, fun o => ?_, fun o => ?_⟩
    · simp only [Keying.blob, List.length_append, List.length_flatten, List.map_map]
      have k1 := array_le (N := data.length) (dicts := dicts) (fun d hd => (g1 d hd).2.2.1)
        (o + (encodeSelect r.encoding).length + (Keying.array dicts 0).length)
      have k2 : (dicts.map (List.length ∘ fun d => d.priv.blob)).sum ≤ dicts.length * (8 * (data.length + 1)) :=
        sum_le fun d hd => (g1 d hd).2.2.2
      show _ ≤ (data.length + 1) * (10 + 24 * r.records.length)
      rw [← hlen]
      generalize dicts.length = K at *
      generalize data.length = N at *
      have e1 : (N + 1) * (10 + 24 * K) = 10 * N + 10 + 24 * (K * N) + 24 * K := by ring
      have e2 : K * (N + 15) = K * N + 15 * K := by ring
      have e3 : K * (8 * (N + 1)) = 8 * (K * N) + 8 * K := by ring
      omega
    · have e1 : (opCode .opROS).length = 2 := rfl
      have e2 : (opCode .opFDSelect).length = 2 := rfl
      have e3 : (opCode .opFDArray).length = 2 := rfl
      simp only [Keying.ops, encodeOps_length, List.map_cons, List.map_nil, List.sum_cons, List.sum_nil, long_length, e1, e2, e3]
      omega

/-! ## Fonts -/

theorem font_of {A : Addressing} {data chunk : List UInt8} {top : Operations} (htop : DictOf chunk top)
    (hchunk : chunk.length ≤ data.length) {cs : Index} {s : CharacterSet} {e : Encoding} {r : Record}
    (h : FontAt A data top cs s e r) :
    ∃ f : FontDef, f.Valid ∧ f.entries.In FontDef.reserved top ∧ cs.data = f.codes ∧ f.set = s ∧ f.encoding = e ∧
      f.keying.In r ∧ (∀ o, (f.blob o).length ≤ (data.length + 1) * (20 + 24 * privates r)) ∧
      ∀ o, (f.dict o).length ≤ 50 * (data.length + 1) := by
  obtain ⟨⟨_, _, -, -, -, hcs⟩, ⟨_, -, hset⟩, ⟨_, -, henc⟩, hrec⟩ := h
  obtain ⟨en, e1, e2, e3⟩ := entries_of htop FontDef.reserved
  obtain ⟨k, k1, k2, k3, k4⟩ := keying_of htop hchunk hrec
  obtain ⟨i1, i2⟩ := index_fits hcs
  have hset' : ((s = .isoAdobe ∨ s = .expert ∨ s = .expertSubset) ∨ (Custom s ∧ 1 + covered s = cs.data.length)) ∧
      (encodeCharacterSet s).length ≤ data.length := by
    rcases hset with ⟨-, rfl⟩ | ⟨-, rfl⟩ | ⟨-, rfl⟩ | ⟨-, -, -, p, -, h1, h2, h3⟩
    · exact ⟨.inl (.inl rfl), by simp [encodeCharacterSet]⟩
    · exact ⟨.inl (.inr (.inl rfl)), by simp [encodeCharacterSet]⟩
    · exact ⟨.inl (.inr (.inr rfl)), by simp [encodeCharacterSet]⟩
    · exact ⟨.inr ⟨h1, h2⟩, sits_length h3⟩
  have henc' : ((e = .standard ∨ e = .expert) ∨ Encodable e) ∧ (encodeEncoding e).length ≤ data.length := by
    rcases henc with ⟨-, rfl⟩ | ⟨-, rfl⟩ | ⟨-, -, p, -, h1, h2⟩
    · exact ⟨.inl (.inl rfl), by simp [encodeEncoding]⟩
    · exact ⟨.inl (.inr rfl), by simp [encodeEncoding]⟩
    · exact ⟨.inr h1, sits_length h2⟩
  refine ⟨⟨en, cs.data, s, e, k⟩, ⟨e1, i1, hset'.1, henc'.1, k1⟩, e2, rfl, rfl, rfl, k2, fun o => ?_, fun o => ?_⟩
  · unfold FontDef.blob
    simp only [List.length_append]
    have := k3 (FontDef.recordAt ⟨en, cs.data, s, e, k⟩ o)
    have e4 : (data.length + 1) * (20 + 24 * privates r) = (data.length + 1) * (10 + 24 * privates r) + 10 * (data.length + 1) := by
      ring
    have := hset'.2
    have := henc'.2
    omega
  · unfold FontDef.dict FontDef.ops
    have e4 : encodeOps ([(Operator.opCharSet, [long (FontDef.setOffset ⟨en, cs.data, s, e, k⟩ o)]),
        (Operator.opEncoding, [long (FontDef.encodingOffset ⟨en, cs.data, s, e, k⟩ o)]),
        (Operator.opCharStrings, [long (FontDef.codesAt ⟨en, cs.data, s, e, k⟩ o)])] ++
        k.ops (FontDef.recordAt ⟨en, cs.data, s, e, k⟩ o)) =
      encodeOps [(Operator.opCharSet, [long (FontDef.setOffset ⟨en, cs.data, s, e, k⟩ o)]),
        (Operator.opEncoding, [long (FontDef.encodingOffset ⟨en, cs.data, s, e, k⟩ o)]),
        (Operator.opCharStrings, [long (FontDef.codesAt ⟨en, cs.data, s, e, k⟩ o)])] ++
        encodeOps (k.ops (FontDef.recordAt ⟨en, cs.data, s, e, k⟩ o)) := by
      unfold encodeOps; rw [List.flatMap_append]
    have e5 := k4 (FontDef.recordAt ⟨en, cs.data, s, e, k⟩ o)
    have o1 : (opCode .opCharSet).length = 1 := rfl
    have o2 : (opCode .opEncoding).length = 1 := rfl
    have o3 : (opCode .opCharStrings).length = 1 := rfl
    rw [List.length_append, e4, List.length_append, encodeOps_length [_, _, _]]
    simp only [List.map_cons, List.map_nil, List.sum_cons, List.sum_nil, long_length, o1, o2, o3]
    omega

theorem fonts_of {A : Addressing} {data : List UInt8} : ∀ {tops : List Operations} {css : List Index} {ss : List CharacterSet}
    {es : List Encoding} {rs : List Record}, (∀ o ∈ tops, ∃ chunk, DictOf chunk o ∧ chunk.length ≤ data.length) →
    css.length = tops.length → ss.length = tops.length → es.length = tops.length → rs.length = tops.length →
    (∀ (i : Nat) (top : Operations), tops[i]? = some top → ∃ cs s e r, css[i]? = some cs ∧ ss[i]? = some s ∧ es[i]? = some e ∧
      rs[i]? = some r ∧ FontAt A data top cs s e r) →
    ∃ fonts : List FontDef, (∀ f ∈ fonts, f.Valid ∧ ∀ o, (f.dict o).length ≤ 50 * (data.length + 1)) ∧
      (fonts.map fun f => (f.blob 0).length).sum ≤ (data.length + 1) * (20 * tops.length + 24 * (rs.map privates).sum) ∧
      List.Forall₂ (fun f o => f.entries.In FontDef.reserved o) fonts tops ∧
      List.Forall₂ (fun f cs => cs.data = f.codes) fonts css ∧
      ss = fonts.map FontDef.set ∧ es = fonts.map FontDef.encoding ∧
      List.Forall₂ (fun f r => f.keying.In r) fonts rs := by
  intro tops
  induction tops with
  | nil =>
    intro css ss es rs _ h1 h2 h3 h4 _
    simp only [List.length_nil, List.length_eq_zero_iff] at h1 h2 h3 h4
    subst h1 h2 h3 h4
    exact ⟨[], by simp, by simp, .nil, .nil, rfl, rfl, .nil⟩
  | cons top tops ih =>
    intro css ss es rs hd h1 h2 h3 h4 h
    obtain ⟨cs, s, e, r, g1, g2, g3, g4, hf⟩ := h 0 top rfl
    cases css with
    | nil => simp at g1
    | cons cs' css =>
    cases ss with
    | nil => simp at g2
    | cons s' ss =>
    cases es with
    | nil => simp at g3
    | cons e' es =>
    cases rs with
    | nil => simp at g4
    | cons r' rs =>
    simp only [List.getElem?_cons_zero, Option.some.injEq] at g1 g2 g3 g4
    subst g1 g2 g3 g4
    simp only [List.length_cons, Nat.add_right_cancel_iff] at h1 h2 h3 h4
    obtain ⟨fonts, f1, f2, f3, f4, f5, f6, f7⟩ := ih (fun o ho => hd o (by simp [ho])) h1 h2 h3 h4
      (fun i t ht => by simpa using h (i + 1) t (by simpa using ht))
    obtain ⟨chunk, hc, hl⟩ := hd top (by simp)
    obtain ⟨f, w1, w2, w3, w4, w5, w6, w7, w8⟩ := font_of hc hl hf
    refine ⟨f :: fonts, ?_, ?_, .cons w2 f3, .cons w3 f4, ?_, ?_, .cons w6 f7⟩
    · intro f' hf'
      rcases List.mem_cons.mp hf' with rfl | hf'
      · exact ⟨w1, w8⟩
      · exact f1 f' hf'
    · simp only [List.map_cons, List.sum_cons, List.length_cons]
      have := w7 0
      calc _ ≤ (data.length + 1) * (20 + 24 * privates r') + (data.length + 1) * (20 * tops.length + 24 * (rs.map privates).sum) :=
            Nat.add_le_add this f2
        _ = _ := by ring
    · rw [List.map_cons, w4, f5]
    · rw [List.map_cons, w5, f6]

/-! ## Font sets -/

theorem def_of {A : Addressing} {data : List UInt8} {base : Nat} {fs : FontSet} (h : LaidOut A data base fs) :
    ∃ d : FontSetDef, d.In fs ∧ (d.write.length < 2 ^ 31 → d.Valid) ∧
      d.write.length ≤ 100 * (data.length + 1) * (1 + fs.operations.length + FontSet.privates fs) := by
  obtain ⟨-, ⟨_, _, _, _, _, ix, -, ⟨_, b1, s1, -⟩, ⟨_, b2, s2, -⟩, ⟨_, b3, s3, -⟩, ⟨_, b4, s4, -⟩, hd⟩, l1, l2, l3, l4, hf⟩ := h
  obtain ⟨i1, j1⟩ := index_fits ⟨_, b1, s1⟩
  obtain ⟨i3, j3⟩ := index_fits ⟨_, b3, s3⟩
  obtain ⟨i4, j4⟩ := index_fits ⟨_, b4, s4⟩
  have i2 := index_small ⟨_, b2, s2⟩
  have hops : ∀ o ∈ fs.operations, ∃ chunk, DictOf chunk o ∧ chunk.length ≤ data.length := by
    intro o ho
    obtain ⟨c, hc, hd'⟩ := forall₂_right_mem hd ho
    exact ⟨c, hd', i2.2 c hc⟩
  obtain ⟨fonts, f1, f2, f3, f4, f5, f6, f7⟩ := fonts_of hops l1 l2 l3 l4 hf
  have hn : fonts.length = fs.operations.length := f3.length_eq
  refine ⟨⟨fs.names.data, fs.strings.data, fs.subroutines.data, fonts⟩, ⟨rfl, rfl, rfl, f3, f4, f5, f6, f7⟩,
    fun hw => ⟨i1, i3, i4, ?_, fun f hf => (f1 f hf).1, hw⟩, ?_⟩
  · show fonts.length ≤ 65535
    rw [hn, ← hd.length_eq]
    exact i2.1
  · generalize hd' : (⟨fs.names.data, fs.strings.data, fs.subroutines.data, fonts⟩ : FontSetDef) = d
    have hfd : d.fonts = fonts := by rw [← hd']
    have e1 : (((d.placed d.start).map fun x => x.1.blob x.2).flatten).length ≤
        (data.length + 1) * (20 * fs.operations.length + 24 * FontSet.privates fs) := by
      rw [List.length_flatten, FontSetDef.placed, place_sizes (g := fun f : FontDef => (f.blob 0).length) _
        (fun f o => font_blob_length f o 0), hfd]
      exact f2
    have e2 : (encodeIndex 4 ((d.placed d.start).map fun x => x.1.dict x.2)).length ≤
        9 + fs.operations.length * (50 * (data.length + 1) + 4) := by
      rw [encodeIndex_length]
      have h1 : ((d.placed d.start).map fun x => x.1.dict x.2).length = fs.operations.length := by
        rw [List.length_map, FontSetDef.placed, place_length, hfd, hn]
      have h2 : (((d.placed d.start).map fun x => x.1.dict x.2).map List.length).sum ≤
          fs.operations.length * (50 * (data.length + 1)) := by
        have h3 : (d.placed d.start).length = fs.operations.length := by rw [FontSetDef.placed, place_length, hfd, hn]
        rw [List.map_map, ← h3]
        exact sum_le fun x hx => (f1 x.1 (hfd ▸ sub_of_mem_place (show (x.1, x.2) ∈ _ from hx))).2 _
      rw [h1]
      split
      · omega
      · have : fs.operations.length * (50 * (data.length + 1) + 4) = fs.operations.length * (50 * (data.length + 1)) +
          fs.operations.length * 4 := by ring
        omega
    unfold FontSetDef.write FontSetDef.head
    have n1 : d.names = fs.names.data := by rw [← hd']
    have n2 : d.strings = fs.strings.data := by rw [← hd']
    have n3 : d.globals = fs.subroutines.data := by rw [← hd']
    simp only [List.length_append, n1, n2, n3, List.length_cons, List.length_nil]
    generalize fs.operations.length = F at *
    generalize FontSet.privates fs = K at *
    generalize data.length = N at *
    have q1 : 100 * (N + 1) * (1 + F + K) = 100 * N + 100 + 100 * (N * F) + 100 * F + 100 * (N * K) + 100 * K := by ring
    have q2 : (N + 1) * (20 * F + 24 * K) = 20 * (N * F) + 20 * F + 24 * (N * K) + 24 * K := by ring
    have q3 : F * (50 * (N + 1) + 4) = 50 * (N * F) + 54 * F := by ring
    omega

end PS
