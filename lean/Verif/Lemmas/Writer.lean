import Verif.Spec.Ends
import Verif.Spec.Writer
import Verif.Props.FontSet
import Verif.Props.Index
/-!
# Lemmas: font sets that were written
-/
namespace PS
open Spec

theorem seq_append {α : Type} {R : α → List UInt8 → Prop} {as as' : List α} {bs bs' : List UInt8} (h : Seq R as bs)
    (h' : Seq R as' bs') : Seq R (as ++ as') (bs ++ bs') := by
  induction h with
  | nil => exact h'
  | cons h _ ih => rw [List.cons_append, List.append_assoc]; exact .cons h ih

/-! ## Sizes -/

theorem long_length (i : Int) : (long i).2.length = 5 := by simp [long, beSigned_length]

theorem encodeOps_length (ops : List (Operator × List Piece)) :
    (encodeOps ops).length = (ops.map fun x => (x.2.map fun p => p.2.length).sum + (opCode x.1).length).sum := by
  induction ops with
  | nil => rfl
  | cons x ops ih =>
    unfold encodeOps at ih ⊢
    rw [List.flatMap_cons, List.length_append, ih, List.length_append, List.length_flatMap]
    simp

theorem encodeIndex_length (w : Nat) (items : List (List UInt8)) :
    (encodeIndex w items).length = if items.length = 0 then 2 else 3 + w * (items.length + 1) + (items.map List.length).sum := by
  unfold encodeIndex
  by_cases h : items = []
  · subst h; simp
  · rw [if_neg h, if_neg (by simpa using h)]
    have : ∀ l : List Nat, (l.flatMap (be w)).length = w * l.length := by
      intro l
      induction l with
      | nil => rfl
      | cons a l ih => rw [List.flatMap_cons, List.length_append, ih, be_length, List.length_cons]; ring
    simp only [List.length_append, be_length, this, offsetsFrom_length, List.length_flatten]

theorem encodeIndex_sizes {w : Nat} {items items' : List (List UInt8)} (h : items.map List.length = items'.map List.length) :
    (encodeIndex w items).length = (encodeIndex w items').length := by
  have : items.length = items'.length := by simpa using congrArg List.length h
  rw [encodeIndex_length, encodeIndex_length, h, this]

theorem flatten_le_index {w : Nat} {items : List (List UInt8)} : items.flatten.length ≤ (encodeIndex w items).length := by
  rw [encodeIndex_length]
  split
  · rename_i h; simp [List.length_eq_zero_iff.mp h]
  · rw [List.length_flatten]; omega

theorem index_of {w : Nat} {items : List (List UInt8)} (h : IndexFits w items) :
    ∃ ix, ix.data = items ∧ IndexBytes ix (encodeIndex w items) := by
  obtain ⟨ix, -, h1, h2, h3, h4⟩ := C07_index_round_trip h ⟨false, false, 0, fun _ _ => 0⟩ [] []
  refine ⟨ix, h1, ?_⟩
  by_cases he : items = []
  · exact .inl ⟨h3 he, by simp [encodeIndex, he]⟩
  · obtain ⟨h5, h6⟩ := h4 he
    exact .inr ⟨by rw [h1]; exact he, by rw [h5, h1]; exact h, by rw [h2, h1], by rw [h6, h1], by rw [h5, h1]⟩

/-! ## Places -/

theorem place_fst {α : Type} (size : α → Nat) (start : Nat) (xs : List α) : (place size start xs).map Prod.fst = xs := by
  induction xs generalizing start with
  | nil => rfl
  | cons x xs ih => simp [place, ih]

theorem place_sizes {α : Type} (size : α → Nat) {f : α × Nat → List UInt8} {g : α → Nat} (h : ∀ x o, (f (x, o)).length = g x)
    (start : Nat) (xs : List α) : ((place size start xs).map f).map List.length = xs.map g := by
  induction xs generalizing start with
  | nil => rfl
  | cons x xs ih => simp [place, ih, h]

theorem place_sits {α : Type} {size : α → Nat} {f : α × Nat → List UInt8} (h : ∀ x o, (f (x, o)).length = size x)
    {data : List UInt8} {base start : Nat} {xs : List α}
    (hs : Sits data (base + start) ((place size start xs).map f).flatten) {x : α} {o : Nat} (hx : (x, o) ∈ place size start xs) :
    Sits data (base + o) (f (x, o)) ∧ start ≤ o ∧ o + size x ≤ start + ((place size start xs).map f).flatten.length := by
  induction xs generalizing start with
  | nil => simp [place] at hx
  | cons y ys ih =>
    rw [place, List.map_cons, List.flatten_cons] at hs ⊢
    rw [Transfer.sits_append] at hs
    rw [List.length_append, h]
    rcases List.mem_cons.mp hx with hx | hx
    · injection hx with h1 h2
      subst h1 h2
      exact ⟨hs.1, Nat.le_refl _, by omega⟩
    · have h2 := hs.2
      rw [h, Nat.add_assoc] at h2
      obtain ⟨g1, g2, g3⟩ := ih h2 hx
      exact ⟨g1, by omega, by omega⟩

/-! ## Dictionaries -/

/-- The operations of the writer. -/
def opsOf (ops : List (Operator × List Piece)) : List (Operator × List Number) := ops.map fun x => (x.1, x.2.map Prod.fst)

/-- Operands with their bytes. -/
def Fit (ops : List (Operator × List Piece)) : Prop := ∀ x ∈ ops, ∀ p ∈ x.2, Operand p.1 p.2

theorem operand_long {i : Int} (h : -2 ^ 31 ≤ i ∧ i < 2 ^ 31) : Operand (long i).1 (long i).2 :=
  DictInt.long i (by omega) (by omega)

theorem dict_ops {ops : List (Operator × List Piece)} (h : Fit ops) : Dict (opsOf ops) (encodeOps ops) := by
  induction ops with
  | nil => exact .nil
  | cons x ops ih =>
    have hx : ∀ l : List Piece, (∀ p ∈ l, Operand p.1 p.2) → Seq Operand (l.map Prod.fst) (l.flatMap Prod.snd) := by
      intro l hl
      induction l with
      | nil => exact .nil
      | cons i l ih' => exact .cons (hl i (by simp)) (ih' fun j hj => hl j (by simp [hj]))
    exact .cons ⟨_, hx _ (h x (by simp)), rfl⟩ (ih fun y hy => h y (by simp [hy]))

theorem last_append_of_not_mem {ops ops' : List (Operator × List Number)} {op : Operator} (h : ∀ x ∈ ops', x.1 ≠ op)
    (ns : List Number) : Last (ops ++ ops') op ns ↔ Last ops op ns := by
  rw [← insertAll_map, ← insertAll_map]
  have : ∀ (o : Operations), (insertAll o ops').map op = o.map op := by
    induction ops' with
    | nil => intro o; rfl
    | cons x l ih =>
      intro o
      show (insertAll (o.insert x.1 x.2) l).map op = _
      rw [ih fun y hy => h y (by simp [hy])]
      unfold Operations.insert
      exact if_neg fun he => h x (by simp) he.symm
  have h2 : insertAll .empty (ops ++ ops') = insertAll (insertAll .empty ops) ops' := by
    unfold insertAll; rw [List.foldl_append]
  rw [h2, this]

theorem dictOf_entries {e : Entries} {reserved : List Operator} (hv : e.Valid reserved) {ops : List (Operator × List Piece)}
    (hf : Fit ops) (hn : (ops.map Prod.fst).Nodup) (hr : ∀ x ∈ ops, x.1 ∈ reserved) :
    ∃ o, DictOf (e.bytes ++ encodeOps ops) o ∧ e.In reserved o ∧
      (∀ op is, (op, is) ∈ ops → o.map op = some (is.map Prod.fst)) ∧
      (∀ op ∈ reserved, op ∉ ops.map Prod.fst → o.map op = none) := by
  refine ⟨insertAll .empty (e.ops ++ opsOf ops), ⟨_, _, [], seq_append hv.1 (dict_ops hf), by simp,
    ⟨[], [], [], .nil, rfl, .inl rfl⟩, fun op ns => insertAll_map _ _ _⟩, ?_, ?_, ?_⟩
  · intro op ho ns
    rw [insertAll_map, last_append_of_not_mem]
    intro x hx he
    obtain ⟨y, hy, rfl⟩ := List.mem_map.mp hx
    exact ho (he ▸ hr y hy)
  · intro op is hm
    rw [insertAll_map]
    obtain ⟨b, a, rfl⟩ := List.append_of_mem hm
    refine ⟨e.ops ++ opsOf b, opsOf a, by simp [opsOf], ?_⟩
    intro x hx he
    obtain ⟨y, hy, rfl⟩ := List.mem_map.mp hx
    rw [List.map_append, List.map_cons, List.nodup_append] at hn
    exact (List.nodup_cons.mp hn.2.1).1 (List.mem_map.mpr ⟨y, hy, he⟩)
  · intro op ho hm
    rw [Option.eq_none_iff_forall_ne_some]
    intro ns h
    rw [insertAll_map] at h
    obtain ⟨b, a, h, -⟩ := h
    have : (op, ns) ∈ e.ops ++ opsOf ops := by rw [h]; simp
    rcases List.mem_append.mp this with h | h
    · exact hv.2 _ h ho
    · obtain ⟨y, hy, he⟩ := List.mem_map.mp h
      exact hm (by rw [← show y.1 = op from congrArg Prod.fst he]; exact List.mem_map_of_mem hy)

/-! ## Private dictionaries -/

theorem private_at {data : List UInt8} {base limit : Nat} {p : PrivateDef} (hv : p.Valid) {top : Operations} {offset : Nat}
    (ht : top.map .opPrivate = some [.integer (p.dict.length : Nat), .integer offset]) (hs : Sits data (base + offset) p.blob)
    (hsize : offset + p.blob.length < 2 ^ 31) (hlimit : base + 2 ^ 31 ≤ limit) :
    ∃ r, PrivateAt (relativeTo base limit) data top r ∧ p.In r ∧
      PrivateEnds (relativeTo base limit) data top r (base + offset + p.blob.length) := by
  have hlen : p.dict.length = p.entries.bytes.length + 6 := by
    unfold PrivateDef.dict; rw [List.length_append, encodeOps_length]; rfl
  have hb : p.blob.length = p.dict.length + (encodeIndex 4 p.locals).length := by
    unfold PrivateDef.blob; rw [List.length_append]
  obtain ⟨o, h1, h2, h3, -⟩ := dictOf_entries hv.1 (ops := [(.opSubrs, [long (p.entries.bytes.length + 6 : Nat)])])
    (by intro x hx i hi; simp at hx; subst hx; simp at hi; subst hi; exact operand_long (by omega)) (by simp) (by simp)
  obtain ⟨ix, h4, h5⟩ := index_of hv.2
  have h3 : o.map .opSubrs = some [.integer (p.entries.bytes.length + 6 : Nat)] := h3 .opSubrs _ (.head _)
  have hs := Transfer.sits_append.mp hs
  have hs2 : Sits data (base + (offset + p.dict.length)) (encodeIndex 4 p.locals) := by
    rw [← Nat.add_assoc]
    exact hs.2
  refine ⟨⟨o, ix⟩, ⟨_, offset, [], base + offset, p.dict, ht, ⟨by omega, by push_cast; rfl, by omega⟩, rfl, hs.1, h1,
    .inl ⟨_, _, base + (offset + p.dict.length), ⟨_, .inl h3⟩, ⟨rfl, by omega, by omega⟩,
      ⟨by omega, by push_cast; omega, by omega⟩, ⟨_, h5, hs2⟩⟩⟩, ⟨h2, h4⟩, _, offset, [], base + offset, ht,
      ⟨by omega, by push_cast; rfl, by omega⟩, .inl ⟨_, _, base + (offset + p.dict.length), ⟨_, .inl h3⟩, ⟨rfl, by omega, by omega⟩,
      ⟨by omega, by push_cast; omega, by omega⟩, ⟨_, h5, hs2, by omega⟩⟩⟩

/-! ## Sizes that do not depend on offsets -/

theorem fontDict_length (d : FontDictDef) (o o' : Nat) : (d.dict o).length = (d.dict o').length := by
  simp [FontDictDef.dict, encodeOps_length, long_length]

theorem array_length (dicts : List FontDictDef) (o o' : Nat) : (Keying.array dicts o).length = (Keying.array dicts o').length := by
  unfold Keying.array
  apply encodeIndex_sizes
  have := @place_sizes FontDictDef (fun d => d.priv.blob.length) (fun x => x.1.dict x.2) (fun d => (d.dict 0).length)
    (fun x o => fontDict_length _ _ _)
  rw [this, this]

theorem keying_blob_length (k : Keying) (o o' : Nat) : (k.blob o).length = (k.blob o').length := by
  cases k with
  | names p => rfl
  | identifiers a b c s ds =>
    simp only [Keying.blob, List.length_append]
    rw [array_length ds _ 0, array_length ds (o' + _ + _) 0]

theorem font_blob_length (f : FontDef) (o o' : Nat) : (f.blob o).length = (f.blob o').length := by
  unfold FontDef.blob
  simp only [List.length_append]
  rw [keying_blob_length f.keying (f.recordAt o) (f.recordAt o')]

theorem font_dict_length (f : FontDef) (o o' : Nat) : (f.dict o).length = (f.dict o').length := by
  unfold FontDef.dict FontDef.ops
  rw [List.length_append, List.length_append, encodeOps_length, encodeOps_length]
  cases f.keying <;> simp [Keying.ops, long_length]

theorem head_length (d : FontSetDef) (o o' : Nat) : (d.head o).length = (d.head o').length := by
  unfold FontSetDef.head
  have : ∀ o, (encodeIndex 4 ((d.placed o).map fun x => x.1.dict x.2)).length =
      (encodeIndex 4 ((d.placed 0).map fun x => x.1.dict x.2)).length := by
    intro o
    apply encodeIndex_sizes
    have := @place_sizes FontDef (fun f => (f.blob 0).length) (fun x => x.1.dict x.2) (fun f => (f.dict 0).length)
      (fun x o => font_dict_length _ _ _)
    unfold FontSetDef.placed
    rw [this, this]
  simp only [List.length_append]
  rw [this o, this o']

theorem place_concat {α : Type} (size : α → Nat) (start : Nat) (xs : List α) (x : α) :
    place size start (xs ++ [x]) = place size start xs ++ [(x, start + (xs.map size).sum)] := by
  induction xs generalizing start with
  | nil => simp [place]
  | cons y ys ih => simp [place, ih, Nat.add_assoc]

theorem forall₂_concat {α β : Type} {R : α → β → Prop} {xs : List α} {x : α} {bs : List β} (h : List.Forall₂ R (xs ++ [x]) bs) :
    ∃ bs' b, bs = bs' ++ [b] ∧ R x b := by
  induction xs generalizing bs with
  | nil =>
    cases h with
    | cons h1 h2 => cases h2; exact ⟨[], _, rfl, h1⟩
  | cons y ys ih =>
    cases h with
    | cons h1 h2 =>
      obtain ⟨bs', b, rfl, h3⟩ := ih h2
      exact ⟨_ :: bs', b, rfl, h3⟩

/-! ## Records -/

theorem forall₂_place {α β : Type} {size : α → Nat} {start : Nat} {xs : List α} {R : α → Nat → β → Prop}
    (h : ∀ x o, (x, o) ∈ place size start xs → ∃ b, R x o b) :
    ∃ bs, List.Forall₂ (fun x b => R x.1 x.2 b) (place size start xs) bs := by
  generalize place size start xs = l at h
  induction l with
  | nil => exact ⟨[], .nil⟩
  | cons x l ih =>
    obtain ⟨b, hb⟩ := h x.1 x.2 (by simp)
    obtain ⟨bs, hbs⟩ := ih fun y o hy => h y o (by simp [hy])
    exact ⟨b :: bs, .cons hb hbs⟩

theorem forall₂_fst {α β : Type} {size : α → Nat} {start : Nat} {xs : List α} {bs : List β} {R : α → β → Prop}
    (h : List.Forall₂ (fun (x : α × Nat) b => R x.1 b) (place size start xs) bs) : List.Forall₂ R xs bs := by
  have := List.forall₂_map_left_iff (f := Prod.fst) (R := R) |>.mpr h
  rwa [place_fst] at this

theorem sub_of_mem_place {α : Type} {size : α → Nat} {start : Nat} {xs : List α} {x : α} {o : Nat}
    (h : (x, o) ∈ place size start xs) : x ∈ xs := by
  have := List.mem_map_of_mem (f := Prod.fst) h
  rwa [place_fst] at this

theorem cid_at {data : List UInt8} {base limit : Nat} {registry ordering : Nat} {supplement : Piece} {select : DictEncoding}
    {dicts : List FontDictDef} {glyphs : Nat} (hv : (Keying.identifiers registry ordering supplement select dicts).Valid glyphs)
    {top : Operations} {offset : Nat}
    (ht : ∀ op is, (op, is) ∈ (Keying.identifiers registry ordering supplement select dicts).ops offset →
      top.map op = some (is.map Prod.fst))
    (hs : Sits data (base + offset) ((Keying.identifiers registry ordering supplement select dicts).blob offset))
    (hsize : offset + ((Keying.identifiers registry ordering supplement select dicts).blob offset).length < 2 ^ 31)
    (hlimit : base + 2 ^ 31 ≤ limit) :
    ∃ r, CIDAt (relativeTo base limit) data top glyphs r ∧
      (Keying.identifiers registry ordering supplement select dicts).In (.characterIDKeyed r) ∧
      RecordEnds (relativeTo base limit) data top (.characterIDKeyed r)
        (base + offset + ((Keying.identifiers registry ordering supplement select dicts).blob offset).length) := by
  obtain ⟨hr, ho, hp, hsel, hn, hd⟩ := hv
  unfold Keying.blob at hs hsize
  dsimp only at hs hsize
  rw [List.length_append, List.length_append] at hsize
  have hs1 := Transfer.sits_append.mp hs
  have hs2 := Transfer.sits_append.mp hs1.1
  have hs3 := hs1.2
  rw [List.length_append] at hs3
  generalize hst : offset + (encodeSelect select).length + (Keying.array dicts 0).length = st at *
  have hst' : offset + (encodeSelect select).length + (Keying.array dicts st).length = st := by
    rw [array_length dicts st 0]; exact hst
  have hs3' : Sits data (base + st) ((place (fun d : FontDictDef => d.priv.blob.length) st dicts).map fun x => x.1.priv.blob).flatten := by
    have : ((place (fun d : FontDictDef => d.priv.blob.length) st dicts).map fun x => x.1.priv.blob) =
        dicts.map fun d => d.priv.blob := by
      conv_rhs => rw [← place_fst (fun d : FontDictDef => d.priv.blob.length) st dicts]
      rw [List.map_map]
      rfl
    rw [this, show base + st = base + offset + ((encodeSelect select).length + (Keying.array dicts st).length) by omega]
    exact hs3
  have hlen : ((place (fun d : FontDictDef => d.priv.blob.length) st dicts).map fun x => x.1.priv.blob).flatten.length =
      (dicts.map fun d => d.priv.blob).flatten.length := by
    rw [List.length_flatten, List.length_flatten, place_sizes (g := fun d : FontDictDef => d.priv.blob.length) _ (fun _ _ => rfl),
      List.map_map]
    rfl
  obtain ⟨bs, hbs⟩ := forall₂_place (size := fun d : FontDictDef => d.priv.blob.length) (start := st) (xs := dicts)
    (R := fun d o (b : Operations × PrivateRecord) => DictOf (d.dict o) b.1 ∧ d.entries.In [.opPrivate] b.1 ∧
      PrivateAt (relativeTo base limit) data b.1 b.2 ∧ d.priv.In b.2 ∧
      PrivateEnds (relativeTo base limit) data b.1 b.2 (base + o + d.priv.blob.length)) (by
    intro d o hdo
    obtain ⟨g1, g2, g3⟩ := place_sits (size := fun d : FontDictDef => d.priv.blob.length)
      (f := fun x => x.1.priv.blob) (fun _ _ => rfl) hs3' hdo
    have hdv := hd d (sub_of_mem_place hdo)
    have hsz : o + d.priv.blob.length < 2 ^ 31 := by
      have : o + d.priv.blob.length ≤ st + _ := g3
      rw [hlen] at this
      omega
    have hdl : d.priv.dict.length ≤ d.priv.blob.length := by
      unfold PrivateDef.blob; rw [List.length_append]; omega
    obtain ⟨op, h1, h2, h3, -⟩ := dictOf_entries hdv.1 (ops := [(.opPrivate, [long d.priv.dict.length, long o])])
      (by intro x hx i hi; simp at hx; subst hx; simp at hi; rcases hi with rfl | rfl <;> exact operand_long (by omega)) (by simp) (by simp)
    obtain ⟨r, h4, h5, h6⟩ := private_at hdv.2 (h3 .opPrivate _ (.head _)) g1 hsz hlimit
    exact ⟨(op, r), h1, h2, h4, h5, h6⟩)
  have hfit : IndexFits 4 ((place (fun d : FontDictDef => d.priv.blob.length) st dicts).map fun x => x.1.dict x.2) := by
    refine ⟨?_, by omega, by omega, ?_⟩
    · rw [List.length_map, ← List.length_map (f := Prod.fst), place_fst]; exact hn
    · have := flatten_le_index (w := 4) (items := ((place (fun d : FontDictDef => d.priv.blob.length) st dicts).map fun x => x.1.dict x.2))
      have h2 : (encodeIndex 4 ((place (fun d : FontDictDef => d.priv.blob.length) st dicts).map fun x => x.1.dict x.2)).length =
        (Keying.array dicts st).length := rfl
      omega
  obtain ⟨ix, hix, hix'⟩ := index_of hfit
  have t1 : top.map .opROS = some [.integer registry, .integer ordering, supplement.1] := ht .opROS _ (.head _)
  have t2 : top.map .opFDSelect = some [.integer offset] := ht .opFDSelect _ (.tail _ (.head _))
  have t3 : top.map .opFDArray = some [.integer (offset + (encodeSelect select).length : Nat)] :=
    ht .opFDArray _ (.tail _ (.tail _ (.head _)))
  have hs4 : Sits data (base + (offset + (encodeSelect select).length)) (Keying.array dicts st) := by
    rw [← Nat.add_assoc]; exact hs2.2
  refine ⟨⟨UInt16.ofNat registry, UInt16.ofNat ordering, supplement.1, select, bs.map Prod.fst, bs.map Prod.snd⟩,
    ⟨⟨_, _, t1, ⟨registry, rfl, by omega, ?_⟩, ⟨ordering, rfl, by omega, ?_⟩⟩,
     ⟨offset, base + offset, ⟨_, .inl t2⟩,
       ⟨by omega, by push_cast; rfl, by omega⟩, hsel, hs2.1⟩,
     ⟨_, base + (offset + (encodeSelect select).length), ix, ⟨_, .inl t3⟩,
       ⟨by omega, by push_cast; omega, by omega⟩, ⟨_, hix', hs4⟩, ?_⟩, ?_⟩, ?_, ?_⟩
  · simp
  · simp
  · rw [hix, List.forall₂_map_left_iff, List.forall₂_map_right_iff]
    exact hbs.imp fun _ _ h => h.1
  · rw [List.forall₂_map_left_iff, List.forall₂_map_right_iff, List.forall₂_same]
    intro b hb
    obtain ⟨_, _, h⟩ := forall₂_right_mem hbs hb
    exact h.2.2.1
  · refine ⟨by simp; omega, by simp; omega, rfl, rfl, ?_, ?_⟩
    · rw [List.forall₂_map_right_iff]
      exact forall₂_fst (hbs.imp fun _ _ h => h.2.1)
    · rw [List.forall₂_map_right_iff]
      exact forall₂_fst (hbs.imp fun _ _ h => h.2.2.2.1)
  · unfold Keying.blob
    dsimp only
    rw [hst, List.length_append, List.length_append]
    rcases List.eq_nil_or_concat dicts with rfl | ⟨ds, d, rfl⟩
    · cases hbs
      exact .inr ⟨rfl, _, _, ix, ⟨_, .inl t3⟩, ⟨by omega, by push_cast; omega, by omega⟩, _, hix', hs4, by
        simp [Keying.array, place]; omega⟩
    · rw [List.concat_eq_append, place_concat] at hbs
      obtain ⟨bs', b, rfl, hb2⟩ := forall₂_concat hbs
      refine .inl ⟨_, _, by simp; rfl, by simp; rfl, ?_⟩
      convert hb2.2.2.2.2 using 1
      simp only [List.concat_eq_append, List.map_append, List.flatten_append, List.length_append, List.length_flatten,
        List.map_map, List.map_cons, List.map_nil, List.flatten_cons, List.flatten_nil, List.length_nil, Function.comp_def] at hst' ⊢
      omega

/-! ## Fonts -/

theorem sits_of_empty {data : List UInt8} {p : Nat} : Sits data p [] := by simp [Sits]

theorem font_at {data : List UInt8} {base limit : Nat} {f : FontDef} (hv : f.Valid) {offset : Nat} (ho : 4 ≤ offset)
    (hs : Sits data (base + offset) (f.blob offset)) (hsize : offset + (f.blob offset).length < 2 ^ 31)
    (hlimit : base + 2 ^ 31 ≤ limit) :
    ∃ top cs r, DictOf (f.dict offset) top ∧ f.entries.In FontDef.reserved top ∧ cs.data = f.codes ∧ f.keying.In r ∧
      FontAt (relativeTo base limit) data top cs f.set f.encoding r ∧
      RecordEnds (relativeTo base limit) data top r (base + offset + (f.blob offset).length) := by
  obtain ⟨he, hc, hset, henc, hk⟩ := hv
  unfold FontDef.blob at hs hsize
  have s1 := Transfer.sits_append.mp hs
  have s2 := Transfer.sits_append.mp s1.1
  have s3 := Transfer.sits_append.mp s2.1
  simp only [List.length_append] at s1 s2 hsize
  have e1 : f.encodingAt offset = offset + (encodeCharacterSet f.set).length := rfl
  have e2 : f.codesAt offset = f.encodingAt offset + (encodeEncoding f.encoding).length := rfl
  have e3 : f.recordAt offset = f.codesAt offset + (encodeIndex 4 f.codes).length := rfl
  have a1 : Sits data (base + f.encodingAt offset) (encodeEncoding f.encoding) := by
    rw [e1, ← Nat.add_assoc]; exact s3.2
  have a2 : Sits data (base + f.codesAt offset) (encodeIndex 4 f.codes) := by
    rw [e2, e1]; simpa only [Nat.add_assoc] using s2.2
  have a3 : Sits data (base + f.recordAt offset) (f.keying.blob (f.recordAt offset)) := by
    rw [show base + f.recordAt offset = base + offset + ((encodeCharacterSet f.set).length + (encodeEncoding f.encoding).length +
      (encodeIndex 4 f.codes).length) by omega]
    exact s1.2
  have hso : f.setOffset offset < 2 ^ 31 := by unfold FontDef.setOffset; split <;> omega
  have heo : f.encodingOffset offset < 2 ^ 31 := by unfold FontDef.encodingOffset; split <;> omega
  have hkeys : ∀ x ∈ f.keying.ops (f.recordAt offset), ∀ p ∈ x.2, Operand p.1 p.2 := by
    cases hkk : f.keying with
    | names p =>
      rw [hkk] at hsize
      have : p.dict.length ≤ p.blob.length := by unfold PrivateDef.blob; rw [List.length_append]; omega
      have h2 : (Keying.blob (.names p) (f.recordAt offset)).length = p.blob.length := rfl
      intro x hx i hi
      simp only [Keying.ops, List.mem_singleton] at hx
      subst hx
      simp only [List.mem_cons, List.not_mem_nil, or_false] at hi
      rcases hi with rfl | rfl <;> exact operand_long (by omega)
    | identifiers a b c s ds =>
      rw [hkk] at hsize hk
      obtain ⟨q1, q2, q3, -⟩ := hk
      have h2 : (encodeSelect s).length ≤ (Keying.blob (.identifiers a b c s ds) (f.recordAt offset)).length := by
        simp only [Keying.blob, List.length_append]; omega
      intro x hx i hi
      simp only [Keying.ops, List.mem_cons, List.not_mem_nil, or_false] at hx
      rcases hx with rfl | rfl | rfl <;> simp only [List.mem_cons, List.not_mem_nil, or_false] at hi
      · rcases hi with rfl | rfl | rfl
        · exact operand_long (by omega)
        · exact operand_long (by omega)
        · exact q3
      · subst hi; exact operand_long (by omega)
      · subst hi; exact operand_long (by omega)
  have hfit : Fit (f.ops offset) := by
    intro x hx i hi
    unfold FontDef.ops at hx
    simp only [List.cons_append, List.nil_append, List.mem_cons] at hx
    rcases hx with rfl | rfl | rfl | hx
    · simp only [List.mem_singleton] at hi; subst hi; exact operand_long (by omega)
    · simp only [List.mem_singleton] at hi; subst hi; exact operand_long (by omega)
    · simp only [List.mem_singleton] at hi; subst hi; exact operand_long (by omega)
    · exact hkeys x hx i hi
  obtain ⟨top, h1, h2, h3, h4⟩ := dictOf_entries he hfit
    (by unfold FontDef.ops; cases f.keying <;> simp [Keying.ops])
    (by
      intro x hx
      unfold FontDef.ops at hx
      cases hkk : f.keying <;> simp [Keying.ops, hkk] at hx <;> rcases hx with rfl | rfl | rfl | hx <;>
        first | (simp [FontDef.reserved]; done) | skip
      · subst hx; simp [FontDef.reserved]
      · rcases hx with rfl | rfl | rfl <;> simp [FontDef.reserved])
  have t1 : top.map .opCharSet = some [.integer (f.setOffset offset : Int)] := h3 .opCharSet _ (.head _)
  have t2 : top.map .opEncoding = some [.integer (f.encodingOffset offset : Int)] := h3 .opEncoding _ (.tail _ (.head _))
  have t3 : top.map .opCharStrings = some [.integer (f.codesAt offset : Int)] :=
    h3 .opCharStrings _ (.tail _ (.tail _ (.head _)))
  have t4 : top.map .opCharStringType = none := h4 _ (by simp [FontDef.reserved])
    (by unfold FontDef.ops; cases f.keying <;> simp [Keying.ops])
  have t5 : ∀ op is, (op, is) ∈ f.keying.ops (f.recordAt offset) → top.map op = some (is.map Prod.fst) :=
    fun op is h => h3 op is (List.mem_append_right _ h)
  obtain ⟨cs, g1, g2⟩ := index_of hc
  have hr : ∃ r, RecordAt (relativeTo base limit) data top f.codes.length r ∧ f.keying.In r ∧
      RecordEnds (relativeTo base limit) data top r (base + f.recordAt offset + (f.keying.blob (f.recordAt offset)).length) := by
    cases hkk : f.keying with
    | names p =>
      rw [hkk] at t5 a3 hk hsize
      obtain ⟨r, w1, w2, w3⟩ := private_at (p := p) hk (t5 .opPrivate _ (.head _)) a3
        (by have : (Keying.blob (.names p) (f.recordAt offset)).length = p.blob.length := rfl
            omega) hlimit
      exact ⟨.characterNameKeyed r, ⟨h4 _ (by simp [FontDef.reserved]) (by simp [FontDef.ops, hkk, Keying.ops]), w1⟩, w2, w3⟩
    | identifiers a b c s ds =>
      rw [hkk] at t5 a3 hk hsize
      obtain ⟨r, w1, w2, w3⟩ := cid_at hk t5 a3 (by omega) hlimit
      exact ⟨.characterIDKeyed r, w1, w2, w3⟩
  obtain ⟨r, r1, r2, r3⟩ := hr
  refine ⟨top, cs, r, h1, h2, g1, r2, ⟨⟨_, base + f.codesAt offset, ⟨_, .inl t3⟩,
    ⟨by omega, by push_cast; rfl, by omega⟩, ⟨[], ?_⟩, _, g2, a2⟩, ?_, ?_, by rw [g1]; exact r1⟩, ?_⟩
  · exact .inr ⟨t4, by simp [opDefault], .cons (by norm_num [Stands]) .nil⟩
  · refine ⟨_, ⟨_, .inl t1⟩, ?_⟩
    rcases hset with (h | h | h) | ⟨h, h'⟩
    · rw [h]; exact .inl ⟨by simp [FontDef.setOffset, h], rfl⟩
    · rw [h]; exact .inr (.inl ⟨by simp [FontDef.setOffset, h], rfl⟩)
    · rw [h]; exact .inr (.inr (.inl ⟨by simp [FontDef.setOffset, h], rfl⟩))
    · have : f.setOffset offset = offset := by
        unfold FontDef.setOffset
        cases hh : f.set <;> first | rfl | (rw [hh] at h; exact absurd h (by simp [Custom]))
      rw [this]
      exact .inr (.inr (.inr ⟨by omega, by omega, by omega, base + offset, ⟨by omega, by push_cast; rfl, by omega⟩, h,
        by rw [g1]; exact h', s3.1⟩))
  · refine ⟨_, ⟨_, .inl t2⟩, ?_⟩
    rcases henc with (h | h) | h
    · rw [h]; exact .inl ⟨by simp [FontDef.encodingOffset, h], rfl⟩
    · rw [h]; exact .inr (.inl ⟨by simp [FontDef.encodingOffset, h], rfl⟩)
    · have : f.encodingOffset offset = f.encodingAt offset := by
        unfold FontDef.encodingOffset
        cases hh : f.encoding <;> first | rfl | (rw [hh] at h; exact absurd h (by simp [Encodable]))
      rw [this]
      exact .inr (.inr ⟨by omega, by omega, base + f.encodingAt offset, ⟨by omega, by push_cast; rfl, by omega⟩, h, a1⟩)
  · convert r3 using 1
    unfold FontDef.blob
    simp only [List.length_append]
    omega

/-! ## Font sets -/

theorem laidOut_write {d : FontSetDef} (hv : d.Valid) {data : List UInt8} {base limit : Nat} (hs : Sits data base d.write)
    (hlimit : base + 2 ^ 31 ≤ limit) : ∃ fs, LaidOut (relativeTo base limit) data base fs ∧ d.In fs ∧
      Ends (relativeTo base limit) data fs (base + d.write.length) := by
  obtain ⟨v1, v2, v3, v4, v5, v6⟩ := hv
  unfold FontSetDef.write at hs v6
  rw [List.length_append] at v6
  have hh : (d.head d.start).length = d.start := head_length d d.start 0
  have s1 := Transfer.sits_append.mp hs
  rw [hh] at s1 v6
  have h4 : 4 ≤ d.start := by
    unfold FontSetDef.start FontSetDef.head
    simp only [List.length_append, List.length_cons]
    omega
  obtain ⟨bs, hbs⟩ := forall₂_place (size := fun f : FontDef => (f.blob 0).length) (start := d.start) (xs := d.fonts)
    (R := fun f o (b : Operations × Index × Record) => DictOf (f.dict o) b.1 ∧ f.entries.In FontDef.reserved b.1 ∧
      b.2.1.data = f.codes ∧ f.keying.In b.2.2 ∧
      FontAt (relativeTo base limit) data b.1 b.2.1 f.set f.encoding b.2.2 ∧
      RecordEnds (relativeTo base limit) data b.1 b.2.2 (base + o + (f.blob o).length)) (by
    intro f o hfo
    obtain ⟨g1, g2, g3⟩ := place_sits (size := fun f : FontDef => (f.blob 0).length)
      (f := fun x => x.1.blob x.2) (fun f o => font_blob_length f o 0) s1.2 hfo
    have hsz : o + (f.blob o).length < 2 ^ 31 := by
      rw [font_blob_length f o 0]
      exact Nat.lt_of_le_of_lt g3 v6
    obtain ⟨top, cs, r, w1, w2, w3, w4, w5, w6⟩ := font_at (v5 f (sub_of_mem_place hfo)) (by omega) g1 hsz hlimit
    exact ⟨(top, cs, r), w1, w2, w3, w4, w5, w6⟩)
  have hpl : (d.placed d.start).length = d.fonts.length := by
    rw [← List.length_map (f := Prod.fst), FontSetDef.placed, place_fst]
  have hfit : IndexFits 4 ((d.placed d.start).map fun x => x.1.dict x.2) := by
    refine ⟨?_, by omega, by omega, ?_⟩
    · rw [List.length_map, hpl]; exact v4
    · have := flatten_le_index (w := 4) (items := ((d.placed d.start).map fun x => x.1.dict x.2))
      have h2 : (d.head d.start).length < 2 ^ 31 := by omega
      unfold FontSetDef.head at h2
      simp only [List.length_append] at h2
      omega
  obtain ⟨ix1, i1, j1⟩ := index_of v1
  obtain ⟨ix2, i2, j2⟩ := index_of hfit
  obtain ⟨ix3, i3, j3⟩ := index_of v2
  obtain ⟨ix4, i4, j4⟩ := index_of v3
  have c4 := Transfer.sits_append.mp s1.1
  have c3 := Transfer.sits_append.mp c4.1
  have c2 := Transfer.sits_append.mp c3.1
  have c1 := Transfer.sits_append.mp c2.1
  have k2 := c2.2
  have k3 := c3.2
  have k4 := c4.2
  simp only [List.length_append, ← Nat.add_assoc] at k2 k3 k4
  have hlen : bs.length = d.fonts.length := by rw [← hbs.length_eq, ← hpl]; rfl
  refine ⟨⟨⟨1, 0, 4, 4⟩, ix1, bs.map Prod.fst, ix3, ix4, d.fonts.map FontDef.encoding,
      bs.map fun b => b.2.1, d.fonts.map FontDef.set, bs.map fun b => b.2.2⟩,
    ⟨c1.1, ⟨base + 4, _, _, _, _, ix2, ⟨Int.natCast_nonneg _, by push_cast; rfl, by omega⟩, ⟨_, j1, c1.2, rfl⟩, ⟨_, j2, k2, rfl⟩,
      ⟨_, j3, k3, rfl⟩, ⟨_, j4, k4, rfl⟩, ?_⟩, by simp, by simp [hlen], by simp [hlen], by simp, ?_⟩,
    ⟨i1, i3, i4, ?_, ?_, rfl, rfl, ?_⟩, ?_⟩
  · rw [i2, List.forall₂_map_left_iff, List.forall₂_map_right_iff]
    exact hbs.imp fun _ _ h => h.1
  · intro i top hi
    have hi' : i < bs.length := by simpa using (List.getElem?_eq_some_iff.mp hi).1
    have hb : bs[i]? = some bs[i] := List.getElem?_eq_getElem hi'
    have hpi : i < (place (fun f : FontDef => (f.blob 0).length) d.start d.fonts).length := by rw [hbs.length_eq]; exact hi'
    have hR := List.Forall₂.get hbs hpi hi'
    have hf : d.fonts[i]? = some (place (fun f : FontDef => (f.blob 0).length) d.start d.fonts)[i].1 := by
      conv_lhs => rw [← place_fst (fun f : FontDef => (f.blob 0).length) d.start d.fonts]
      rw [List.getElem?_map, List.getElem?_eq_getElem hpi]; rfl
    simp only [List.getElem?_map, hb, hf, Option.map_some, Option.some.injEq] at hi ⊢
    subst hi
    exact ⟨_, _, _, _, rfl, rfl, rfl, rfl, hR.2.2.2.2.1⟩
  · rw [List.forall₂_map_right_iff]
    exact forall₂_fst (hbs.imp fun _ _ h => h.2.1)
  · rw [List.forall₂_map_right_iff]
    exact forall₂_fst (hbs.imp fun _ _ h => h.2.2.1)
  · rw [List.forall₂_map_right_iff]
    exact forall₂_fst (hbs.imp fun _ _ h => h.2.2.2.1)
  · rcases List.eq_nil_or_concat d.fonts with hf | ⟨fs, f, hf⟩
    · rw [hf] at hbs
      cases hbs
      have hp : d.placed d.start = [] := by rw [FontSetDef.placed, hf]; rfl
      refine .inr ⟨rfl, base + 4, _, _, _, ix2, ⟨Int.natCast_nonneg _, by push_cast; rfl, by omega⟩, ⟨_, j1, c1.2, rfl⟩, ⟨_, j2, k2, rfl⟩,
        ⟨_, j3, k3, rfl⟩, ⟨_, j4, k4, ?_⟩⟩
      unfold FontSetDef.write
      rw [hp]
      simp only [FontSetDef.head, hp, List.length_append, List.map_nil, List.flatten_nil, List.length_nil, List.length_cons]
      omega
    · rw [hf, List.concat_eq_append, place_concat] at hbs
      obtain ⟨bs', b, rfl, hb2⟩ := forall₂_concat hbs
      refine .inl ⟨_, _, by simp; rfl, by simp; rfl, ?_⟩
      convert hb2.2.2.2.2.2 using 1
      unfold FontSetDef.write
      rw [List.length_append, hh, FontSetDef.placed, hf, List.concat_eq_append, place_concat, font_blob_length f _ 0]
      simp only [List.map_append, List.flatten_append, List.length_append, List.map_cons, List.map_nil, List.flatten_cons,
        List.flatten_nil, List.length_nil, List.length_flatten]
      rw [place_sizes (g := fun f : FontDef => (f.blob 0).length) _ (fun f o => font_blob_length f o 0), font_blob_length f _ 0]
      omega

end PS
