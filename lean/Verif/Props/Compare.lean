import Verif.Model.Compare
import Verif.Spec.Compare
import Verif.Props.Order
/-!
# Property C92: comparing what was read from dictionaries
-/
namespace PS
open PS.Spec

theorem eq_iff (x y : Number) : x.eq y = true ↔ Same x y := by
  cases x <;> cases y <;> simp only [Number.eq, Same, equal_iff, beq_iff_eq]
  all_goals simp

theorem sliceEq_iff {eq : α → α → Bool} {xs ys : List α} :
    sliceEq eq xs ys = true ↔ List.Forall₂ (fun x y => eq x y = true) xs ys := by
  unfold sliceEq
  induction xs generalizing ys with
  | nil => cases ys <;> simp
  | cons x xs ih =>
    cases ys with
    | nil => simp
    | cons y ys =>
      simp only [List.length_cons, List.zip_cons_cons, List.all_cons, List.forall₂_cons, ← ih]
      simp only [Bool.and_eq_true, beq_iff_eq, Nat.add_right_cancel_iff]
      tauto

theorem Equal.symm {x y : F32} (h : Equal x y) : Equal y x := by
  cases x <;> cases y <;> simp only [Equal] at h ⊢ <;> exact h.symm

theorem Equal.trans {x y z : F32} (h : Equal x y) (h' : Equal y z) : Equal x z := by
  cases x <;> cases y <;> cases z <;> simp only [Equal] at h h' ⊢ <;> exact Eq.trans h h'

theorem equal_self {x : F32} : Equal x x ↔ x ≠ .nan := by
  cases x <;> simp [Equal]

theorem same_self {n : Number} (h : Holdable n) : Same n n := by
  cases n with
  | integer => rfl
  | real => exact equal_self.mpr h.2

/-- **C92.**  Two numbers are equal if and only if both are integers or both are reals, and
they have the same value. -/
theorem C92_number (x y : Number) : x.eq y = true ↔ Same x y := eq_iff x y

/-- **C92.**  Among the numbers that are read from dictionaries, anywhere and in any build,
equality is an equivalence relation: no number that was read differs from itself. -/
theorem C92_equivalence {cfg : Config} {data : List UInt8} {p q : Nat} {x : Number}
    (h : Number.read (tape cfg data) p = (.ok x, q)) :
    x.eq x = true ∧ ∀ y, x.eq y = y.eq x ∧ ∀ z, x.eq y = true → y.eq z = true → x.eq z = true := by
  refine ⟨(eq_iff _ _).mpr (same_self ((C70_number_iff x).mp ⟨_, _, _, _, h⟩)), fun y => ⟨?_, fun z h1 h2 => ?_⟩⟩
  · rw [Bool.eq_iff_iff, eq_iff, eq_iff]
    cases x <;> cases y <;> simp only [Same]
    · exact eq_comm
    · exact ⟨Equal.symm, Equal.symm⟩
  · rw [eq_iff] at h1 h2 ⊢
    cases x <;> cases y <;> cases z <;> simp only [Same] at h1 h2 ⊢
    · exact h1.trans h2
    · exact Equal.trans h1 h2

/-- **C92.**  Literals of one value are read as equal numbers, however they are spelled and
packed, also if one of them is the zero with a sign. -/
theorem C92_value {d d' : Decimal} (hd : d.Valid) (hd' : d'.Valid) (h : d.value = d'.value)
    {bs bs' : List UInt8} (hb : Packed d.text bs) (hb' : Packed d'.text bs') (cfg cfg' : Config)
    (pre post pre' post' : List UInt8) :
    ∃ x x' q q', Number.read (tape cfg (pre ++ (0x1e :: bs) ++ post)) pre.length = (.ok x, q) ∧
      Number.read (tape cfg' (pre' ++ (0x1e :: bs') ++ post')) pre'.length = (.ok x', q') ∧ x.eq x' = true := by
  obtain ⟨x, h1, h2⟩ := C04_real_correctly_rounded hd hb cfg pre post
  obtain ⟨x', h1', h2'⟩ := C04_real_correctly_rounded hd' hb' cfg' pre' post'
  refine ⟨_, _, _, _, h1, h1', (eq_iff _ _).mpr ?_⟩
  have l1 := nearest_mono (magnitude_nonneg d) (magnitude_nonneg d') h2 h2' (le_of_eq h)
  have l2 := nearest_mono (magnitude_nonneg d') (magnitude_nonneg d) h2' h2 (le_of_eq h.symm)
  cases x <;> cases x' <;> simp only [LessEqual, Same, Equal] at l1 l2 ⊢ <;> try simp_all
  · rename_i s t
    cases s <;> cases t <;> simp_all
  · exact le_antisymm l1 l2

/-- **C92.**  Integers and reals are never equal, and integers only if they are the same. -/
theorem C92_integer {i j : Int} {bs bs' : List UInt8} (h : DictInt i bs) (h' : DictInt j bs') (cfg cfg' : Config)
    (pre post pre' post' : List UInt8) :
    ∃ x x' q q', Number.read (tape cfg (pre ++ bs ++ post)) pre.length = (.ok x, q) ∧
      Number.read (tape cfg' (pre' ++ bs' ++ post')) pre'.length = (.ok x', q') ∧
      (x.eq x' = true ↔ i = j) ∧ ∀ r, x.eq (.real r) = false ∧ (Number.real r).eq x = false := by
  refine ⟨_, _, _, _, C01_dict_integer_round_trip h cfg pre post, C01_dict_integer_round_trip h' cfg' pre' post',
    by simp [Number.eq], fun r => by simp [Number.eq]⟩

/-! ## Dictionaries -/

theorem mem_keys {o : Operations} {op : Operator} : op ∈ o.keys ↔ (o.map op).isSome := by
  unfold Operations.keys
  rw [List.mem_filterMap]
  constructor
  · rintro ⟨n, _, h⟩
    split at h
    · split at h
      · rw [← Option.some.inj h]; assumption
      · simp at h
    · simp at h
  · intro h
    obtain ⟨code, hc⟩ := C15_operator_surjective op
    refine ⟨code.toNat, List.mem_range.mpr code.toNat_lt, ?_⟩
    simp [hc, h]

theorem codes_nodup (o : Operations) {k : Nat} (hk : k ≤ 65536) : ((List.range k).filterMap fun n =>
    match Operator.from (UInt16.ofNat n) with
    | .ok op => if (o.map op).isSome then some op else none
    | _ => none).Nodup := by
  refine List.pairwise_filterMap.mpr (List.Pairwise.imp_of_mem ?_ (List.nodup_range (n := k)))
  intro m n hm hn hmn x hx y hy hxy
  have hm := lt_of_lt_of_le (List.mem_range.mp hm) hk
  have hn := lt_of_lt_of_le (List.mem_range.mp hn) hk
  subst hxy
  split at hx <;> split at hy <;> try contradiction
  rename_i a ha _ b hb
  split at hx <;> split at hy <;> try contradiction
  rw [Option.some.inj hx] at ha
  rw [Option.some.inj hy] at hb
  have := congrArg UInt16.toNat (C15_operator_injective ha hb)
  rw [UInt16.toNat_ofNat_of_lt' hm, UInt16.toNat_ofNat_of_lt' hn] at this
  exact hmn this

theorem keys_nodup (o : Operations) : o.keys.Nodup := codes_nodup o (Nat.le_refl _)

theorem map_none {o : Operations} {ops : List (Operator × List Number)}
    (h : ∀ op xs, o.map op = some xs ↔ Last ops op xs) {op : Operator} : o.map op = none ↔ op ∉ ops.map Prod.fst := by
  rw [Option.eq_none_iff_forall_ne_some]
  simp only [ne_eq, h]
  constructor
  · intro hn hm
    obtain ⟨⟨a, xs⟩, hx, rfl⟩ := List.mem_map.mp hm
    obtain ⟨ys, hy⟩ := exists_last hx
    exact hn ys hy
  · intro hn xs hl
    exact hn (List.mem_map.mpr ⟨_, last_mem hl, rfl⟩)

theorem operations_eq {a b : Operations} : a.eq b = true ↔ ∀ op,
    (∃ xs ys, a.map op = some xs ∧ b.map op = some ys ∧ List.Forall₂ Same xs ys) ∨ (a.map op = none ∧ b.map op = none) := by
  unfold Operations.eq
  simp only [Bool.and_eq_true, beq_iff_eq, List.all_eq_true, mem_keys]
  constructor
  · rintro ⟨hl, ha⟩ op
    have hsub : a.keys ⊆ b.keys := by
      intro k hk
      have hk := mem_keys.mp hk
      have := ha k hk
      rw [mem_keys]
      cases h1 : b.map k
      · rw [h1] at this; cases h2 : a.map k <;> simp [h2] at this
      · rfl
    have hperm : a.keys.Perm b.keys := (List.subperm_of_subset (keys_nodup a) hsub).perm_of_length_le hl.ge
    cases h1 : a.map op with
    | none =>
      refine .inr ⟨rfl, ?_⟩
      have : op ∉ b.keys := fun h => by
        have := mem_keys.mp (hperm.symm.subset h)
        rw [h1] at this
        simp at this
      rw [mem_keys] at this
      simpa using this
    | some xs =>
      have := ha op (by rw [h1]; rfl)
      rw [h1] at this
      cases h2 : b.map op with
      | none => rw [h2] at this; simp at this
      | some ys =>
        rw [h2] at this
        refine .inl ⟨xs, ys, rfl, rfl, ?_⟩
        have := sliceEq_iff.mp this
        simpa only [eq_iff] using this
  · intro h
    have hk : ∀ op, op ∈ a.keys ↔ op ∈ b.keys := by
      intro op
      rw [mem_keys, mem_keys]
      rcases h op with ⟨xs, ys, h1, h2, _⟩ | ⟨h1, h2⟩ <;> rw [h1, h2] <;> simp
    refine ⟨((List.perm_ext_iff_of_nodup (keys_nodup a) (keys_nodup b)).mpr hk).length_eq, fun op ho => ?_⟩
    rcases h op with ⟨xs, ys, h1, h2, h3⟩ | ⟨h1, h2⟩
    · rw [h1, h2]
      refine sliceEq_iff.mpr ?_
      simpa only [eq_iff] using h3
    · rw [h1] at ho; simp at ho

/-- **C92.**  Two dictionaries are read as equal maps if and only if they have the same
operators and the last operations with each operator have equal operands. -/
theorem C92_dictionary {ops ops' : List (Operator × List Number)} {bs bs' : List UInt8} (h : Dict ops bs)
    (h' : Dict ops' bs') (cfg cfg' : Config) (pre pre' : List UInt8) :
    ∃ o o' q q', Operations.read (tape cfg (pre ++ bs)) pre.length = (.ok o, q) ∧
      Operations.read (tape cfg' (pre' ++ bs')) pre'.length = (.ok o', q') ∧
      (o.eq o' = true ↔ ∀ op, SameEntry ops ops' op) := by
  obtain ⟨o, q, h1, h2⟩ := C10_dict_last_write_wins h cfg pre
  obtain ⟨o', q', h1', h2'⟩ := C10_dict_last_write_wins h' cfg' pre'
  refine ⟨o, o', q, q', h1, h1', operations_eq.trans (forall_congr' fun op => ?_)⟩
  unfold SameEntry
  rw [map_none h2, map_none h2']
  simp only [h2, h2']

/-- **C92.**  A dictionary that was read, from anything, is equal to itself. -/
theorem C92_dictionary_self {cfg : Config} {data : List UInt8} {p q : Nat} {o : Operations}
    (h : Operations.read (tape cfg data) p = (.ok o, q)) : o.eq o = true := by
  refine operations_eq.mpr fun op => ?_
  cases ho : o.map op with
  | none => exact .inr ⟨rfl, rfl⟩
  | some xs =>
    refine .inl ⟨xs, xs, rfl, rfl, ?_⟩
    have := (C70_dictionary_iff o).mp ⟨_, _, _, _, h⟩ op xs ho
    exact List.forall₂_same.mpr fun x hx => same_self (this x hx)

/-! ## Offsets -/

theorem snoc_lt {x y : UInt8} : ∀ {xs ys : List UInt8}, xs.length = ys.length →
    (xs ++ [x] < ys ++ [y] ↔ xs < ys ∨ xs = ys ∧ x < y)
  | [], [], _ => by simp [List.cons_lt_cons_iff]
  | a :: xs, b :: ys, h => by
    have ih := snoc_lt (x := x) (y := y) (Nat.add_right_cancel h)
    simp only [List.cons_append, List.cons_lt_cons_iff, ih, List.cons.injEq]
    tauto

theorem be_lex {k a b : Nat} (ha : a < 256 ^ k) (hb : b < 256 ^ k) : be k a < be k b ↔ a < b := by
  induction k generalizing a b with
  | zero => simp at ha hb; subst ha hb; simp
  | succ k ih =>
    have ha' : a / 256 < 256 ^ k := Nat.div_lt_of_lt_mul (by rw [pow_succ] at ha; omega)
    have hb' : b / 256 < 256 ^ k := Nat.div_lt_of_lt_mul (by rw [pow_succ] at hb; omega)
    have hi : be k (a / 256) = be k (b / 256) ↔ a / 256 = b / 256 := ⟨be_inj ha' hb', fun h => by rw [h]⟩
    rw [be, be, snoc_lt (by simp), ih ha' hb', hi, UInt8.lt_iff_toNat_lt]
    simp only [UInt8.toNat_ofNat']
    omega

/-- **C92.**  Offsets of one size compare as the bytes they were read from do, byte by byte. -/
theorem C92_offset {size : UInt8} {cfg cfg' : Config} {data data' : List UInt8} {p p' q q' : Nat} {a b : UInt32}
    (ha : readOffset size (tape cfg data) p = (.ok a, q)) (hb : readOffset size (tape cfg' data') p' = (.ok b, q')) :
    (offsetCmp a b = .lt ↔ (data.drop p).take size.toNat < (data'.drop p').take size.toNat) ∧
    (offsetCmp a b = .eq ↔ (data.drop p).take size.toNat = (data'.drop p').take size.toNat) ∧
    (offsetCmp a b = .gt ↔ (data'.drop p').take size.toNat < (data.drop p).take size.toNat) := by
  obtain ⟨_, _, h1, _, _⟩ := (C06_offset_big_endian _ _ _ _ _ _).mp ha
  obtain ⟨_, _, h2, _, _⟩ := (C06_offset_big_endian _ _ _ _ _ _).mp hb
  rw [← C06_offset_write_back ha, ← C06_offset_write_back hb, be_lex h1 h2, be_lex h2 h1]
  unfold offsetCmp
  refine ⟨Nat.compare_eq_lt, Nat.compare_eq_eq.trans ⟨fun h => by rw [h], be_inj h1 h2⟩, Nat.compare_eq_gt⟩

/-- Reading `-0.0` and `0`, which are equal although they differ; `1` and `1.0`, which do not
although they have one value. -/
example : Decimal.value ⟨true, [0], some [0], none⟩ = Decimal.value ⟨false, [0], none, none⟩ ∧
    Decimal.Valid ⟨true, [0], some [0], none⟩ ∧ Decimal.Valid ⟨false, [0], none, none⟩ ∧
    (Number.real (.fin true 0 0)).eq (.real (.fin false 0 0)) = true ∧ (Number.integer 1).eq (.real F32.one) = false := by
  refine ⟨?_, ?_, ?_, by decide +kernel, by decide +kernel⟩
  · simp [Decimal.value, Decimal.magnitude, signed, Decimal.mantissa, Decimal.number]
  · simp [Decimal.Valid]
  · simp [Decimal.Valid]

/-- Two dictionaries, the operations of which are in different order: `FullName` of 5, twice in
the one, and `Weight` of 6. -/
example : ∃ bs bs', Dict [(.opFullName, [.integer 7]), (.opWeight, [.integer 6]), (.opFullName, [.integer 5])] bs ∧
    Dict [(.opFullName, [.integer 5]), (.opWeight, [.integer 6])] bs' ∧
    ∀ op, SameEntry [(.opFullName, [.integer 7]), (.opWeight, [.integer 6]), (.opFullName, [.integer 5])]
      [(.opFullName, [.integer 5]), (.opWeight, [.integer 6])] op := by
  obtain ⟨bs, hb⟩ := C70_operations (ops := [(.opFullName, [.integer 7]), (.opWeight, [.integer 6]),
    (.opFullName, [.integer 5])]) (by simp [Holdable])
  obtain ⟨bs', hb'⟩ := C70_operations (ops := [(.opFullName, [.integer 5]), (.opWeight, [.integer 6])])
    (by simp [Holdable])
  refine ⟨bs, bs', hb, hb', fun op => ?_⟩
  by_cases h1 : op = .opFullName
  · subst h1
    exact .inl ⟨[.integer 5], [.integer 5], ⟨[(.opFullName, [.integer 7]), (.opWeight, [.integer 6])], [], rfl, by simp⟩, ⟨[], _, rfl, by simp⟩, by simp [Same]⟩
  · by_cases h2 : op = .opWeight
    · subst h2
      exact .inl ⟨[.integer 6], [.integer 6], ⟨[(.opFullName, [.integer 7])], [(.opFullName, [.integer 5])], rfl, by simp⟩,
        ⟨[(.opFullName, [.integer 5])], [], rfl, by simp⟩, by simp [Same]⟩
    · exact .inr (by simp [h1, h2])

/-- Offsets of three bytes. -/
example : offsetCmp 0x010203 0x010300 = .lt ∧ ([1, 2, 3] : List UInt8) < [1, 3, 0] := by decide +kernel

end PS
