import Verif.Lemmas.Index
import Verif.Props.Numbers
/-!
# Properties C07–C09: the INDEX structure
-/
namespace PS
open Spec

/-- **C07.**  The serialisation of any list of byte strings, with any offset
width that can hold its size, reads back as these byte strings, in order, with
the matching header, and the tape is left right after it. -/
theorem C07_index_round_trip {width : Nat} {items : List (List UInt8)} (h : IndexFits width items)
    (cfg : Config) (pre post : List UInt8) :
    ∃ ix, Index.read (tape cfg (pre ++ encodeIndex width items ++ post)) pre.length =
        (.ok ix, pre.length + (encodeIndex width items).length) ∧
      ix.data = items ∧ ix.count.toNat = items.length ∧
      (items = [] → ix = { count := 0, offsetSize := 0, offsets := [], data := [] }) ∧
      (items ≠ [] → ix.offsetSize.toNat = width ∧ ix.offsets.map UInt32.toNat = offsetsFrom 1 items) := by
  obtain ⟨h1, h2, h3, h4⟩ := h
  by_cases he : items = []
  · subst he
    refine ⟨Index.empty, exact_index.parse (.inl ⟨rfl, ?_⟩) cfg pre post, rfl, rfl, fun _ => rfl, fun h => absurd rfl h⟩
    simp [encodeIndex]
  · have hw : (UInt8.ofNat width).toNat = width := UInt8.toNat_ofNat_of_lt' (by simp [UInt8.size]; omega)
    have hc : (UInt16.ofNat items.length).toNat = items.length :=
      UInt16.toNat_ofNat_of_lt' (by simp [UInt16.size]; omega)
    have hp : 256 ^ width ≤ 256 ^ 4 := Nat.pow_le_pow_right (by decide) h3
    have ho : ((offsetsFrom 1 items).map UInt32.ofNat).map UInt32.toNat = offsetsFrom 1 items := by
      rw [List.map_map]
      conv => rhs; rw [← List.map_id (offsetsFrom 1 items)]
      apply List.map_congr_left
      intro x hx
      have := (mem_offsetsFrom_le hx)
      simp only [Function.comp, id]
      exact UInt32.toNat_ofNat_of_lt' (by simp only [UInt32.size]; omega)
    refine ⟨⟨UInt16.ofNat items.length, UInt8.ofNat width, (offsetsFrom 1 items).map UInt32.ofNat, items⟩,
      exact_index.parse (.inr ⟨he, ?_, hc, ho, ?_⟩) cfg pre post, rfl, hc, fun h => absurd h he, fun _ => ⟨hw, ho⟩⟩
    · simp only [hw]; exact ⟨h1, h2, h3, h4⟩
    · simp only [hw]

/-- Two items in an INDEX with one-byte offsets, as in the specification. -/
example : IndexFits 1 [[65, 66, 67], [], [68]] ∧
    encodeIndex 1 [[65, 66, 67], [], [68]] = [0, 3, 1, 1, 4, 4, 5, 65, 66, 67, 68] := by
  refine ⟨⟨?_, ?_, ?_, ?_⟩, ?_⟩ <;> decide

theorem offsetsFrom_getElem? (o : Nat) (items : List (List UInt8)) {i : Nat} (h : i ≤ items.length) :
    (offsetsFrom o items)[i]? = some (o + (items.take i).flatten.length) := by
  induction items generalizing o i with
  | nil =>
    obtain rfl : i = 0 := by simpa using h
    simp [offsetsFrom]
  | cons a items ih =>
    cases i with
    | zero => simp [offsetsFrom]
    | succ i =>
      simp only [offsetsFrom, List.getElem?_cons_succ, List.take_succ_cons, List.flatten_cons, List.length_append]
      rw [ih _ (by simpa using h)]
      congr 1
      omega

theorem flatten_slice (items : List (List UInt8)) {i : Nat} (h : i < items.length) :
    (items.flatten.drop (items.take i).flatten.length).take items[i].length = items[i] := by
  induction items generalizing i with
  | nil => simp at h
  | cons a items ih =>
    cases i with
    | zero => simp
    | succ i =>
      simp only [List.take_succ_cons, List.flatten_cons, List.length_append, List.getElem_cons_succ]
      rw [← List.drop_drop, List.drop_left]
      exact ih (by simpa using h)

/-- **C08.**  What is read is what is on the tape: the consumed bytes are the
serialisation of the result, and the header of the result describes its
elements. -/
theorem C08_index_sound {cfg : Config} {data : List UInt8} {p q : Nat} {ix : Index}
    (h : Index.read (tape cfg data) p = (.ok ix, q)) :
    ix.count.toNat = ix.data.length ∧
    (data.drop p).take (q - p) = encodeIndex ix.offsetSize.toNat ix.data ∧
    q = p + (encodeIndex ix.offsetSize.toNat ix.data).length ∧ q ≤ data.length ∧
    (ix.data = [] → ix.offsets = []) ∧
    (ix.data ≠ [] → IndexFits ix.offsetSize.toNat ix.data ∧ ix.offsets.length = ix.data.length + 1 ∧
      ix.offsets.head? = some 1 ∧ ix.offsets.Pairwise (· ≤ ·)) := by
  obtain ⟨bs, hb, hp, rfl⟩ := (exact_index (tape cfg data) p _ q).mp h
  have hlen := hp.length_le
  have heq := List.prefix_iff_eq_take.mp hp
  have e1 : p + bs.length - p = bs.length := by omega
  change bs = List.take bs.length (List.drop p data) at heq
  change bs.length ≤ (List.drop p data).length at hlen
  rw [List.length_drop] at hlen
  rw [e1, ← heq]
  have key : ∀ (o : Nat) (items : List (List UInt8)), (offsetsFrom o items).Pairwise (· ≤ ·) ∧
      ∀ x ∈ offsetsFrom o items, o ≤ x := by
    intro o items
    induction items generalizing o with
    | nil => simp [offsetsFrom]
    | cons a items ih =>
      simp only [offsetsFrom, List.pairwise_cons, List.mem_cons, forall_eq_or_imp]
      refine ⟨⟨fun x hx => ?_, (ih _).1⟩, le_refl _, fun x hx => ?_⟩ <;>
      · have := (ih (o + a.length)).2 x hx
        omega
  rcases hb with ⟨rfl, rfl⟩ | ⟨h1, h2, h3, h4, rfl⟩
  · have he : be 2 0 = [0, 0] := by decide
    rw [he] at hlen
    simp only [List.length_cons, List.length_nil] at hlen
    exact ⟨rfl, by simp [encodeIndex, Index.empty], by simp [encodeIndex, Index.empty],
      by rw [he]; simp only [List.length_cons, List.length_nil]; omega, fun _ => rfl, fun h => absurd rfl h⟩
  · refine ⟨h3, rfl, rfl, ?_, fun h => absurd h h1, fun _ => ⟨h2, ?_, ?_, ?_⟩⟩
    · have : 0 < (encodeIndex ix.offsetSize.toNat ix.data).length := by
        simp only [encodeIndex, if_neg h1, List.length_append, be_length]
        omega
      omega
    · have := congrArg List.length h4
      rw [List.length_map, offsetsFrom_length] at this
      exact this
    · cases hd : ix.data with
      | nil => exact absurd hd h1
      | cons a items =>
        rw [hd] at h4
        cases ho : ix.offsets with
        | nil => rw [ho] at h4; simp [offsetsFrom] at h4
        | cons x xs =>
          rw [ho] at h4
          simp only [List.map_cons, offsetsFrom, List.cons.injEq] at h4
          have : x = 1 := by
            rw [← UInt32.toNat_inj, h4.1]; rfl
          simp [this]
    · have := (key 1 ix.data).1
      rw [← h4, List.pairwise_map] at this
      exact this.imp (fun h => UInt32.le_iff_toNat_le.mpr h)

/-- **C08.**  Element `i` is exactly the bytes of the tape between offset `i` and
offset `i + 1`, counted from the byte before the data area. -/
theorem C08_index_slices {cfg : Config} {data : List UInt8} {p q : Nat} {ix : Index}
    (h : Index.read (tape cfg data) p = (.ok ix, q)) {i : Nat} (hi : i < ix.data.length) :
    ∃ a b, ix.offsets[i]? = some a ∧ ix.offsets[i + 1]? = some b ∧ 1 ≤ a ∧ a ≤ b ∧
      ix.data[i] = (data.drop (p + 3 + (ix.data.length + 1) * ix.offsetSize.toNat + (a.toNat - 1))).take
        (b.toNat - a.toNat) := by
  obtain ⟨bs, hb, ⟨post, hp⟩, rfl⟩ := (exact_index (tape cfg data) p _ q).mp h
  rcases hb with ⟨rfl, rfl⟩ | ⟨h1, h2, h3, h4, rfl⟩
  · simp [Index.empty] at hi
  · have o1 := offsetsFrom_getElem? 1 ix.data (i := i) (by omega)
    have o2 := offsetsFrom_getElem? 1 ix.data (i := i + 1) (by omega)
    rw [← h4] at o1 o2
    rw [List.getElem?_map, Option.map_eq_some_iff] at o1 o2
    obtain ⟨a, ha, ha'⟩ := o1
    obtain ⟨b, hb, hb'⟩ := o2
    have hsplit : (ix.data.take (i + 1)).flatten.length = (ix.data.take i).flatten.length + ix.data[i].length := by
      rw [List.take_succ_eq_append_getElem hi, List.flatten_append, List.length_append, List.flatten_singleton]
    refine ⟨a, b, ha, hb, ?_, ?_, ?_⟩
    · rw [UInt32.le_iff_toNat_le, ha']
      show 1 ≤ _
      omega
    · rw [UInt32.le_iff_toNat_le]; omega
    · rw [show b.toNat - a.toNat = ix.data[i].length by omega,
        show a.toNat - 1 = (ix.data.take i).flatten.length by omega]
      change encodeIndex ix.offsetSize.toNat ix.data ++ post = data.drop p at hp
      rw [show p + 3 + (ix.data.length + 1) * ix.offsetSize.toNat + (ix.data.take i).flatten.length =
        p + ((3 + (ix.data.length + 1) * ix.offsetSize.toNat) + (ix.data.take i).flatten.length) by omega,
        ← List.drop_drop, ← List.drop_drop, ← hp]
      simp only [encodeIndex, if_neg h1]
      have hh : (be 2 ix.data.length ++ be 1 ix.offsetSize.toNat ++
          List.flatMap (be ix.offsetSize.toNat) (offsetsFrom 1 ix.data)).length =
          3 + (ix.data.length + 1) * ix.offsetSize.toNat := by
        have : ∀ (l : List Nat), (l.flatMap (be ix.offsetSize.toNat)).length = l.length * ix.offsetSize.toNat := by
          intro l
          induction l with
          | nil => simp
          | cons x l ih => simp [ih, be_length, Nat.add_mul]; omega
        simp only [List.length_append, be_length, this, offsetsFrom_length]
      rw [List.append_assoc _ ix.data.flatten, List.drop_append_of_le_length (by omega), ← hh, List.drop_length,
        List.nil_append, List.drop_append_of_le_length, List.take_append_of_le_length, flatten_slice]
      · have := congrArg List.length (flatten_slice ix.data hi)
        simp only [List.length_take] at this
        omega
      · calc (ix.data.take i).flatten.length ≤ (ix.data.take i).flatten.length + (ix.data.drop i).flatten.length := by omega
          _ = ix.data.flatten.length := by rw [← List.length_append, ← List.flatten_append, List.take_append_drop]

example : ∃ ix, Index.read (tape ⟨true, true, 0, fun p _ => p⟩ [0, 2, 1, 1, 3, 4, 65, 66, 67]) 0 = (.ok ix, 9) ∧
    ix.data = [[65, 66], [67]] := by
  obtain ⟨ix, h1, h2, -⟩ := C07_index_round_trip (width := 1) (items := [[65, 66], [67]])
    (by refine ⟨?_, ?_, ?_, ?_⟩ <;> decide) ⟨true, true, 0, fun p _ => p⟩ [] []
  exact ⟨ix, h1, h2⟩

/-- **C09.**  Reading an INDEX ends with a value, the end of the tape, or one of
two errors; it does not panic. -/
theorem C09_index_total (cfg : Config) (data : List UInt8) (p : Nat) :
    (∃ ix q, Index.read (tape cfg data) p = (.ok ix, q)) ∨
    (∃ q, Index.read (tape cfg data) p = (.err .eof, q)) ∨
    (∃ q, Index.read (tape cfg data) p = (.err (.raised .malformedOffset), q)) ∨
    (∃ q, Index.read (tape cfg data) p = (.err (.raised .malformedIndex), q)) := by
  rcases h : Index.read (tape cfg data) p with ⟨x | e | x, q⟩
  · exact .inl ⟨x, q, rfl⟩
  · rcases errs_index _ _ _ _ h with rfl | rfl | rfl
    · exact .inr (.inl ⟨q, rfl⟩)
    · exact .inr (.inr (.inl ⟨q, rfl⟩))
    · exact .inr (.inr (.inr ⟨q, rfl⟩))
  · exact absurd h (noPanic_index _ _ _ _)

/-- **C09.**  An offset array that does not start with 1 or decreases somewhere
is rejected, whatever follows it. -/
theorem C09_index_bad_offsets {width : Nat} {offsets : List Nat} (hl : 2 ≤ offsets.length) (hl' : offsets.length ≤ 65536)
    (hf : ∀ o ∈ offsets, o < 256 ^ width) (h : offsets.head? ≠ some 1 ∨ ¬ offsets.Pairwise (· ≤ ·))
    (cfg : Config) (pre post : List UInt8) (hw : width < 256) :
    ∃ e, (Index.read (tape cfg (pre ++ (be 2 (offsets.length - 1) ++ be 1 width ++ offsets.flatMap (be width)) ++ post))
      pre.length).1 = .err e := by
  rcases C09_index_total cfg (pre ++ (be 2 (offsets.length - 1) ++ be 1 width ++ offsets.flatMap (be width)) ++ post)
    pre.length with ⟨ix, q, hr⟩ | ⟨q, hr⟩ | ⟨q, hr⟩ | ⟨q, hr⟩
  · exfalso
    obtain ⟨bs, hb, ⟨post', hp⟩, rfl⟩ := (exact_index _ _ _ q).mp hr
    have hp : bs ++ post' = be 2 (offsets.length - 1) ++ be 1 width ++ offsets.flatMap (be width) ++ post := by
      rw [hp]; simp [tape]
    have hnz : ∀ n : Nat, n ≤ 65535 → be 2 n = be 2 (offsets.length - 1) → n = offsets.length - 1 := by
      intro n hn h
      exact be_inj (by omega) (by omega) h
    rcases hb with ⟨rfl, rfl⟩ | ⟨h1, h2, h3, h4, rfl⟩
    · have := (List.append_inj (by simpa only [List.append_assoc] using hp) (by simp [be_length])).1
      have := hnz 0 (by omega) this
      omega
    · simp only [encodeIndex, if_neg h1, List.append_assoc] at hp
      have p1 := List.append_inj hp (by simp [be_length])
      have p2 := List.append_inj p1.2 (by simp [be_length])
      have hn := hnz _ h2.1 p1.1
      have hw' : ix.offsetSize.toNat = width :=
        be_inj (k := 1) (by have := ix.offsetSize.toNat_lt; omega) (by omega) p2.1
      rw [hw'] at p2
      have hlen : ∀ (l : List Nat), (l.flatMap (be width)).length = l.length * width := by
        intro l
        induction l with
        | nil => simp
        | cons x l ih => simp [ih, be_length, Nat.add_mul]; omega
      have p3 := List.append_inj p2.2 (by rw [hlen, hlen, offsetsFrom_length, hn]; congr 1; omega)
      have hinj : ∀ (l l' : List Nat), l.length = l'.length → (∀ o ∈ l, o < 256 ^ width) → (∀ o ∈ l', o < 256 ^ width) →
          l.flatMap (be width) = l'.flatMap (be width) → l = l' := by
        intro l
        induction l with
        | nil =>
          intro l' h _ _ _
          exact (List.length_eq_zero_iff.mp h.symm).symm
        | cons x l ih =>
          intro l' h a1 a2 h3
          cases l' with
          | nil => simp at h
          | cons y l' =>
            simp only [List.flatMap_cons] at h3
            have := List.append_inj h3 (by simp [be_length])
            rw [be_inj (a1 x (by simp)) (a2 y (by simp)) this.1,
              ih l' (by simpa using h) (fun o ho => a1 o (by simp [ho])) (fun o ho => a2 o (by simp [ho])) this.2]
      have hoff := hinj _ _ (by rw [offsetsFrom_length, hn]; omega)
        (fun o ho => by
          have := mem_offsetsFrom_le ho
          have h6 := h2.2.2.2
          rw [hw'] at h6
          omega) hf p3.1
      have hsound := C08_index_sound hr
      obtain ⟨-, -, h7, h8⟩ := hsound.2.2.2.2.2 h1
      rcases h with h | h
      · apply h
        rw [← hoff, ← h4, List.head?_map, h7]
        rfl
      · apply h
        rw [← hoff, ← h4, List.pairwise_map]
        exact h8.imp (fun h => UInt32.le_iff_toNat_le.mp h)
  all_goals exact ⟨_, congrArg Prod.fst hr⟩

example : ∃ e, (Index.read (tape ⟨true, true, 0, fun p _ => p⟩ [0, 2, 1, 1, 3, 2, 65, 66, 67]) 0).1 = .err e :=
  C09_index_bad_offsets (width := 1) (offsets := [1, 3, 2]) (by decide) (by decide) (by decide) (.inr (by decide))
    ⟨true, true, 0, fun p _ => p⟩ [] [65, 66, 67] (by decide)

/-- **C09.**  An offset width outside 1..4 is rejected. -/
theorem C09_index_bad_width {count : Nat} {width : UInt8} (hc : 1 ≤ count) (hc' : count ≤ 65535)
    (hw : width.toNat = 0 ∨ 4 < width.toNat) (cfg : Config) (pre post : List UInt8) :
    (Index.read (tape cfg (pre ++ (be 2 count ++ [width]) ++ post)) pre.length).1 =
      .err (.raised .malformedOffset) := by
  have hn : (UInt16.ofNat count).toNat = count := UInt16.toNat_ofNat_of_lt' (by simp [UInt16.size]; omega)
  have r1 := exact_u16.parse (a := UInt16.ofNat count) (bs := be 2 count) (by rw [hn]) cfg pre ([width] ++ post)
  have r2 := exact_u8.parse (a := width) (bs := [width]) rfl cfg (pre ++ be 2 count) post
  simp only [List.length_append, be_length, List.append_assoc] at r1 r2
  simp only [List.append_assoc, tape]
  unfold Index.read
  rw [Rd.bind_of_ok r1, if_neg, Rd.bind_of_ok r2]
  · have : Rd.replicate ((UInt16.ofNat count).toNat + 1) (readOffset width)
        { cfg := cfg, data := pre ++ (be 2 count ++ ([width] ++ post)) } (pre.length + 2 + [width].length) =
        (.err (.raised .malformedOffset), pre.length + 2 + [width].length) := by
      rw [Rd.replicate]
      exact Rd.bind_of_err (C06_offset_bad_size hw _ _)
    rw [Rd.bind_of_err this]
  · intro h
    have := congrArg UInt16.toNat h
    rw [hn] at this
    simp at this
    omega

example (cfg : Config) (post : List UInt8) : (Index.read (tape cfg ([7] ++ [0, 2, 5] ++ post)) 1).1 = .err (.raised .malformedOffset) :=
  C09_index_bad_width (count := 2) (width := 5) (by decide) (by decide) (.inr (by decide)) cfg [7] post

/-- **C09.**  An INDEX cut short by the end of the tape is reported as the end of
the tape. -/
theorem C09_index_truncated {width : Nat} {items : List (List UInt8)} (h : IndexFits width items)
    (cfg : Config) (pre : List UInt8) {n : Nat} (hn : n < (encodeIndex width items).length) :
    (Index.read (tape cfg (pre ++ (encodeIndex width items).take n)) pre.length).1 = .err .eof := by
  obtain ⟨ix, hr, -⟩ := C07_index_round_trip h cfg pre []
  rw [List.append_nil] at hr
  obtain ⟨q, hq⟩ := trunc_index _ _ _ _ _ (pre.length + n) hr (by omega) (by omega)
  rw [List.take_length_add_append] at hq
  exact congrArg Prod.fst hq

/-- An INDEX of two chunks, without the last byte. -/
example (cfg : Config) : (Index.read (tape cfg [0, 2, 1, 1, 3, 4, 65, 66]) 0).1 = .err .eof :=
  C09_index_truncated (width := 1) (items := [[65, 66], [67]]) (by refine ⟨?_, ?_, ?_, ?_⟩ <;> decide) cfg [] (n := 8) (by decide)

end PS
