import Verif.Model.Index
import Verif.Spec.Index
import Verif.Lemmas.Number
/-!
# Lemmas about INDEXes
-/
namespace PS
open Spec

theorem offsetsFrom_length (o : Nat) (items : List (List UInt8)) :
    (offsetsFrom o items).length = items.length + 1 := by
  induction items generalizing o with
  | nil => rfl
  | cons a as ih => simp [offsetsFrom, ih]

theorem mem_offsetsFrom_le {o x : Nat} {items : List (List UInt8)} (h : x ∈ offsetsFrom o items) :
    o ≤ x ∧ x ≤ o + items.flatten.length := by
  induction items generalizing o with
  | nil => simp [offsetsFrom] at h; simp [h]
  | cons a as ih =>
    simp only [offsetsFrom, List.mem_cons] at h
    rcases h with rfl | h
    · simp
    · have := ih h
      simp only [List.flatten_cons, List.length_append]
      omega

theorem exact_bytes (n : Nat) (hn : n ≤ 2 ^ 63 - 1) :
    Exact (Rd.bytes n) (fun a bs => a = bs ∧ bs.length = n) := by
  refine Exact.congr (exact_vec exact_u8 1 n (by omega)) ?_
  intro a bs
  have := seq_singleton_iff (f := fun b : UInt8 => b) (as := a) (bs := bs)
  simp only [List.map_id'] at this
  rw [this]
  constructor
  · rintro ⟨h, rfl⟩; exact ⟨rfl, h⟩
  · rintro ⟨rfl, h⟩; exact ⟨h, rfl⟩

theorem subU32_ok {c : Bool} {a b : UInt32} (h : ¬ b < a) : subU32 c b a = .ok (b - a) := by
  unfold subU32
  rw [if_pos (by simpa [UInt32.not_lt] using h)]

theorem ofRes_ok (a : α) : Rd.ofRes (.ok a) = pure a := rfl

theorem cfg_bind {f : Config → Rd α} (env : Env) (p : Nat) : (Rd.cfg >>= f) env p = f env.cfg env p := rfl

theorem Exact.cfg_bind {f : Config → Rd α} {R : α → List UInt8 → Prop} (h : ∀ c, Exact (f c) R) :
    Exact (Rd.cfg >>= f) R := by
  intro env p a q
  rw [PS.cfg_bind]
  exact h _ env p a q

theorem sub_toNat {a b : UInt32} (h : ¬ b < a) : (b - a).toNat = b.toNat - a.toNat :=
  UInt32.toNat_sub_of_le _ _ (by simpa [UInt32.not_lt] using h)

theorem exact_readData (a : UInt32) (rest : List UInt32) :
    Exact (Index.readData (a :: rest)) (fun data bs =>
      (a :: rest).map UInt32.toNat = offsetsFrom a.toNat data ∧ bs = data.flatten) := by
  induction rest generalizing a with
  | nil =>
    refine Exact.congr (Exact.pure _) ?_
    intro data bs
    constructor
    · rintro ⟨rfl, rfl⟩; exact ⟨rfl, rfl⟩
    · rintro ⟨h, rfl⟩
      cases data with
      | nil => exact ⟨rfl, rfl⟩
      | cons x xs =>
        have := congrArg List.length h
        simp [offsetsFrom, offsetsFrom_length] at this
  | cons b rest ih =>
    rw [Index.readData]
    split
    · rename_i hlt
      refine Exact.congr (Exact.raise _) ?_
      intro data bs
      constructor
      · exact False.elim
      · rintro ⟨h, -⟩
        have hlt : b.toNat < a.toNat := hlt
        cases data with
        | nil => simp [offsetsFrom] at h
        | cons x xs =>
          simp only [offsetsFrom, List.map_cons, List.cons.injEq, true_and] at h
          cases xs <;> simp [offsetsFrom] at h <;> omega
    · rename_i hlt
      have hs := sub_toNat hlt
      have hle : a.toNat ≤ b.toNat := by simpa [UInt32.not_lt, UInt32.le_iff_toNat_le] using hlt
      have hb := b.toNat_lt
      refine Exact.cfg_bind (fun c => ?_)
      rw [subU32_ok hlt, ofRes_ok, rd_pure_bind]
      refine Exact.congr (Exact.bind (exact_bytes _ (by rw [hs]; omega)) (fun chunk =>
        Exact.bind (ih b) (fun data => Exact.pure _))) ?_
      intro data bs
      rw [hs]
      constructor
      · rintro ⟨chunk, b1, b2, rfl, ⟨rfl, hl⟩, xs, c1, c2, rfl, ⟨h1, rfl⟩, rfl, rfl⟩
        refine ⟨?_, by simp⟩
        simp only [offsetsFrom, List.map_cons, List.cons.injEq, true_and]
        rw [show a.toNat + chunk.length = b.toNat by omega, ← h1]
        rfl
      · rintro ⟨h, rfl⟩
        cases data with
        | nil => simp [offsetsFrom] at h
        | cons x xs =>
          simp only [offsetsFrom, List.map_cons, List.cons.injEq, true_and] at h
          have hx : b.toNat = a.toNat + x.length := by
            cases xs <;> simp [offsetsFrom] at h <;> omega
          refine ⟨x, x, xs.flatten, by simp, ⟨rfl, by omega⟩, xs, xs.flatten, [], by simp, ⟨?_, rfl⟩, rfl, rfl⟩
          rw [hx]
          rw [List.map_cons, hx]
          rw [← hx] at h ⊢
          exact h

/-- The serialised forms of an index. -/
def IndexEnc (ix : Index) (bs : List UInt8) : Prop :=
  (ix = Index.empty ∧ bs = be 2 0) ∨
  (ix.data ≠ [] ∧ IndexFits ix.offsetSize.toNat ix.data ∧ ix.count.toNat = ix.data.length ∧
    ix.offsets.map UInt32.toNat = offsetsFrom 1 ix.data ∧
    bs = encodeIndex ix.offsetSize.toNat ix.data)

theorem seq_offset {size : UInt8} {as : List UInt32} {bs : List UInt8} :
    Seq (OffsetEnc size) as bs ↔
      (as ≠ [] → 1 ≤ size.toNat ∧ size.toNat ≤ 4) ∧ (∀ a ∈ as, a.toNat < 256 ^ size.toNat) ∧
      bs = as.flatMap fun a => be size.toNat a.toNat := by
  constructor
  · intro h
    induction h with
    | nil => simp
    | cons h _ ih =>
      obtain ⟨h1, h2, h3, rfl⟩ := h
      refine ⟨fun _ => ⟨h1, h2⟩, ?_, ?_⟩
      · simp only [List.mem_cons, forall_eq_or_imp]
        exact ⟨h3, ih.2.1⟩
      · simp [ih.2.2]
  · rintro ⟨h1, h2, rfl⟩
    induction as with
    | nil => exact .nil
    | cons a as ih =>
      simp only [List.mem_cons, forall_eq_or_imp] at h2
      have h1 := h1 (by simp)
      exact Seq.cons (b := be size.toNat a.toNat) ⟨h1.1, h1.2, h2.1, rfl⟩ (ih (fun _ => h1) h2.2)

theorem be_one (n : UInt8) : be 1 n.toNat = [n] := by
  simp [be]

theorem exact_index : Exact Index.read IndexEnc := by
  unfold Index.read
  refine Exact.congr (Exact.bind (S := fun count ix bs =>
      (count = 0 ∧ ix = Index.empty ∧ bs = []) ∨
      (count ≠ 0 ∧ ix.count = count ∧ ix.offsets.length = count.toNat + 1 ∧
        1 ≤ ix.offsetSize.toNat ∧ ix.offsetSize.toNat ≤ 4 ∧
        (∀ a ∈ ix.offsets, a.toNat < 256 ^ ix.offsetSize.toNat) ∧
        ix.offsets.map UInt32.toNat = offsetsFrom 1 ix.data ∧
        bs = [ix.offsetSize] ++ (ix.offsets.flatMap fun a => be ix.offsetSize.toNat a.toNat) ++ ix.data.flatten))
    exact_u16 (fun count => ?_)) ?_
  · split
    · subst count
      refine Exact.congr (Exact.pure _) ?_
      intro ix bs
      simp
    · rename_i hc
      refine Exact.congr (Exact.bind exact_u8 (fun size =>
        Exact.bind (exact_replicate (exact_offset size) (count.toNat + 1)) (S := fun offsets ix bs =>
          offsets.map UInt32.toNat = offsetsFrom 1 ix.data ∧ ix.count = count ∧ ix.offsetSize = size ∧
          ix.offsets = offsets ∧ bs = ix.data.flatten) (fun offsets => ?_))) ?_
      · match offsets with
        | [] =>
          refine Exact.congr (Exact.never (by intro env p a q; simp [Rd.panic])) ?_
          intro ix bs
          constructor
          · exact False.elim
          · rintro ⟨h, -⟩
            cases hd : ix.data <;> rw [hd] at h <;> simp [offsetsFrom] at h
        | first :: rest =>
          simp only []
          split
          · rename_i hf
            refine Exact.congr (Exact.raise _) ?_
            intro ix bs
            constructor
            · exact False.elim
            · rintro ⟨h, -⟩
              have h1 : first.toNat = 1 := by
                cases hd : ix.data <;> rw [hd] at h <;> simp [offsetsFrom] at h <;> omega
              exact (hf (UInt32.toNat_inj.mp h1)).elim
          · rename_i hf
            have hf : first = 1 := by simpa using hf
            refine Exact.congr (Exact.bind (exact_readData first rest) (fun data => Exact.pure _)) ?_
            intro ix bs
            constructor
            · rintro ⟨data, b1, b2, rfl, ⟨h1, rfl⟩, rfl, rfl⟩
              rw [hf] at h1 ⊢
              exact ⟨h1, rfl, rfl, rfl, by simp⟩
            · rintro ⟨h1, h2, h3, h4, rfl⟩
              refine ⟨ix.data, ix.data.flatten, [], by simp, ⟨?_, rfl⟩, ?_, rfl⟩
              · rw [h1, hf]; rfl
              · subst h2 h3; rw [← h4]
      · intro ix bs
        constructor
        · rintro ⟨size, b1, b2, rfl, rfl, offsets, c1, c2, rfl, ⟨hl, hs⟩, h1, rfl, rfl, rfl, rfl⟩
          rw [seq_offset] at hs
          obtain ⟨hs1, hs2, rfl⟩ := hs
          have hs1 := hs1 (by intro h; rw [h] at hl; simp at hl)
          exact .inr ⟨hc, rfl, hl, hs1.1, hs1.2, hs2, h1, by simp⟩
        · rintro (⟨h, -⟩ | ⟨-, h1, h2, h3, h4, h5, h6, rfl⟩)
          · exact absurd h hc
          · refine ⟨ix.offsetSize, [ix.offsetSize], _, List.append_assoc _ _ _, rfl, ix.offsets, _, _, rfl,
              ⟨h2, ?_⟩, h6, h1, rfl, rfl, rfl⟩
            rw [seq_offset]
            exact ⟨fun _ => ⟨h3, h4⟩, h5, rfl⟩
  · intro ix bs
    constructor
    · rintro ⟨count, b1, b2, rfl, rfl, ⟨rfl, rfl, rfl⟩ | ⟨hc, h1, h2, h3, h4, h5, h6, rfl⟩⟩
      · exact .inl ⟨rfl, rfl⟩
      · have hl := congrArg List.length h6
        rw [offsetsFrom_length, List.length_map] at hl
        have hcl : count.toNat = ix.data.length := by omega
        have hn : ix.data ≠ [] := by
          intro h
          rw [h] at hcl
          exact hc (UInt16.toNat_inj.mp hcl)
        have hct := count.toNat_lt
        refine .inr ⟨hn, ⟨by omega, h3, h4, ?_⟩, by rw [h1]; exact hcl, h6, ?_⟩
        · -- the last offset is in the list
          have hm : 1 + ix.data.flatten.length ∈ offsetsFrom 1 ix.data := by
            have : ∀ (l : List (List UInt8)) o, o + l.flatten.length ∈ offsetsFrom o l := by
              intro l
              induction l with
              | nil => intro o; simp [offsetsFrom]
              | cons x xs ih =>
                intro o
                have := ih (o + x.length)
                simp only [offsetsFrom, List.mem_cons, List.flatten_cons, List.length_append]
                right
                rwa [← Nat.add_assoc]
            exact this _ _
          rw [← h6] at hm
          obtain ⟨a, ha, hae⟩ := List.mem_map.mp hm
          rw [← hae]
          exact h5 a ha
        · unfold encodeIndex
          rw [if_neg hn, ← h6, ← hcl, be_one, List.flatMap_map]
          simp
    · rintro (⟨rfl, rfl⟩ | ⟨hn, ⟨h1, h2, h3, h4⟩, h5, h6, rfl⟩)
      · exact ⟨0, be 2 0, [], rfl, rfl, .inl ⟨rfl, rfl, rfl⟩⟩
      · have hl := congrArg List.length h6
        rw [offsetsFrom_length, List.length_map] at hl
        refine ⟨ix.count, be 2 ix.count.toNat, _, ?_, rfl, .inr ⟨?_, rfl, by omega, h2, h3, ?_, h6, rfl⟩⟩
        · unfold encodeIndex
          rw [if_neg hn, ← h6, ← h5, be_one, List.flatMap_map]
          simp
        · intro h
          rw [h] at h5
          exact hn (List.length_eq_zero_iff.mp h5.symm)
        · intro a ha
          have := mem_offsetsFrom_le (o := 1) (x := a.toNat) (items := ix.data)
            (by rw [← h6]; exact List.mem_map_of_mem ha)
          omega

/-- The errors of reading an index. -/
def IndexErr (e : Err) : Prop :=
  e = .eof ∨ e = .raised .malformedOffset ∨ e = .raised .malformedIndex

theorem noPanic_bytes (n : Nat) (hn : n ≤ 2 ^ 63 - 1) : NoPanic (Rd.bytes n) :=
  NoPanic.vec NoPanic.u8 1 n (by omega)

theorem errs_bytes (n : Nat) (E : Err → Prop) (h : E .eof) : Errs (Rd.bytes n) E :=
  Errs.vec (Errs.u8 h) 1 n

theorem noPanic_readData (offsets : List UInt32) : NoPanic (Index.readData offsets) := by
  match offsets with
  | [] => exact NoPanic.pure _
  | [a] => exact NoPanic.pure _
  | a :: b :: rest =>
    rw [Index.readData]
    refine NoPanic.ite (fun _ => NoPanic.raise _) (fun hlt => NoPanic.bind NoPanic.cfg (fun c => ?_))
    rw [subU32_ok hlt, ofRes_ok, rd_pure_bind]
    have hb := b.toNat_lt
    have hs := sub_toNat hlt
    refine NoPanic.bind (noPanic_bytes _ (by rw [hs]; omega)) (fun _ =>
      NoPanic.bind (noPanic_readData (b :: rest)) (fun _ => NoPanic.pure _))

theorem errs_subU32 (c : Bool) (a b : UInt32) (E : Err → Prop) : Errs (Rd.ofRes (subU32 c a b)) E := by
  refine Errs.ofRes ?_
  intro e h
  unfold subU32 at h
  split at h <;> (try split at h) <;> simp at h

theorem errs_readData (offsets : List UInt32) : Errs (Index.readData offsets) IndexErr := by
  match offsets with
  | [] => exact Errs.pure _ _
  | [a] => exact Errs.pure _ _
  | a :: b :: rest =>
    rw [Index.readData]
    refine Errs.ite (fun _ => Errs.raise (.inr (.inr rfl))) (fun hlt => Errs.bind (Errs.cfg _) (fun c => ?_))
    refine Errs.bind (errs_subU32 _ _ _ _) (fun _ => Errs.bind (errs_bytes _ _ (.inl rfl)) (fun _ =>
      Errs.bind (errs_readData (b :: rest)) (fun _ => Errs.pure _ _)))

/-- Replication yields as many elements as asked for. -/
theorem replicate_length {m : Rd α} {n : Nat} {env : Env} {p q : Nat} {as : List α}
    (h : Rd.replicate n m env p = (.ok as, q)) : as.length = n := by
  induction n generalizing p as q with
  | zero => simp [Rd.replicate, Rd.pure_eq] at h; rw [h.1]; rfl
  | succ n ih =>
    obtain ⟨a, p', h1, h2⟩ := Rd.bind_ok.mp h
    obtain ⟨as', p'', h3, h4⟩ := Rd.bind_ok.mp h2
    simp only [Rd.pure_eq, Prod.mk.injEq, Res.ok.injEq] at h4
    rw [← h4.1, List.length_cons, ih h3]

theorem noPanic_index : NoPanic Index.read := by
  unfold Index.read
  refine NoPanic.bind NoPanic.u16 (fun count => NoPanic.ite (fun _ => NoPanic.pure _) (fun _ =>
    NoPanic.bind NoPanic.u8 (fun size => ?_)))
  intro env p x q h
  rcases Rd.bind_panic.mp h with h | ⟨offsets, p', h1, h2⟩
  · exact NoPanic.replicate (noPanic_offset size) _ _ _ _ _ h
  · have hl := replicate_length h1
    match offsets, hl with
    | first :: rest, _ =>
      exact NoPanic.ite (fun _ => NoPanic.raise _) (fun _ => NoPanic.bind (noPanic_readData _)
        (fun _ => NoPanic.pure _)) env p' x q h2

theorem errs_index : Errs Index.read IndexErr := by
  unfold Index.read
  have h0 : IndexErr .eof := .inl rfl
  refine Errs.bind (Errs.u16 h0) (fun count => Errs.ite (fun _ => Errs.pure _ _) (fun _ =>
    Errs.bind (Errs.u8 h0) (fun size => Errs.bind (Errs.replicate ((errs_offset size).mono ?_) _) (fun offsets => ?_))))
  · rintro e (h | h)
    · exact .inl h
    · exact .inr (.inl h)
  · match offsets with
    | [] => exact Errs.panic _
    | first :: rest =>
      exact Errs.ite (fun _ => Errs.raise (.inr (.inr rfl))) (fun _ => Errs.bind (errs_readData _)
        (fun _ => Errs.pure _ _))

/-! ## Truncation -/

theorem trunc_offset (size : UInt8) : Trunc (readOffset size) := by
  unfold readOffset
  repeat' with_reducible first
    | refine Trunc.ite (fun _ => ?_) (fun _ => ?_)
    | exact Trunc.bind trunc_u8 exact_u8 (fun _ => Trunc.pure _)
    | exact Trunc.bind trunc_u16 exact_u16 (fun _ => Trunc.pure _)
    | exact Trunc.bind (trunc_readExact 3) (exact_readExact 3) (fun _ => Trunc.pure _)
    | exact trunc_u32
    | exact Trunc.raise _

theorem trunc_bytes (n : Nat) (hn : n ≤ 2 ^ 63 - 1) : Trunc (Rd.bytes n) :=
  Trunc.vec trunc_u8 exact_u8 1 n (by omega)

theorem trunc_readData (offsets : List UInt32) : Trunc (Index.readData offsets) := by
  match offsets with
  | [] => exact Trunc.pure _
  | [a] => exact Trunc.pure _
  | a :: b :: rest =>
    rw [Index.readData]
    refine Trunc.ite (fun _ => Trunc.raise _) (fun hlt => Trunc.cfg_bind (fun c => ?_))
    rw [subU32_ok hlt, ofRes_ok, rd_pure_bind]
    have hb := b.toNat_lt
    have hs := sub_toNat hlt
    exact Trunc.bind (trunc_bytes _ (by rw [hs]; omega)) (exact_bytes _ (by rw [hs]; omega)) (fun _ =>
      Trunc.bind (trunc_readData (b :: rest)) (exact_readData _ _) (fun _ => Trunc.pure _))

theorem trunc_index : Trunc Index.read := by
  unfold Index.read
  refine Trunc.bind trunc_u16 exact_u16 (fun count => Trunc.ite (fun _ => Trunc.pure _) (fun _ =>
    Trunc.bind trunc_u8 exact_u8 (fun size => Trunc.bind (Trunc.replicate (trunc_offset size) (exact_offset size) _)
      (exact_replicate (exact_offset size) _) (fun offsets => ?_))))
  match offsets with
  | [] => exact Trunc.panic _
  | first :: rest =>
    exact Trunc.ite (fun _ => Trunc.raise _) (fun _ => Trunc.bind (trunc_readData _) (exact_readData _ _)
      (fun _ => Trunc.pure _))

end PS
