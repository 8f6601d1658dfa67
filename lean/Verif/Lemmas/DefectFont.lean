import Verif.Lemmas.Defect
/-!
# Lemmas: how reading a font set fails, continued
-/
namespace PS
open Spec

/-! ## FDSelect -/

/-- A first byte that is peeked at. -/
theorem fails_peek_bind {env : Env} {p : Nat} {f : Failure} {g : UInt8 → Rd α} :
    Fails env (Rd.peek Rd.u8 >>= g) p f ↔ (f = ends ∧ env.data.length ≤ p) ∨ ∃ b, Sits env.data p [b] ∧ Fails env (g b) p f := by
  rcases hl : env.data.drop p with _ | ⟨b, l⟩
  · have h := peek_u8_eof env p hl
    have hp : env.data.length ≤ p := by simpa using hl
    rw [Fails.bind]
    constructor
    · rintro (⟨q, hq⟩ | ⟨_, _, h1, _⟩)
      · rw [h] at hq
        cases f <;> simp [Failure.result] at hq
        rw [← hq.1]
        exact .inl ⟨rfl, hp⟩
      · rw [h] at h1
        simp at h1
    · rintro (⟨rfl, -⟩ | ⟨b, hb, -⟩)
      · exact .inl ⟨p, h⟩
      · unfold Sits at hb
        rw [hl] at hb
        simp at hb
  · have h := peek_u8 env p b l hl
    rw [Fails.bind_of_ok h]
    have hp : ¬ env.data.length ≤ p := by
      intro h
      rw [List.drop_eq_nil_of_le h] at hl
      simp at hl
    constructor
    · intro h
      exact .inr ⟨b, ⟨l, hl.symm⟩, h⟩
    · rintro (⟨-, h⟩ | ⟨c, hc, h⟩)
      · exact absurd h hp
      · unfold Sits at hc
        rw [hl] at hc
        simp only [List.cons_prefix_cons, List.nil_prefix, and_true] at hc
        exact hc ▸ h

/-- The same byte at the same place. -/
theorem sits_byte {data l : List UInt8} {p : Nat} {b c : UInt8} (h1 : Sits data p (b :: l)) (h2 : Sits data p [c]) : b = c := by
  unfold Sits at h1 h2
  rcases hl : data.drop p with _ | ⟨d, t⟩
  · rw [hl] at h1; simp at h1
  · rw [hl] at h1 h2
    simp only [List.cons_prefix_cons, List.nil_prefix, and_true] at h1 h2
    exact h1.1.trans h2.symm

theorem sits_cons {data l : List UInt8} {p : Nat} {b : UInt8} : Sits data p (b :: l) ↔ Sits data p [b] ∧ Sits data (p + 1) l := by
  rw [← List.singleton_append, sits_app]
  rfl

theorem sits_u16 {data : List UInt8} {p n : Nat} {v : UInt16} (hn : n < 65536) (h1 : Sits data p (be 2 n))
    (h2 : Sits data p (be 2 v.toNat)) : v.toNat = n := by
  have h := List.prefix_of_prefix_length_le h1 h2 (by simp [be_length])
  have h := h.eq_of_length (by simp [be_length])
  exact (be_inj (by omega) (by have := v.toNat_lt; omega) h).symm

theorem Wide.range3 : Wide DictEncoding.readRange3 3 := Wide.bind Wide.u16 (fun _ => Wide.map Wide.u8)

theorem fails_select {env : Env} {p : Nat} {f : Failure} (cs : Index) :
    Fails env (DictEncoding.read cs) p f ↔ SelectFault env.data p cs.count.toNat f := by
  unfold DictEncoding.read
  have hc := cs.count.toNat_lt
  rw [fails_peek_bind]
  have f0 : Sits env.data p [0] → (Fails env (DictEncoding.read0 cs) p f ↔ f = ends ∧ env.data.length < p + 1 + cs.count.toNat) := by
    intro h0
    unfold DictEncoding.read0
    have hw : Wide (do let format ← Rd.u8; let ids ← Rd.vec 1 cs.count.toNat Rd.u8; pure (DictEncoding.format0 format ids))
        (1 + cs.count.toNat) := by
      have := Wide.vec Wide.u8 1 cs.count.toNat (by omega)
      rw [Nat.mul_one] at this
      exact Wide.bind Wide.u8 (fun _ => Wide.map this)
    rw [hw.fails]
    constructor
    · rintro ⟨h1, h2, -⟩; exact ⟨h1, by omega⟩
    · rintro ⟨h1, h2⟩; exact ⟨h1, by omega, by omega⟩
  have f3 : Sits env.data p [3] → (Fails env DictEncoding.read3 p f ↔ f = ends ∧ (env.data.length < p + 3 ∨
      ∃ n, n < 65536 ∧ Sits env.data p (3 :: be 2 n) ∧ env.data.length < p + 3 + 3 * n + 2)) := by
    intro h0
    unfold DictEncoding.read3
    have hl := sits_bound h0 (by simp)
    rw [Wide.u8.fails_bind exact_u8]
    have tail : ∀ n : UInt16, Wide (do let rs ← Rd.vec 4 n.toNat DictEncoding.readRange3; let gc ← Rd.u16
                                       pure (DictEncoding.format3 3 n rs gc)) (n.toNat * 3 + 2) := by
      intro n
      have := n.toNat_lt
      exact Wide.bind (Wide.vec Wide.range3 4 n.toNat (by omega)) (fun _ => Wide.map Wide.u16)
    constructor
    · rintro (⟨-, h1, -⟩ | ⟨b, _, rfl, h1, h⟩)
      · simp at hl; omega
      have hb := sits_byte h0 h1
      subst hb
      simp only [ne_eq, not_true_eq_false, if_false] at h
      rw [Wide.u16.fails_bind exact_u16] at h
      rcases h with ⟨rfl, h, -⟩ | ⟨n, _, rfl, h2, h⟩
      · exact ⟨rfl, .inl (by omega)⟩
      · rw [(tail n).fails] at h
        obtain ⟨rfl, h, -⟩ := h
        exact ⟨rfl, .inr ⟨n.toNat, n.toNat_lt, sits_cons.mpr ⟨h0, h2⟩, by omega⟩⟩
    · rintro ⟨rfl, h⟩
      refine .inr ⟨3, _, rfl, h0, ?_⟩
      simp only [ne_eq, not_true_eq_false, if_false]
      rw [Wide.u16.fails_bind exact_u16]
      by_cases h3 : env.data.length < p + 3
      · exact .inl ⟨rfl, by omega, by omega⟩
      · rcases h with h | ⟨n, h1, h2, h4⟩
        · exact absurd h h3
        · obtain ⟨v, rfl⟩ := u16_of n h1
          refine .inr ⟨v, _, rfl, (sits_cons.mp h2).2, ?_⟩
          rw [(tail v).fails]
          exact ⟨rfl, by omega, by omega⟩
  constructor
  · rintro (⟨rfl, h⟩ | ⟨b, hb, h⟩)
    · exact .nothing h
    by_cases h0 : b = 0
    · rw [if_pos h0] at h
      subst h0
      obtain ⟨rfl, h'⟩ := (f0 hb).mp h
      exact .identifiers hb h'
    rw [if_neg h0] at h
    by_cases h3 : b = 3
    · rw [if_pos h3] at h
      subst h3
      obtain ⟨rfl, h' | ⟨n, h1, h2, h'⟩⟩ := (f3 hb).mp h
      · exact .number hb h'
      · exact .ranges h1 h2 h'
    · rw [if_neg h3, Fails.raise] at h
      subst h
      exact .format hb h0 h3
  · intro hf
    cases hf with
    | nothing h => exact .inl ⟨rfl, h⟩
    | format hb h0 h3 =>
      refine .inr ⟨_, hb, ?_⟩
      rw [if_neg h0, if_neg h3, Fails.raise]
    | identifiers hb h =>
      refine .inr ⟨_, hb, ?_⟩
      rw [if_pos rfl]
      exact (f0 hb).mpr ⟨rfl, h⟩
    | number hb h =>
      refine .inr ⟨_, hb, ?_⟩
      rw [if_neg (by decide), if_pos rfl]
      exact (f3 hb).mpr ⟨rfl, .inl h⟩
    | ranges h1 h2 h =>
      have hb := (sits_cons.mp h2).1
      refine .inr ⟨_, hb, ?_⟩
      rw [if_neg (by decide), if_pos rfl]
      exact (f3 hb).mpr ⟨rfl, .inr ⟨_, h1, h2, h⟩⟩

/-! ## Records keyed by character identifiers -/

theorem fails_any_bind {env : Env} {m : Rd α} {g : α → Rd β} {S : α → Prop} {E : Failure → Prop} {G : α → Failure → Prop}
    (hm : ∀ p f, Fails env m p f ↔ E f) (hs : Any env m S) (hg : ∀ a, S a → ∀ p f, Fails env (g a) p f ↔ G a f) (p : Nat)
    (f : Failure) : Fails env (m >>= g) p f ↔ E f ∨ ∃ a, S a ∧ G a f := by
  rw [Fails.bind, hm]
  refine or_congr Iff.rfl ⟨?_, ?_⟩
  · rintro ⟨a, p', h1, h2⟩
    have ha := (hs p a).mp ⟨p', h1⟩
    exact ⟨a, ha, (hg a ha p' f).mp h2⟩
  · rintro ⟨a, ha, h2⟩
    obtain ⟨p', h1⟩ := (hs p a).mpr ha
    exact ⟨a, p', h1, (hg a ha p' f).mpr h2⟩

theorem fails_list {A B : Type} {env : Env} {read : A → Rd B} {readAll : List A → Rd (List B)} {S : A → B → Prop}
    {E : A → Failure → Prop} (h0 : readAll [] = pure [])
    (h1 : ∀ a l, readAll (a :: l) = (read a >>= fun b => readAll l >>= fun bs => pure (b :: bs))) (l : List A)
    (hs : ∀ a ∈ l, Any env (read a) (S a)) (he : ∀ a ∈ l, ∀ p f, Fails env (read a) p f ↔ E a f) :
    ∀ p f, Fails env (readAll l) p f ↔ ∃ before a after, l = before ++ a :: after ∧ (∀ x ∈ before, ∃ b, S x b) ∧ E a f := by
  induction l with
  | nil =>
    intro p f
    rw [h0]
    constructor
    · intro h; exact absurd h (Fails.pure _)
    · rintro ⟨before, a, after, h, -⟩; simp at h
  | cons a l ih =>
    have ih := ih (fun a ha => hs a (by simp [ha])) (fun a ha => he a (by simp [ha]))
    intro p f
    rw [h1, fails_any_bind (he a (by simp)) (hs a (by simp)) (fun b _ p f => Fails.map.trans (ih p f))]
    constructor
    · rintro (h | ⟨b, h, before, x, after, rfl, h2, h3⟩)
      · exact ⟨[], a, l, rfl, by simp, h⟩
      · refine ⟨a :: before, x, after, rfl, ?_, h3⟩
        intro y hy
        rcases List.mem_cons.mp hy with rfl | hy
        · exact ⟨b, h⟩
        · exact h2 y hy
    · rintro ⟨before, x, after, h, h2, h3⟩
      cases before with
      | nil =>
        simp only [List.nil_append, List.cons.injEq] at h
        obtain ⟨rfl, rfl⟩ := h
        exact .inl h3
      | cons y before =>
        simp only [List.cons_append, List.cons.injEq] at h
        obtain ⟨rfl, rfl⟩ := h
        obtain ⟨b, hb⟩ := h2 a (by simp)
        exact .inr ⟨b, hb, before, x, after, rfl, fun z hz => h2 z (by simp [hz]), h3⟩

theorem fails_stringID {n : Number} {f : Failure} :
    stringIDOfNumber n = f.result ↔ f = complaint .malformedStringID ∧ ∀ id, ¬ StandsForID n id := by
  constructor
  · intro h
    have hn : ∀ id, ¬ StandsForID n id := by
      intro id hid
      rw [stringID_ok.mpr hid] at h
      cases f <;> simp [Failure.result] at h
    refine ⟨?_, hn⟩
    unfold stringIDOfNumber at h
    repeat' split at h
    all_goals cases f <;> simp [Failure.result] at h
    all_goals rw [← h]; rfl
  · rintro ⟨rfl, h⟩
    rcases hr : stringIDOfNumber n with id | e | x
    · exact absurd (stringID_ok.mp hr) (h id)
    · unfold stringIDOfNumber at hr
      repeat' split at hr
      all_goals simp at hr
      all_goals rw [← hr]; rfl
    · exact absurd hr (stringID_no_panic _ _)

theorem fails_privates {env : Env} (hd : env.data.length < 2 ^ 61) {base : Nat} {tops : List Operations}
    (ht : ∀ o ∈ tops, Small o) : ∀ p f, Fails env (readPrivateRecords base tops) p f ↔ ∃ before o after,
      tops = before ++ o :: after ∧ (∀ x ∈ before, ∃ r, PrivateAt (machine env.cfg base) env.data x r) ∧
      PrivateFault env.cfg env.data base o f :=
  fails_list (read := PrivateRecord.read base) (readAll := readPrivateRecords base) rfl (fun _ _ => rfl) tops (fun o ho => any_private env hd base o (ht o ho))
    (fun o ho _ _ => fails_private hd (ht o ho))

theorem forall₂_exists {α β : Type} {R : α → β → Prop} {l : List α} : (∃ m, List.Forall₂ R l m) ↔ ∀ a ∈ l, ∃ b, R a b := by
  constructor
  · rintro ⟨m, h⟩ a ha
    obtain ⟨b, -, hb⟩ := forall₂_left_mem h ha
    exact ⟨b, hb⟩
  · intro h
    induction l with
    | nil => exact ⟨[], .nil⟩
    | cons a l ih =>
      obtain ⟨b, hb⟩ := h a (by simp)
      obtain ⟨m, hm⟩ := ih (fun a ha => h a (by simp [ha]))
      exact ⟨b :: m, .cons hb hm⟩

theorem fails_cid {env : Env} (hd : env.data.length < 2 ^ 61) {base : Nat} {top : Operations} {l : List Number}
    (hr : top.map .opROS = some l) (cs : Index) :
    ∀ p f, Fails env (CIDRecord.read base top cs) p f ↔ CIDFault env.cfg env.data base top cs.count.toNat f := by
  intro p f
  unfold CIDRecord.read
  rw [get_ros, hr]
  by_cases hl : l.length = 3
  rotate_left
  · have h1 : Fails env (match some l with
        | some [registry, ordering, supplement] => do
          let c ← Rd.cfg
          let offset ← Rd.ofRes (getI top .opFDSelect)
          jumpTo base offset
          let encoding ← DictEncoding.read cs
          let offset ← Rd.ofRes (getI top .opFDArray)
          jumpTo base offset
          let dictionaries ← Index.read
          let operations ← Rd.ofRes (dictionaries.toOperations c)
          let records ← readPrivateRecords base operations
          let registry ← Rd.ofRes (stringIDOfNumber registry)
          let ordering ← Rd.ofRes (stringIDOfNumber ordering)
          pure { registry, ordering, supplement, encoding, operations, records : CIDRecord }
        | _ => Rd.raise .malformedRecord) p f ↔ f = complaint .malformedRecord := by
      rcases l with _ | ⟨a, _ | ⟨b, _ | ⟨c, _ | ⟨d, l⟩⟩⟩⟩
      · exact Fails.raise
      · exact Fails.raise
      · exact Fails.raise
      · simp at hl
      · exact Fails.raise
    refine h1.trans ⟨?_, ?_⟩
    · rintro rfl
      exact .operands hr hl
    · intro hf
      cases hf with
      | operands h => rfl
      | _ h => rw [hr] at h; injection h with h; subst h; simp at hl
  · obtain ⟨a, b, c, rfl⟩ : ∃ a b c, l = [a, b, c] := by
      rcases l with _ | ⟨a, _ | ⟨b, _ | ⟨c, _ | ⟨d, l⟩⟩⟩⟩ <;> simp at hl
      exact ⟨a, b, c, rfl⟩
    simp only
    rw [Fails.cfg_bind, fails_getI_bind (by simp [Sought])]
    have small : ∀ {ix : Index} {ops : List Operations}, List.Forall₂ DictOf ix.data ops → ∀ o ∈ ops, Small o := by
      intro ix ops h o ho
      obtain ⟨_, _, h⟩ := forall₂_right_mem h ho
      exact dictOf_small h
    -- from the dictionaries on
    have rest : ∀ (e : DictEncoding) (ix : Index) (q : Nat), Fails env (do
          let operations ← Rd.ofRes (ix.toOperations env.cfg)
          let records ← readPrivateRecords base operations
          let registry ← Rd.ofRes (stringIDOfNumber a)
          let ordering ← Rd.ofRes (stringIDOfNumber b)
          pure { registry, ordering, supplement := c, encoding := e, operations, records : CIDRecord }) q f ↔
        DictsFault ix.data f ∨ ∃ ops, List.Forall₂ DictOf ix.data ops ∧
          ((∃ before o after, ops = before ++ o :: after ∧ (∀ x ∈ before, ∃ r, PrivateAt (machine env.cfg base) env.data x r) ∧
            PrivateFault env.cfg env.data base o f) ∨
          ((∀ x ∈ ops, ∃ r, PrivateAt (machine env.cfg base) env.data x r) ∧ f = complaint .malformedStringID ∧
            ((∀ id, ¬ StandsForID a id) ∨ ∀ id, ¬ StandsForID b id))) := by
      intro e ix q
      rw [Fails.ofRes_bind, fails_toOperations]
      refine or_congr Iff.rfl (exists_congr fun ops => ?_)
      rw [toOperations_ok]
      refine and_congr_right fun hops => ?_
      rw [fails_any_bind (fails_privates hd (small hops)) (any_privates env hd base ops (small hops))
        (G := fun _ f => f = complaint .malformedStringID ∧ ((∀ id, ¬ StandsForID a id) ∨ ∀ id, ¬ StandsForID b id))]
      · rw [exists_and_right, forall₂_exists]
      · intro rs _ q f
        rw [Fails.ofRes_bind, fails_stringID]
        simp only [Fails.ofRes_bind, fails_stringID, stringID_ok]
        constructor
        · rintro (⟨h1, h2⟩ | ⟨id, h1, ⟨h2, h3⟩ | ⟨id', h2, h3⟩⟩)
          · exact ⟨h1, .inl h2⟩
          · exact ⟨h2, .inr h3⟩
          · exact absurd h3 (Fails.pure _)
        · rintro ⟨h1, h2⟩
          by_cases ha : ∀ id, ¬ StandsForID a id
          · exact .inl ⟨h1, ha⟩
          · obtain ⟨id, hid⟩ := not_forall_not.mp ha
            exact .inr ⟨id, hid, .inl ⟨h1, h2.resolve_left ha⟩⟩
    -- from the FDArray on
    have array : ∀ (e : DictEncoding) (q : Nat), Fails env (do
          let offset ← Rd.ofRes (getI top .opFDArray)
          jumpTo base offset
          let dictionaries ← Index.read
          let operations ← Rd.ofRes (dictionaries.toOperations env.cfg)
          let records ← readPrivateRecords base operations
          let registry ← Rd.ofRes (stringIDOfNumber a)
          let ordering ← Rd.ofRes (stringIDOfNumber b)
          pure { registry, ordering, supplement := c, encoding := e, operations, records : CIDRecord }) q f ↔
        IntFault top .opFDArray f ∨ ∃ o, IntOf top .opFDArray o ∧ (AddressFault env.cfg base o f ∨
          ∃ q, (machine env.cfg base).addr o q ∧ (IndexFault env.data q f ∨ ∃ ix, IndexAt env.data q ix ∧
          (DictsFault ix.data f ∨ ∃ ops, List.Forall₂ DictOf ix.data ops ∧
          ((∃ before o after, ops = before ++ o :: after ∧ (∀ x ∈ before, ∃ r, PrivateAt (machine env.cfg base) env.data x r) ∧
            PrivateFault env.cfg env.data base o f) ∨
          ((∀ x ∈ ops, ∃ r, PrivateAt (machine env.cfg base) env.data x r) ∧ f = complaint .malformedStringID ∧
            ((∀ id, ¬ StandsForID a id) ∨ ∀ id, ¬ StandsForID b id)))))) := by
      intro e q
      rw [fails_getI_bind (by simp [Sought])]
      refine or_congr Iff.rfl (exists_congr fun o => and_congr_right fun _ => ?_)
      rw [fails_jumpTo_bind]
      refine or_congr Iff.rfl (exists_congr fun q => and_congr_right fun _ => ?_)
      rw [Fails.bind, fails_index]
      refine or_congr Iff.rfl ⟨?_, ?_⟩
      · rintro ⟨ix, q', h1, h2⟩
        exact ⟨ix, (index_at env q ix).mp ⟨q', h1⟩, (rest e ix q').mp h2⟩
      · rintro ⟨ix, h1, h2⟩
        obtain ⟨q', h1⟩ := (index_at env q ix).mpr h1
        exact ⟨ix, q', h1, (rest e ix q').mpr h2⟩
    have select : ∀ q e, (∃ q', DictEncoding.read cs env q = (.ok e, q')) ↔ SelectFits cs.count.toNat e ∧
        Sits env.data q (encodeSelect e) := by
      intro q e
      rw [(DictEncoding.exact_select cs).at env q e]
      constructor
      · rintro ⟨_, ⟨h1, rfl⟩, h2⟩; exact ⟨h1, h2⟩
      · rintro ⟨h1, h2⟩; exact ⟨_, ⟨h1, rfl⟩, h2⟩
    constructor
    · rintro (h | ⟨o, ho, h⟩)
      · exact .select hr h
      rw [fails_jumpTo_bind] at h
      rcases h with h | ⟨q, hq, h⟩
      · exact .reachSelect hr ho h
      rw [Fails.bind, fails_select] at h
      rcases h with h | ⟨e, q', he, h⟩
      · exact .readSelect hr ho hq h
      obtain ⟨s1, s2⟩ := (select q e).mp ⟨q', he⟩
      have hsel : SelectAt (machine env.cfg base) env.data top cs.count.toNat e := ⟨o, q, ho, hq, s1, s2⟩
      rcases (array e q').mp h with h | ⟨o2, ho2, h | ⟨q2, hq2, h | ⟨ix, hix, h | ⟨ops, hops, h⟩⟩⟩⟩
      · exact .array hr hsel h
      · exact .reachArray hr hsel ho2 h
      · exact .readArray hr hsel ho2 hq2 h
      · exact .dictionaries hr hsel ⟨o2, q2, ho2, hq2, hix⟩ h
      · rcases h with ⟨before, x, after, rfl, h1, h2⟩ | ⟨h1, rfl, h2⟩
        · exact .records hr hsel ⟨o2, q2, ho2, hq2, hix⟩ hops h1 h2
        · exact .identifiers hr hsel ⟨o2, q2, ho2, hq2, hix⟩ hops h1 h2
    · have go : ∀ e, SelectAt (machine env.cfg base) env.data top cs.count.toNat e → (∀ q, Fails env (do
          let offset ← Rd.ofRes (getI top .opFDArray)
          jumpTo base offset
          let dictionaries ← Index.read
          let operations ← Rd.ofRes (dictionaries.toOperations env.cfg)
          let records ← readPrivateRecords base operations
          let registry ← Rd.ofRes (stringIDOfNumber a)
          let ordering ← Rd.ofRes (stringIDOfNumber b)
          pure { registry, ordering, supplement := c, encoding := e, operations, records : CIDRecord }) q f) →
          IntFault top .opFDSelect f ∨ ∃ i, IntOf top .opFDSelect i ∧ Fails env (do
            jumpTo base i
            let encoding ← DictEncoding.read cs
            let offset ← Rd.ofRes (getI top .opFDArray)
            jumpTo base offset
            let dictionaries ← Index.read
            let operations ← Rd.ofRes (dictionaries.toOperations env.cfg)
            let records ← readPrivateRecords base operations
            let registry ← Rd.ofRes (stringIDOfNumber a)
            let ordering ← Rd.ofRes (stringIDOfNumber b)
            pure { registry, ordering, supplement := c, encoding, operations, records : CIDRecord }) p f := by
        rintro e ⟨o, q, ho, hq, s1, s2⟩ h
        obtain ⟨q', he⟩ := (select q e).mpr ⟨s1, s2⟩
        exact .inr ⟨o, ho, fails_jumpTo_bind.mpr (.inr ⟨q, hq, (Fails.bind_of_ok he).mpr (h q')⟩)⟩
      have ros : ∀ {a' b' c' : Number}, top.map .opROS = some [a', b', c'] → a' = a ∧ b' = b := by
        intro a' b' c' h
        rw [hr] at h
        simp only [Option.some.injEq, List.cons.injEq] at h
        exact ⟨h.1.symm, h.2.1.symm⟩
      intro hf
      cases hf with
      | operands h1 h2 => rw [hr] at h1; injection h1 with h1; subst h1; simp at h2
      | select h1 h => exact .inl h
      | reachSelect h1 ho h => exact .inr ⟨_, ho, fails_jumpTo_bind.mpr (.inl h)⟩
      | readSelect h1 ho hq h =>
        exact .inr ⟨_, ho, fails_jumpTo_bind.mpr (.inr ⟨_, hq, Fails.bind.mpr (.inl ((fails_select cs).mpr h))⟩)⟩
      | array h1 hs h => exact go _ hs (fun q => (array _ q).mpr (.inl h))
      | reachArray h1 hs ho h => exact go _ hs (fun q => (array _ q).mpr (.inr ⟨_, ho, .inl h⟩))
      | readArray h1 hs ho hq h => exact go _ hs (fun q => (array _ q).mpr (.inr ⟨_, ho, .inr ⟨_, hq, .inl h⟩⟩))
      | dictionaries h1 hs ha h =>
        obtain ⟨o, q, ho, hq, hix⟩ := ha
        exact go _ hs (fun _ => (array _ _).mpr (.inr ⟨_, ho, .inr ⟨_, hq, .inr ⟨_, hix, .inl h⟩⟩⟩))
      | records h1 hs ha hops hb h =>
        obtain ⟨o, q, ho, hq, hix⟩ := ha
        exact go _ hs (fun _ => (array _ _).mpr (.inr ⟨_, ho, .inr ⟨_, hq, .inr ⟨_, hix, .inr ⟨_, hops,
          .inl ⟨_, _, _, rfl, hb, h⟩⟩⟩⟩⟩))
      | identifiers h1 hs ha hops hb h =>
        obtain ⟨o, q, ho, hq, hix⟩ := ha
        obtain ⟨rfl, rfl⟩ := ros h1
        exact go _ hs (fun _ => (array _ _).mpr (.inr ⟨_, ho, .inr ⟨_, hq, .inr ⟨_, hix, .inr ⟨_, hops,
          .inr ⟨hb, rfl, h⟩⟩⟩⟩⟩))

theorem fails_record {env : Env} (hd : env.data.length < 2 ^ 61) {base : Nat} {top : Operations} (ht : Small top) (cs : Index) :
    ∀ p f, Fails env (Record.read base top cs) p f ↔ RecordFault env.cfg env.data base top cs.count.toNat f := by
  intro p f
  unfold Record.read Operations.containsKey
  rcases hr : top.map .opROS with _ | l
  · rw [if_neg (by simp), Fails.map, fails_private hd ht]
    constructor
    · exact .names hr
    · intro hf
      cases hf with
      | identifiers h => rw [hr] at h; simp at h
      | names _ h => exact h
  · rw [if_pos (by simp), Fails.map, fails_cid hd hr]
    constructor
    · exact .identifiers hr
    · intro hf
      cases hf with
      | identifiers _ h => exact h
      | names h => rw [hr] at h; simp at h

end PS
