import Verif.Lemmas.FontSet
/-!
# Lemmas: the panics of reading a font set
-/
namespace PS
open Spec

/-- What a reader panics with. -/
def Panics (env : Env) (m : Rd α) (P : Panic → Prop) : Prop := ∀ p x q, m env p = (.panic x, q) → P x

namespace Panics

variable {env : Env} {P : Panic → Prop}

theorem of {m : Rd α} (h : NoPanic m) : Panics env m P := fun p x q hp => absurd hp (h env p x q)

theorem mono {m : Rd α} {Q : Panic → Prop} (h : Panics env m P) (hpq : ∀ x, P x → Q x) : Panics env m Q :=
  fun p x q hp => hpq x (h p x q hp)

theorem bind {m : Rd α} {f : α → Rd β} (hm : Panics env m P)
    (hf : ∀ p a q, m env p = (.ok a, q) → Panics env (f a) P) : Panics env (m >>= f) P := by
  intro p x q h
  rcases Rd.bind_panic.mp h with h | ⟨a, p', h1, h2⟩
  · exact hm _ _ _ h
  · exact hf _ _ _ h1 _ _ _ h2

theorem bindAt {m : Rd α} {f : α → Rd β} {p : Nat} (hm : ∀ x q, m env p = (.panic x, q) → P x)
    (hf : ∀ a q', m env p = (.ok a, q') → ∀ x q, f a env q' = (.panic x, q) → P x) :
    ∀ x q, (m >>= f) env p = (.panic x, q) → P x := by
  intro x q h
  rcases Rd.bind_panic.mp h with h | ⟨a, p', h1, h2⟩
  · exact hm _ _ h
  · exact hf _ _ h1 _ _ h2

theorem cfg_bind {f : Config → Rd α} (h : Panics env (f env.cfg) P) : Panics env (Rd.cfg >>= f) P := h

theorem ite {c : Prop} [Decidable c] {m n : Rd α} (hm : c → Panics env m P) (hn : ¬ c → Panics env n P) :
    Panics env (if c then m else n) P := by
  split
  · exact hm (by assumption)
  · exact hn (by assumption)

theorem ofRes {r : Res α} (h : ∀ x, r = .panic x → P x) : Panics env (Rd.ofRes r) P := by
  intro p x q hp
  exact h x (Prod.mk.inj hp).1

end Panics

theorem getI_no_panic (o : Operations) (op : Operator) (x : Panic) : getI o op ≠ .panic x := by
  unfold getI; split <;> simp

theorem tryGetI_no_panic (o : Operations) (op : Operator) (x : Panic) : tryGetI o op ≠ .panic x := by
  unfold tryGetI; split <;> simp

theorem getII_no_panic (o : Operations) (op : Operator) (x : Panic) : getII o op ≠ .panic x := by
  unfold getII; split <;> simp

theorem ofBytes_no_panic (cfg : Config) (chunk : List UInt8) (x : Panic) : Operations.ofBytes cfg chunk ≠ .panic x := by
  unfold Operations.ofBytes
  rcases operations_total (Env.mk cfg chunk) 0 with ⟨o, q, h⟩ | ⟨q, h⟩ | ⟨q, h⟩ <;> rw [h] <;> simp

theorem stringID_no_panic (n : Number) (x : Panic) : stringIDOfNumber n ≠ .panic x := by
  unfold stringIDOfNumber
  repeat' split
  all_goals simp

/-- Jumping panics if an offset is negative. -/
theorem panics_jumpTo (env : Env) (base : Nat) (hb : base + 2 ^ 31 ≤ 2 ^ 64) (o : Int) (ho : o < 2 ^ 31) :
    Panics env (jumpTo base o) (fun x => x = .overflow ∧ env.cfg.checks = true ∧ o < 0) := by
  unfold jumpTo
  refine Panics.cfg_bind (Panics.bind (Panics.ofRes ?_) (fun _ _ _ _ => Panics.of (NoPanic.jump _)))
  intro x h
  unfold addU64 at h
  simp only at h
  by_cases h1 : base + toU 64 o < 2 ^ 64
  · rw [if_pos h1] at h; simp at h
  rw [if_neg h1] at h
  by_cases h2 : env.cfg.checks = true
  · rw [if_pos h2] at h
    injection h with h
    refine ⟨h.symm, h2, ?_⟩
    unfold toU at h1
    omega
  · rw [if_neg h2] at h; simp at h

theorem panics_sum {checks : Bool} {a b : Int} {x : Panic} (h : addI32 checks a b = .panic x) :
    x = .overflow ∧ checks = true ∧ (a + b < 0 ∨ 2 ^ 31 ≤ a + b) := by
  unfold addI32 wrapI32 at h
  split at h
  · simp at h
  split at h
  · injection h with h
    exact ⟨h.symm, by assumption, by omega⟩
  · simp at h

theorem infix_of_sits {data bs : List UInt8} {p : Nat} (h : Sits data p bs) : bs <:+: data :=
  h.isInfix.trans (List.drop_suffix _ _).isInfix

theorem panics_private (env : Env) (hd : env.data.length < 2 ^ 61) (base : Nat) (hb : base + 2 ^ 31 ≤ 2 ^ 64) (top : Operations)
    (ht : Small top) :
    Panics env (PrivateRecord.read base top) (Culprit env.cfg env.data base top) := by
  unfold PrivateRecord.read
  refine Panics.cfg_bind (Panics.bind (Panics.ofRes (fun x h => absurd h (getII_no_panic _ _ _))) ?_)
  rintro _ ⟨size, offset⟩ _ h
  obtain ⟨rest, hp⟩ := getPrivate_ok.mp (Prod.mk.inj h).1
  have hs := ht _ _ size hp (by simp)
  have ho := ht _ _ offset hp (by simp)
  refine Panics.bind ((panics_jumpTo env base hb offset ho.2).mono ?_) (fun _ _ q1 _ => ?_)
  · rintro _ ⟨rfl, h1, h2⟩
    exact .privateOffset h1 hp h2
  refine Panics.bind ?_ ?_
  · intro p x q h
    by_cases hz : size < 0
    · unfold Rd.bytes Rd.vec at h
      rw [PS.cfg_bind] at h
      by_cases hc : env.cfg.prealloc = true ∧ toU 64 size * 1 > 2 ^ 63 - 1
      · rw [if_pos hc] at h
        have := (Prod.mk.inj h).1
        injection this with this
        subst this
        exact .size hc.1 hp hz
      · rw [if_neg hc] at h
        exact absurd h (NoPanic.replicate NoPanic.u8 _ _ _ _ _)
    · exact absurd h (noPanic_bytes _ (by unfold toU; omega) _ _ _ _)
  intro p chunk q hchunk
  obtain ⟨hl, hsit⟩ := (bytes_at env hd size hs p chunk).mp ⟨q, hchunk⟩
  refine Panics.bind (Panics.ofRes (fun x h => absurd h (ofBytes_no_panic _ _ _))) ?_
  intro _ o _ hof
  have hdict := ofBytes_ok.mp (Prod.mk.inj hof).1
  refine Panics.bind (Panics.ofRes (fun x h => absurd h (tryGetI_no_panic _ _ _))) ?_
  intro _ another _ hano
  refine Panics.bind ?_ (fun _ _ _ _ => Panics.of (NoPanic.pure _))
  cases another with
  | none => exact Panics.of (NoPanic.pure _)
  | some s =>
    have hsub := tryGetI_some.mp (Prod.mk.inj hano).1
    refine Panics.bind (Panics.ofRes ?_) ?_
    · intro x hx
      obtain ⟨rfl, h1, h2⟩ := panics_sum hx
      exact .subroutines h1 hp hl (infix_of_sits hsit) hdict hsub h2
    · intro _ sum _ hsum
      have hsum := (machine_sum (base := base)).mpr (Prod.mk.inj hsum).1
      refine Panics.bind ((panics_jumpTo env base hb sum hsum.2.2.1).mono ?_) (fun _ _ _ _ => Panics.of noPanic_index)
      rintro _ ⟨rfl, h1, h2⟩
      exact .subroutines h1 hp hl (infix_of_sits hsit) hdict hsub (by have := hsum.2.2.2 h1; omega)

namespace DictEncoding

theorem noPanic_select (cs : Index) : NoPanic (read cs) := by
  unfold read read0 read3 readRange3
  have h3 : NoPanic (do
      let firstGlyphID ← Rd.u16
      let dictionaryID ← Rd.u8
      pure { firstGlyphID, dictionaryID } : Rd Range3) :=
    NoPanic.bind NoPanic.u16 (fun _ => NoPanic.bind NoPanic.u8 (fun _ => NoPanic.pure _))
  refine NoPanic.bind (NoPanic.peek NoPanic.u8) (fun b => NoPanic.ite (fun _ => ?_) (fun _ => NoPanic.ite (fun _ => ?_)
    (fun _ => NoPanic.raise _)))
  · refine NoPanic.bind NoPanic.u8 (fun _ => NoPanic.bind (NoPanic.vec NoPanic.u8 _ _ ?_) (fun _ => NoPanic.pure _))
    exact u16_small _ 1 (by omega)
  · refine NoPanic.bind NoPanic.u8 (fun _ => NoPanic.ite (fun _ => NoPanic.raise _) (fun _ => NoPanic.bind NoPanic.u16
      (fun n => NoPanic.bind (NoPanic.vec h3 _ _ ?_) (fun _ => NoPanic.bind NoPanic.u16 (fun _ => NoPanic.pure _)))))
    exact u16_small _ 4 (by omega)

theorem errs_select (cs : Index) : Errs (read cs) (fun e => e = .eof ∨ e = .raised .malformedTable ∨
    e = .raised .unknownDictionaryEncodingFormat) := by
  unfold read read0 read3 readRange3
  have h1 : (fun e => e = Err.eof ∨ e = .raised .malformedTable ∨ e = .raised .unknownDictionaryEncodingFormat) .eof := .inl rfl
  have h2 : (fun e => e = Err.eof ∨ e = .raised .malformedTable ∨ e = .raised .unknownDictionaryEncodingFormat)
    (.raised .malformedTable) := .inr (.inl rfl)
  have h3 : (fun e => e = Err.eof ∨ e = .raised .malformedTable ∨ e = .raised .unknownDictionaryEncodingFormat)
    (.raised .unknownDictionaryEncodingFormat) := .inr (.inr rfl)
  errs []

end DictEncoding

/-- Some dictionary in the file is to blame. -/
def Blame (env : Env) (base : Nat) (x : Panic) : Prop :=
  ∃ chunk top, chunk <:+: env.data ∧ DictOf chunk top ∧ Culprit env.cfg env.data base top x

theorem panics_privates (env : Env) (hd : env.data.length < 2 ^ 61) (base : Nat) (hb : base + 2 ^ 31 ≤ 2 ^ 64)
    (tops : List Operations) (ht : ∀ o ∈ tops, ∃ chunk, chunk <:+: env.data ∧ DictOf chunk o) :
    Panics env (readPrivateRecords base tops) (Blame env base) := by
  induction tops with
  | nil => exact Panics.of (NoPanic.pure _)
  | cons top tops ih =>
    obtain ⟨chunk, h1, h2⟩ := ht top (by simp)
    refine Panics.bind ((panics_private env hd base hb top (dictOf_small h2)).mono (fun x hx => ⟨chunk, top, h1, h2, hx⟩))
      (fun _ _ _ _ => Panics.bind (ih (fun o ho => ht o (by simp [ho]))) (fun _ _ _ _ => Panics.of (NoPanic.pure _)))

theorem index_infix {data : List UInt8} {ix : Index} {chunk : List UInt8}
    {p : Nat} (h : IndexAt data p ix) (hc : chunk ∈ ix.data) : chunk <:+: data := by
  obtain ⟨bs, hb, hs⟩ := h
  refine List.IsInfix.trans ?_ (infix_of_sits hs)
  rcases hb with ⟨rfl, -⟩ | ⟨h1, -, -, -, rfl⟩
  · simp [noObjects] at hc
  · unfold encodeIndex
    rw [if_neg h1]
    exact (List.infix_of_mem_flatten hc).trans (List.suffix_append _ _).isInfix

theorem panics_cid (env : Env) (hd : env.data.length < 2 ^ 61) (base : Nat) (hb : base + 2 ^ 31 ≤ 2 ^ 64)
    (chunk : List UInt8) (top : Operations) (hchunk : chunk <:+: env.data) (htop : DictOf chunk top) (cs : Index) :
    Panics env (CIDRecord.read base top cs) (Blame env base) := by
  have ht := dictOf_small htop
  unfold CIDRecord.read
  rw [get_ros]
  rcases hr : top.map .opROS with _ | _ | ⟨a, _ | ⟨b, _ | ⟨c, _ | ⟨d, l⟩⟩⟩⟩ <;> try exact Panics.of (NoPanic.raise _)
  refine Panics.cfg_bind (Panics.bind (Panics.ofRes (fun x h => absurd h (getI_no_panic _ _ _))) ?_)
  intro _ o1 _ h1
  have h1 := getI_ok.mp (Prod.mk.inj h1).1
  refine Panics.bind ((panics_jumpTo env base hb o1 (intOf_int32 ht h1).2).mono ?_) (fun _ _ _ _ => ?_)
  · rintro _ ⟨rfl, g1, g2⟩
    exact ⟨chunk, top, hchunk, htop, .offset g1 (by decide) h1 g2⟩
  refine Panics.bind (Panics.of (DictEncoding.noPanic_select cs)) (fun _ _ _ _ => ?_)
  refine Panics.bind (Panics.ofRes (fun x h => absurd h (getI_no_panic _ _ _))) ?_
  intro _ o2 _ h2
  have h2 := getI_ok.mp (Prod.mk.inj h2).1
  refine Panics.bind ((panics_jumpTo env base hb o2 (intOf_int32 ht h2).2).mono ?_) (fun _ _ _ _ => ?_)
  · rintro _ ⟨rfl, g1, g2⟩
    exact ⟨chunk, top, hchunk, htop, .offset g1 (by decide) h2 g2⟩
  refine Panics.bind (Panics.of noPanic_index) (fun _ ix _ hix => ?_)
  have hix := (index_at _ _ _).mp ⟨_, hix⟩
  refine Panics.bind (Panics.ofRes (fun x h => absurd h (C16_dictionaries_no_panic _ _ _))) ?_
  intro _ ops _ hops
  have hops := toOperations_ok.mp (Prod.mk.inj hops).1
  refine Panics.bind (panics_privates env hd base hb ops ?_) (fun _ _ _ _ => ?_)
  · intro o ho
    obtain ⟨c, g1, g2⟩ := forall₂_right_mem hops ho
    exact ⟨c, index_infix hix g1, g2⟩
  refine Panics.bind (Panics.ofRes (fun x h => absurd h (stringID_no_panic _ _))) (fun _ _ _ _ => ?_)
  refine Panics.bind (Panics.ofRes (fun x h => absurd h (stringID_no_panic _ _))) (fun _ _ _ _ => ?_)
  exact Panics.of (NoPanic.pure _)

theorem panics_record (env : Env) (hd : env.data.length < 2 ^ 61) (base : Nat) (hb : base + 2 ^ 31 ≤ 2 ^ 64)
    (chunk : List UInt8) (top : Operations) (hchunk : chunk <:+: env.data) (htop : DictOf chunk top) (cs : Index) :
    Panics env (Record.read base top cs) (Blame env base) := by
  unfold Record.read
  refine Panics.ite (fun _ => Panics.bind (panics_cid env hd base hb chunk top hchunk htop cs)
    (fun _ _ _ _ => Panics.of (NoPanic.pure _))) (fun _ => Panics.bind ((panics_private env hd base hb top (dictOf_small htop)).mono
      (fun x hx => ⟨chunk, top, hchunk, htop, hx⟩)) (fun _ _ _ _ => Panics.of (NoPanic.pure _)))

theorem panics_no_glyphs (env : Env) : Panics env (CharacterSet.read 0)
    (fun x => (x = .overflow ∧ env.cfg.checks = true) ∨ (x = .capacity ∧ env.cfg.prealloc = true)) := by
  unfold CharacterSet.read
  refine Panics.bind (Panics.of (NoPanic.peek NoPanic.u8)) (fun _ _ _ _ => Panics.ite (fun _ => ?_) (fun _ =>
    Panics.ite (fun _ => Panics.of (CharacterSet.noPanic_read1 0)) (fun _ =>
    Panics.ite (fun _ => Panics.of (CharacterSet.noPanic_read2 0)) (fun _ => Panics.of (NoPanic.raise _)))))
  unfold CharacterSet.read0
  refine Panics.bind (Panics.of NoPanic.u8) (fun _ _ _ _ => Panics.ite (fun _ => Panics.of (NoPanic.raise _)) (fun _ =>
    Panics.cfg_bind (Panics.ite (fun h => ?_) (fun h => ?_))))
  · intro p x q hp
    have := (Prod.mk.inj hp).1
    injection this with this
    exact .inl ⟨this.symm, h.2⟩
  · refine Panics.bind ?_ (fun _ _ _ _ => Panics.of (NoPanic.pure _))
    intro p x q hp
    unfold Rd.vec at hp
    rw [PS.cfg_bind] at hp
    generalize (if 0 = 0 then 2 ^ 64 - 1 else 0 - 1) = n at hp
    by_cases hv : env.cfg.prealloc = true ∧ n * 2 > 2 ^ 63 - 1
    · rw [if_pos hv] at hp
      have := (Prod.mk.inj hp).1
      injection this with this
      exact .inr ⟨this.symm, hv.1⟩
    · rw [if_neg hv] at hp
      exact absurd hp (NoPanic.replicate NoPanic.u16 _ _ _ _ _)

theorem indexAt_empty {data : List UInt8} {p : Nat} {ix : Index} (h : IndexAt data p ix) (h0 : ix.count.toNat = 0) :
    ix = noObjects := by
  obtain ⟨bs, ⟨rfl, -⟩ | ⟨h1, -, h2, -⟩, -⟩ := h
  · rfl
  · rw [h0] at h2
    exact absurd (List.length_eq_zero_iff.mp h2.symm) h1

theorem panics_entry (env : Env) (hd : env.data.length < 2 ^ 61) (base : Nat) (hb : base + 2 ^ 31 ≤ 2 ^ 64)
    (chunk : List UInt8) (top : Operations) (hchunk : chunk <:+: env.data) (htop : DictOf chunk top) :
    Panics env (FontEntry.read base top) (Blame env base) := by
  have ht := dictOf_small htop
  unfold FontEntry.read readCharacterStrings
  refine Panics.bind (Panics.ofRes (fun x h => absurd h (getI_no_panic _ _ _))) ?_
  intro _ o1 _ h1
  have h1 := getI_ok.mp (Prod.mk.inj h1).1
  intro p0
  refine Panics.bindAt ((panics_jumpTo env base hb o1 (intOf_int32 ht h1).2).mono ?_ p0) (fun _ q1 hj => ?_)
  · rintro _ ⟨rfl, g1, g2⟩
    exact ⟨chunk, top, hchunk, htop, .offset g1 (by decide) h1 g2⟩
  have hj := jumpTo_ok.mp hj
  refine Panics.bindAt (fun x q h => absurd (Prod.mk.inj h).1 (getI_no_panic _ _ _)) ?_
  intro f q2 hf
  obtain ⟨hf', rfl⟩ := Prod.mk.inj hf
  have hf := getI_ok.mp hf'
  refine Panics.bindAt (Panics.ite (fun _ => Panics.of noPanic_index) (fun _ => Panics.of (NoPanic.raise _)) _) ?_
  intro cs q3 hcs
  obtain ⟨rfl, hcs'⟩ : f = 2 ∧ IndexAt env.data q1 cs := by
    by_cases h2 : f = 2
    · rw [if_pos h2] at hcs
      exact ⟨h2, (index_at _ _ _).mp ⟨_, hcs⟩⟩
    · rw [if_neg h2] at hcs
      simp [Rd.raise] at hcs
  have hcsat : CharacterStringsAt (machine env.cfg base) env.data top cs := ⟨o1, q1, h1, hj, hf, hcs'⟩
  refine Panics.bind (Panics.ofRes (fun x h => absurd h (getI_no_panic _ _ _))) ?_ q3
  intro _ o2 _ h2
  have h2 := getI_ok.mp (Prod.mk.inj h2).1
  refine Panics.bind ?_ (fun _ _ _ _ => ?_)
  · refine Panics.ite (fun _ => Panics.of (NoPanic.pure _)) (fun n0 => Panics.ite (fun _ => Panics.of (NoPanic.pure _)) (fun n1 =>
      Panics.ite (fun _ => Panics.of (NoPanic.pure _)) (fun n2 => ?_)))
    refine Panics.bind ((panics_jumpTo env base hb o2 (intOf_int32 ht h2).2).mono ?_) (fun _ _ _ _ => ?_)
    · rintro _ ⟨rfl, g1, g2⟩
      exact ⟨chunk, top, hchunk, htop, .offset g1 (by decide) h2 g2⟩
    by_cases hc : cs.count.toNat = 0
    · rw [hc]
      have he := indexAt_empty hcs' hc
      subst he
      exact (panics_no_glyphs env).mono (fun x hx => ⟨chunk, top, hchunk, htop, .glyphs hcsat h2 n0 n1 n2 hx⟩)
    · have := cs.count.toNat_lt
      exact Panics.of (CharacterSet.noPanic_characterSet _ (by omega) (by omega))
  refine Panics.bind (Panics.ofRes (fun x h => absurd h (getI_no_panic _ _ _))) ?_
  intro _ o3 _ h3
  have h3 := getI_ok.mp (Prod.mk.inj h3).1
  refine Panics.bind ?_ (fun _ _ _ _ => ?_)
  · refine Panics.ite (fun _ => Panics.of (NoPanic.pure _)) (fun n0 => Panics.ite (fun _ => Panics.of (NoPanic.pure _)) (fun n1 => ?_))
    refine Panics.bind ((panics_jumpTo env base hb o3 (intOf_int32 ht h3).2).mono ?_) (fun _ _ _ _ =>
      Panics.of Encoding.noPanic_encoding)
    rintro _ ⟨rfl, g1, g2⟩
    exact ⟨chunk, top, hchunk, htop, .offset g1 (by decide) h3 g2⟩
  exact Panics.bind (panics_record env hd base hb chunk top hchunk htop cs) (fun _ _ _ _ => Panics.of (NoPanic.pure _))

theorem panics_entries (env : Env) (hd : env.data.length < 2 ^ 61) (base : Nat) (hb : base + 2 ^ 31 ≤ 2 ^ 64)
    (tops : List Operations) (ht : ∀ o ∈ tops, ∃ chunk, chunk <:+: env.data ∧ DictOf chunk o) :
    Panics env (readEntries base tops) (Blame env base) := by
  induction tops with
  | nil => exact Panics.of (NoPanic.pure _)
  | cons top tops ih =>
    obtain ⟨chunk, h1, h2⟩ := ht top (by simp)
    exact Panics.bind (panics_entry env hd base hb chunk top h1 h2)
      (fun _ _ _ _ => Panics.bind (ih (fun o ho => ht o (by simp [ho]))) (fun _ _ _ _ => Panics.of (NoPanic.pure _)))

theorem noPanic_header : NoPanic Header.read := by
  unfold Header.read
  nopanic []

theorem panics_fontSet (env : Env) (hd : env.data.length < 2 ^ 61) (base : Nat) (hb : base + 2 ^ 31 ≤ 2 ^ 64) (x : Panic) (q : Nat)
    (h : FontSet.read env base = (.panic x, q)) : Blame env base x := by
  unfold FontSet.read at h
  rw [cfg_bind, show ∀ f : Nat → Rd FontSet, (Rd.position >>= f) env base = f base env base from fun _ => rfl] at h
  revert h
  generalize hp : base = p
  have : base + 2 ^ 31 ≤ 2 ^ 64 := hb
  rw [← hp]
  refine Panics.bind (Panics.of noPanic_header) (fun _ header _ _ => ?_) base x q
  refine Panics.bind ((panics_jumpTo env base hb _ ?_).mono ?_) (fun _ _ _ _ => ?_)
  · have := header.headerSize.toNat_lt; omega
  · rintro _ ⟨-, -, h⟩; omega
  refine Panics.bind (Panics.of noPanic_index) (fun _ _ _ _ => Panics.bind (Panics.of noPanic_index) (fun _ ix _ hix => ?_))
  have hix := (index_at _ _ _).mp ⟨_, hix⟩
  refine Panics.bind (Panics.ofRes (fun x h => absurd h (C16_dictionaries_no_panic _ _ _))) ?_
  intro _ ops _ hops
  have hops := toOperations_ok.mp (Prod.mk.inj hops).1
  refine Panics.bind (Panics.of noPanic_index) (fun _ _ _ _ => Panics.bind (Panics.of noPanic_index) (fun _ _ _ _ => ?_))
  refine Panics.bind (panics_entries env hd base hb ops ?_) (fun _ _ _ _ => Panics.of (NoPanic.pure _))
  intro o ho
  obtain ⟨c, g1, g2⟩ := forall₂_right_mem hops ho
  exact ⟨c, index_infix hix g1, g2⟩

end PS
