import Verif.Model.Base
import Verif.Spec.Bytes
import Mathlib.Data.List.Induction
/-!
# Reasoning about readers
-/
namespace PS
open Spec

/-! ## Big-endian numbers -/

@[simp] theorem be_length (k n : Nat) : (be k n).length = k := by
  induction k generalizing n with
  | zero => rfl
  | succ k ih => simp [be, ih]

theorem beNat_append_singleton (bs : List UInt8) (b : UInt8) :
    beNat (bs ++ [b]) = beNat bs * 256 + b.toNat := by
  simp [beNat]

theorem beNat_be (k n : Nat) : beNat (be k n) = n % 256 ^ k := by
  induction k generalizing n with
  | zero => simp [be, beNat, Nat.mod_one]
  | succ k ih =>
    rw [be, beNat_append_singleton, ih]
    have h : (UInt8.ofNat n).toNat = n % 256 := by simp
    rw [h, Nat.pow_succ, Nat.mul_comm (256 ^ k) 256, Nat.mod_mul]
    omega

theorem beNat_lt (bs : List UInt8) : beNat bs < 256 ^ bs.length := by
  induction bs using List.reverseRecOn with
  | nil => simp [beNat]
  | append_singleton bs b ih =>
    rw [beNat_append_singleton, List.length_append, List.length_singleton, Nat.pow_succ]
    have := b.toNat_lt
    omega

theorem be_beNat (bs : List UInt8) : be bs.length (beNat bs) = bs := by
  induction bs using List.reverseRecOn with
  | nil => rfl
  | append_singleton bs b ih =>
    have hb := b.toNat_lt
    have h1 : (beNat bs * 256 + b.toNat) / 256 = beNat bs := by omega
    rw [beNat_append_singleton, List.length_append, List.length_singleton, be, h1, ih]
    congr 2
    apply UInt8.toNat_inj.mp
    rw [UInt8.toNat_ofNat']
    omega

theorem be_mod (k n : Nat) : be k (n % 256 ^ k) = be k n := by
  have h := be_beNat (be k n)
  rw [be_length, beNat_be] at h
  exact h

theorem be_inj {k a b : Nat} (ha : a < 256 ^ k) (hb : b < 256 ^ k) (h : be k a = be k b) : a = b := by
  have := congrArg beNat h
  rwa [beNat_be, beNat_be, Nat.mod_eq_of_lt ha, Nat.mod_eq_of_lt hb] at this

/-! ## Two's complement -/

theorem toS_bounds (w n : Nat) (hw : 0 < w) : -(2 : Int) ^ (w - 1) ≤ toS w n ∧ toS w n < (2 : Int) ^ (w - 1) := by
  obtain ⟨v, rfl⟩ : ∃ v, w = v + 1 := ⟨w - 1, by omega⟩
  have h := Nat.mod_lt n (Nat.two_pow_pos (v + 1))
  have h2 : (2 : Int) ^ v = ((2 ^ v : Nat) : Int) := by simp
  have h3 : (2 : Int) ^ (v + 1) = ((2 ^ (v + 1) : Nat) : Int) := by simp
  have h4 : 2 ^ (v + 1) = 2 * 2 ^ v := by rw [Nat.pow_succ]; omega
  simp only [toS, Nat.add_sub_cancel]
  split <;> constructor <;> rw [h2] <;> (try rw [h3]) <;> omega

theorem toU_lt (w : Nat) (i : Int) : toU w i < 2 ^ w := by
  have h3 : (2 : Int) ^ w = ((2 ^ w : Nat) : Int) := by simp
  have hp : (0 : Int) < 2 ^ w := by rw [h3]; exact_mod_cast Nat.two_pow_pos w
  have := Int.emod_nonneg i (Int.ne_of_gt hp)
  have := Int.emod_lt_of_pos i hp
  unfold toU
  omega

theorem toS_toU (w : Nat) (i : Int) (hw : 0 < w) (h1 : -(2 : Int) ^ (w - 1) ≤ i) (h2 : i < (2 : Int) ^ (w - 1)) :
    toS w (toU w i) = i := by
  obtain ⟨v, rfl⟩ : ∃ v, w = v + 1 := ⟨w - 1, by omega⟩
  simp only [Nat.add_sub_cancel] at h1 h2
  have e2 : (2 : Int) ^ v = ((2 ^ v : Nat) : Int) := by simp
  have e3 : (2 : Int) ^ (v + 1) = ((2 ^ (v + 1) : Nat) : Int) := by simp
  have e4 : 2 ^ (v + 1) = 2 * 2 ^ v := by rw [Nat.pow_succ]; omega
  have hp := Nat.two_pow_pos v
  have hm : toU (v+1) i % 2 ^ (v + 1) = toU (v+1) i := Nat.mod_eq_of_lt (toU_lt _ _)
  simp only [toS, hm, Nat.add_sub_cancel]
  by_cases hi : 0 ≤ i
  · have hu : toU (v+1) i = i.toNat := by
      unfold toU
      rw [Int.emod_eq_of_lt hi (by rw [e3]; omega)]
    rw [hu]
    split <;> omega
  · have hu : (toU (v+1) i : Int) = i + 2 ^ (v + 1) := by
      unfold toU
      rw [← Int.add_emod_right, Int.emod_eq_of_lt (by rw [e3]; omega) (by omega)]
      rw [e3]; omega
    split
    · rw [e3] at hu; omega
    · omega

theorem toU_toS (w n : Nat) (hw : 0 < w) (h : n < 2 ^ w) : toU w (toS w n) = n := by
  obtain ⟨v, rfl⟩ : ∃ v, w = v + 1 := ⟨w - 1, by omega⟩
  have e3 : (2 : Int) ^ (v + 1) = ((2 ^ (v + 1) : Nat) : Int) := by simp
  simp only [toS, Nat.mod_eq_of_lt h, Nat.add_sub_cancel]
  unfold toU
  split
  · rw [Int.emod_eq_of_lt (by omega) (by rw [e3]; omega)]; simp
  · rw [Int.sub_emod_right, Int.emod_eq_of_lt (by omega) (by rw [e3]; omega)]; simp

/-! ## Exact specifications of readers -/

/-- `m` succeeds exactly on the byte strings related to its result by `R`,
consuming them, wherever they stand on the tape. -/
def Exact (m : Rd α) (R : α → List UInt8 → Prop) : Prop :=
  ∀ env p a q, m env p = (.ok a, q) ↔
    ∃ bs, R a bs ∧ bs <+: env.data.drop p ∧ q = p + bs.length

/-- `m` never panics. -/
def NoPanic (m : Rd α) : Prop := ∀ env p x q, m env p ≠ (.panic x, q)

namespace Rd

theorem pure_eq (a : α) : (Pure.pure a : Rd α) = fun _ p => (.ok a, p) := rfl

theorem bind_ok {m : Rd α} {f : α → Rd β} {env p b q} :
    (m >>= f) env p = (.ok b, q) ↔ ∃ a p', m env p = (.ok a, p') ∧ f a env p' = (.ok b, q) := by
  show Rd.bind m f env p = _ ↔ _
  unfold Rd.bind
  rcases h : m env p with ⟨r, p'⟩
  cases r <;> simp

theorem bind_err {m : Rd α} {f : α → Rd β} {env p e q} :
    (m >>= f) env p = (.err e, q) ↔
      m env p = (.err e, q) ∨ ∃ a p', m env p = (.ok a, p') ∧ f a env p' = (.err e, q) := by
  show Rd.bind m f env p = _ ↔ _
  unfold Rd.bind
  rcases h : m env p with ⟨r, p'⟩
  cases r <;> simp

theorem bind_panic {m : Rd α} {f : α → Rd β} {env p x q} :
    (m >>= f) env p = (.panic x, q) ↔
      m env p = (.panic x, q) ∨ ∃ a p', m env p = (.ok a, p') ∧ f a env p' = (.panic x, q) := by
  show Rd.bind m f env p = _ ↔ _
  unfold Rd.bind
  rcases h : m env p with ⟨r, p'⟩
  cases r <;> simp

theorem bind_of_ok {m : Rd α} {f : α → Rd β} {env p a p'} (h : m env p = (.ok a, p')) :
    (m >>= f) env p = f a env p' := by
  show Rd.bind m f env p = _
  unfold Rd.bind
  rw [h]

theorem bind_of_err {m : Rd α} {f : α → Rd β} {env p e p'} (h : m env p = (.err e, p')) :
    (m >>= f) env p = (.err e, p') := by
  show Rd.bind m f env p = _
  unfold Rd.bind
  rw [h]

theorem bind_of_panic {m : Rd α} {f : α → Rd β} {env p e p'} (h : m env p = (.panic e, p')) :
    (m >>= f) env p = (.panic e, p') := by
  show Rd.bind m f env p = _
  unfold Rd.bind
  rw [h]

end Rd

theorem prefix_append_iff {b1 b2 l : List UInt8} :
    b1 ++ b2 <+: l ↔ b1 <+: l ∧ b2 <+: l.drop b1.length := by
  constructor
  · rintro ⟨t, rfl⟩
    refine ⟨⟨b2 ++ t, by simp⟩, ⟨t, by simp⟩⟩
  · rintro ⟨⟨t, rfl⟩, ⟨u, hu⟩⟩
    simp at hu
    exact ⟨u, by simp [hu]⟩

namespace Exact

theorem pure (a : α) : Exact (Pure.pure a) (fun b bs => b = a ∧ bs = []) := by
  intro env p b q
  simp [Rd.pure_eq]
  grind

theorem bind {m : Rd α} {f : α → Rd β} {R : α → List UInt8 → Prop} {S : α → β → List UInt8 → Prop}
    (hm : Exact m R) (hf : ∀ a, Exact (f a) (S a)) :
    Exact (m >>= f) (fun b bs => ∃ a b1 b2, bs = b1 ++ b2 ∧ R a b1 ∧ S a b b2) := by
  intro env p b q
  rw [Rd.bind_ok]
  constructor
  · rintro ⟨a, p', h1, h2⟩
    obtain ⟨b1, hR, hp1, rfl⟩ := (hm env p a p').mp h1
    obtain ⟨b2, hS, hp2, rfl⟩ := (hf a env _ b q).mp h2
    refine ⟨b1 ++ b2, ⟨a, b1, b2, rfl, hR, hS⟩, ?_, ?_⟩
    · rw [prefix_append_iff, List.drop_drop]; exact ⟨hp1, hp2⟩
    · simp [Nat.add_assoc]
  · rintro ⟨bs, ⟨a, b1, b2, rfl, hR, hS⟩, hp, rfl⟩
    rw [prefix_append_iff, List.drop_drop] at hp
    refine ⟨a, p + b1.length, (hm env p a _).mpr ⟨b1, hR, hp.1, rfl⟩, ?_⟩
    exact (hf a env _ b _).mpr ⟨b2, hS, hp.2, by simp [Nat.add_assoc]⟩

theorem congr {m : Rd α} {R S : α → List UInt8 → Prop} (h : Exact m R)
    (hRS : ∀ a bs, R a bs ↔ S a bs) : Exact m S := by
  intro env p a q
  rw [h env p a q]
  simp only [hRS]

theorem never {m : Rd α} (h : ∀ env p a q, m env p ≠ (.ok a, q)) : Exact m (fun _ _ => False) := by
  intro env p a q
  simp [h]

theorem raise (r : Reason) : Exact (Rd.raise r : Rd α) (fun _ _ => False) :=
  never (by intro env p a q; simp [Rd.raise])

/-- Reading what stands on the tape. -/
theorem parse {m : Rd α} {R : α → List UInt8 → Prop} (h : Exact m R) {a : α} {bs : List UInt8}
    (hR : R a bs) (cfg : Config) (pre post : List UInt8) :
    m { cfg, data := pre ++ bs ++ post } pre.length = (.ok a, pre.length + bs.length) := by
  rw [h]
  exact ⟨bs, hR, ⟨post, by simp⟩, rfl⟩

end Exact

/-! ## Primitive readers -/

theorem exact_readExact (n : Nat) : Exact (Rd.readExact n) (fun a bs => a = bs ∧ bs.length = n) := by
  intro env p a q
  unfold Rd.readExact
  constructor
  · intro h
    split at h
    · rename_i hn
      simp only [Prod.mk.injEq, Res.ok.injEq] at h
      obtain ⟨rfl, rfl⟩ := h
      refine ⟨_, ⟨rfl, ?_⟩, List.take_prefix _ _, ?_⟩
      all_goals simp; omega
    · simp at h
  · rintro ⟨bs, ⟨rfl, rfl⟩, ⟨t, ht⟩, rfl⟩
    have hl : (env.data.drop p).length = a.length + t.length := by rw [← ht]; simp
    simp only [List.length_drop] at hl
    rw [if_pos (by omega), ← ht]
    simp

theorem exact_u8 : Exact Rd.u8 (fun b bs => bs = [b]) := by
  refine Exact.congr (Exact.bind (exact_readExact 1) (fun a => Exact.pure _)) ?_
  intro b bs
  constructor
  · rintro ⟨a, b1, b2, rfl, ⟨rfl, hl⟩, rfl, rfl⟩
    match a, hl with
    | [x], _ => simp
  · rintro rfl
    exact ⟨[b], [b], [], by simp, ⟨rfl, rfl⟩, by simp, rfl⟩

theorem exact_u16 : Exact Rd.u16 (fun v bs => bs = be 2 v.toNat) := by
  refine Exact.congr (Exact.bind (exact_readExact 2) (fun a => Exact.pure _)) ?_
  intro v bs
  constructor
  · rintro ⟨a, b1, b2, rfl, ⟨rfl, hl⟩, rfl, rfl⟩
    have h := beNat_lt a
    rw [hl] at h
    rw [UInt16.toNat_ofNat', Nat.mod_eq_of_lt (by simpa using h), ← hl, be_beNat]
    simp
  · rintro rfl
    refine ⟨_, _, [], (List.append_nil _).symm, ⟨rfl, be_length _ _⟩, ?_, rfl⟩
    rw [beNat_be]
    apply UInt16.toNat_inj.mp
    have := v.toNat_lt
    simp

theorem exact_u32 : Exact Rd.u32 (fun v bs => bs = be 4 v.toNat) := by
  refine Exact.congr (Exact.bind (exact_readExact 4) (fun a => Exact.pure _)) ?_
  intro v bs
  constructor
  · rintro ⟨a, b1, b2, rfl, ⟨rfl, hl⟩, rfl, rfl⟩
    have h := beNat_lt a
    rw [hl] at h
    rw [UInt32.toNat_ofNat', Nat.mod_eq_of_lt (by simpa using h), ← hl, be_beNat]
    simp
  · rintro rfl
    refine ⟨_, _, [], (List.append_nil _).symm, ⟨rfl, be_length _ _⟩, ?_, rfl⟩
    rw [beNat_be]
    apply UInt32.toNat_inj.mp
    have := v.toNat_lt
    simp

theorem exact_replicate {m : Rd α} {R : α → List UInt8 → Prop} (h : Exact m R) (n : Nat) :
    Exact (Rd.replicate n m) (fun as bs => as.length = n ∧ Seq R as bs) := by
  induction n with
  | zero =>
    refine Exact.congr (Exact.pure _) ?_
    intro as bs
    constructor
    · rintro ⟨rfl, rfl⟩; exact ⟨rfl, .nil⟩
    · rintro ⟨h1, h2⟩
      cases h2 <;> simp at h1 ⊢
  | succ n ih =>
    refine Exact.congr (Exact.bind h (fun a => Exact.bind ih (fun as => Exact.pure _))) ?_
    intro as bs
    constructor
    · rintro ⟨a, b1, b2, rfl, hR, as, c1, c2, rfl, ⟨hl, hs⟩, rfl, rfl⟩
      refine ⟨by simp [hl], ?_⟩
      simpa using Seq.cons hR hs
    · rintro ⟨h1, h2⟩
      cases h2 with
      | nil => simp at h1
      | cons hR hs =>
        rename_i a b as bs
        exact ⟨a, b, bs, rfl, hR, as, bs, [], by simp, ⟨by simpa using h1, hs⟩, rfl, rfl⟩

theorem exact_vec {m : Rd α} {R : α → List UInt8 → Prop} (h : Exact m R) (w n : Nat)
    (hn : n * w ≤ 2 ^ 63 - 1) :
    Exact (Rd.vec w n m) (fun as bs => as.length = n ∧ Seq R as bs) := by
  intro env p a q
  rw [← exact_replicate h n env p a q]
  unfold Rd.vec
  rw [Rd.bind_of_ok (a := env.cfg) (p' := p) rfl]
  rw [if_neg (by omega)]

theorem seq_singleton_iff {f : α → UInt8} {as : List α} {bs : List UInt8} :
    Seq (fun a b => b = [f a]) as bs ↔ bs = as.map f := by
  constructor
  · intro h
    induction h with
    | nil => rfl
    | cons h _ ih => simp [h, ih]
  · rintro rfl
    induction as with
    | nil => exact .nil
    | cons a as ih => exact Seq.cons (b := [f a]) rfl ih

theorem seq_fun_iff {f : α → List UInt8} {as : List α} {bs : List UInt8} :
    Seq (fun a b => b = f a) as bs ↔ bs = as.flatMap f := by
  constructor
  · intro h
    induction h with
    | nil => rfl
    | cons h _ ih => simp [h, ih]
  · rintro rfl
    induction as with
    | nil => exact .nil
    | cons a as ih => exact Seq.cons (b := f a) rfl ih

/-! ## Absence of panics -/

namespace NoPanic

theorem pure (a : α) : NoPanic (Pure.pure a : Rd α) := by
  intro env p x q; simp [Rd.pure_eq]

theorem bind {m : Rd α} {f : α → Rd β} (hm : NoPanic m) (hf : ∀ a, NoPanic (f a)) :
    NoPanic (m >>= f) := by
  intro env p x q h
  rw [Rd.bind_panic] at h
  rcases h with h | ⟨a, p', _, h⟩
  · exact hm _ _ _ _ h
  · exact hf _ _ _ _ _ h

theorem raise (r : Reason) : NoPanic (Rd.raise r : Rd α) := by
  intro env p x q; simp [Rd.raise]

theorem readExact (n : Nat) : NoPanic (Rd.readExact n) := by
  intro env p x q; unfold Rd.readExact; split <;> simp

theorem peek {m : Rd α} (hm : NoPanic m) : NoPanic (Rd.peek m) := by
  intro env p x q h
  simp only [Rd.peek, Prod.mk.injEq] at h
  exact hm env p x (m env p).2 (by rw [← h.1])

theorem u8 : NoPanic Rd.u8 := bind (readExact 1) (fun _ => pure _)
theorem u16 : NoPanic Rd.u16 := bind (readExact 2) (fun _ => pure _)
theorem u32 : NoPanic Rd.u32 := bind (readExact 4) (fun _ => pure _)
theorem size : NoPanic Rd.size := by intro env p x q; simp [Rd.size]
theorem cfg : NoPanic Rd.cfg := by intro env p x q; simp [Rd.cfg]
theorem position : NoPanic Rd.position := by intro env p x q; simp [Rd.position]

theorem jump (n : Nat) : NoPanic (Rd.jump n) := by
  intro env p x q; unfold Rd.jump; split <;> simp

theorem ofRes {r : Res α} (h : ∀ x, r ≠ .panic x) : NoPanic (Rd.ofRes r) := by
  intro env p x q h'
  simp only [Rd.ofRes, Prod.mk.injEq] at h'
  exact h x h'.1

theorem ite {c : Prop} [Decidable c] {m n : Rd α} (hm : c → NoPanic m) (hn : ¬ c → NoPanic n) :
    NoPanic (if c then m else n) := by
  split
  · exact hm ‹_›
  · exact hn ‹_›

theorem replicate {m : Rd α} (hm : NoPanic m) (n : Nat) : NoPanic (Rd.replicate n m) := by
  induction n with
  | zero => exact pure _
  | succ n ih => exact bind hm (fun _ => bind ih (fun _ => pure _))

theorem vec {m : Rd α} (hm : NoPanic m) (w n : Nat) (hn : n * w ≤ 2 ^ 63 - 1) :
    NoPanic (Rd.vec w n m) := by
  intro env p x q h
  unfold Rd.vec at h
  rw [Rd.bind_of_ok (a := env.cfg) (p' := p) rfl, if_neg (by omega)] at h
  exact replicate hm n env p x q h

end NoPanic

/-! ## The errors of readers -/

/-- `m` fails with errors in `E` only. -/
def Errs (m : Rd α) (E : Err → Prop) : Prop := ∀ env p e q, m env p = (.err e, q) → E e

namespace Errs

theorem mono {m : Rd α} {E F : Err → Prop} (h : Errs m E) (hEF : ∀ e, E e → F e) : Errs m F :=
  fun env p e q he => hEF e (h env p e q he)

theorem pure (a : α) (E : Err → Prop) : Errs (Pure.pure a : Rd α) E := by
  intro env p e q h; simp [Rd.pure_eq] at h

theorem bind {m : Rd α} {f : α → Rd β} {E : Err → Prop} (hm : Errs m E) (hf : ∀ a, Errs (f a) E) :
    Errs (m >>= f) E := by
  intro env p e q h
  rw [Rd.bind_err] at h
  rcases h with h | ⟨a, p', _, h⟩
  · exact hm _ _ _ _ h
  · exact hf _ _ _ _ _ h

theorem raise {r : Reason} {E : Err → Prop} (h : E (.raised r)) : Errs (Rd.raise r : Rd α) E := by
  intro env p e q h'
  simp only [Rd.raise, Prod.mk.injEq, Res.err.injEq] at h'
  rw [← h'.1]; exact h

theorem panic (x : Panic) {E : Err → Prop} : Errs (Rd.panic x : Rd α) E := by
  intro env p e q h'
  simp [Rd.panic] at h'

theorem readExact (n : Nat) {E : Err → Prop} (h : E .eof) : Errs (Rd.readExact n) E := by
  intro env p e q h'
  unfold Rd.readExact at h'
  split at h' <;> simp at h'
  rw [← h'.1]; exact h

theorem u8 {E : Err → Prop} (h : E .eof) : Errs Rd.u8 E := bind (readExact 1 h) (fun _ => pure _ _)
theorem u16 {E : Err → Prop} (h : E .eof) : Errs Rd.u16 E := bind (readExact 2 h) (fun _ => pure _ _)
theorem u32 {E : Err → Prop} (h : E .eof) : Errs Rd.u32 E := bind (readExact 4 h) (fun _ => pure _ _)

theorem size (E : Err → Prop) : Errs Rd.size E := by intro env p e q h; simp [Rd.size] at h
theorem cfg (E : Err → Prop) : Errs Rd.cfg E := by intro env p e q h; simp [Rd.cfg] at h
theorem position (E : Err → Prop) : Errs Rd.position E := by intro env p e q h; simp [Rd.position] at h

theorem jump (n : Nat) {E : Err → Prop} (h : E .seek) : Errs (Rd.jump n) E := by
  intro env p e q h'
  unfold Rd.jump at h'
  split at h' <;> simp at h'
  rw [← h'.1]; exact h

theorem peek {m : Rd α} {E : Err → Prop} (hm : Errs m E) : Errs (Rd.peek m) E := by
  intro env p e q h
  simp only [Rd.peek, Prod.mk.injEq] at h
  exact hm env p e (m env p).2 (by rw [← h.1])

theorem ofRes {r : Res α} {E : Err → Prop} (h : ∀ e, r = .err e → E e) : Errs (Rd.ofRes r) E := by
  intro env p e q h'
  simp only [Rd.ofRes, Prod.mk.injEq] at h'
  exact h e h'.1

theorem ite {c : Prop} [Decidable c] {m n : Rd α} {E : Err → Prop} (hm : c → Errs m E)
    (hn : ¬ c → Errs n E) : Errs (if c then m else n) E := by
  split
  · exact hm ‹_›
  · exact hn ‹_›

theorem replicate {m : Rd α} {E : Err → Prop} (hm : Errs m E) (n : Nat) : Errs (Rd.replicate n m) E := by
  induction n with
  | zero => exact pure _ _
  | succ n ih => exact bind hm (fun _ => bind ih (fun _ => pure _ _))

theorem vec {m : Rd α} {E : Err → Prop} (hm : Errs m E) (w n : Nat) : Errs (Rd.vec w n m) E :=
  bind (cfg E) (fun _ => ite (fun _ => panic _) (fun _ => replicate hm n))

end Errs

/-- Discharge `Errs` goals by walking through the reader, with the given facts
about other readers; membership facts are taken from the context. -/
syntax "errs" "[" term,* "]" : tactic
macro_rules
  | `(tactic| errs [$ts,*]) => `(tactic| repeat' with_reducible first
    $[| exact $ts]* $[| exact $ts _]* $[| exact $ts _ _]*
    | exact Errs.u8 (by assumption) | exact Errs.u16 (by assumption) | exact Errs.u32 (by assumption)
    | exact Errs.readExact _ (by assumption) | exact Errs.raise (by assumption)
    | exact Errs.jump _ (by assumption)
    | exact Errs.pure _ _ | exact Errs.cfg _ | exact Errs.size _ | exact Errs.position _ | exact Errs.panic _
    | refine Errs.peek ?_ | refine Errs.vec ?_ _ _ | refine Errs.replicate ?_ _
    | refine Errs.bind ?_ (fun _ => ?_) | refine Errs.ite (fun _ => ?_) (fun _ => ?_))

/-- Discharge `NoPanic` goals in the same way. -/
syntax "nopanic" "[" term,* "]" : tactic
macro_rules
  | `(tactic| nopanic [$ts,*]) => `(tactic| repeat' with_reducible first
    $[| exact $ts]* $[| exact $ts _]* $[| exact $ts _ _]*
    | exact NoPanic.u8 | exact NoPanic.u16 | exact NoPanic.u32
    | exact NoPanic.readExact _ | exact NoPanic.raise _ | exact NoPanic.jump _
    | exact NoPanic.pure _ | exact NoPanic.cfg | exact NoPanic.size | exact NoPanic.position
    | refine NoPanic.peek ?_ | refine NoPanic.replicate ?_ _
    | refine NoPanic.bind ?_ (fun _ => ?_) | refine NoPanic.ite (fun _ => ?_) (fun _ => ?_))

/-- Every run that neither fails nor panics succeeds. -/
theorem total_of {m : Rd α} {E : Err → Prop} (he : Errs m E) (hp : NoPanic m) (env : Env) (p : Nat) :
    (∃ a q, m env p = (.ok a, q)) ∨ (∃ e q, E e ∧ m env p = (.err e, q)) := by
  rcases h : m env p with ⟨r, q⟩
  cases r with
  | ok a => exact .inl ⟨a, q, rfl⟩
  | err e => exact .inr ⟨e, q, he _ _ _ _ h, rfl⟩
  | panic x => exact absurd h (hp _ _ _ _)

/-! ## Peeking -/

theorem peek_u8 (env : Env) (p : Nat) (b : UInt8) (l : List UInt8) (h : env.data.drop p = b :: l) :
    Rd.peek Rd.u8 env p = (.ok b, p) := by
  have h2 : Rd.u8 env p = (.ok b, p + 1) := (exact_u8 env p b _).mpr ⟨[b], rfl, ⟨l, by simp [h]⟩, rfl⟩
  simp [Rd.peek, h2]

theorem u8_eof (env : Env) (p : Nat) (h : env.data.drop p = []) :
    ∃ q, Rd.u8 env p = (.err .eof, q) := by
  rw [List.drop_eq_nil_iff] at h
  refine ⟨_, Rd.bind_of_err (e := .eof) (p' := env.cfg.eofPos p env.data.length) ?_⟩
  unfold Rd.readExact
  rw [if_neg (by omega)]

theorem peek_u8_eof (env : Env) (p : Nat) (h : env.data.drop p = []) :
    Rd.peek Rd.u8 env p = (.err .eof, p) := by
  obtain ⟨q, hq⟩ := u8_eof env p h
  simp [Rd.peek, hq]

/-- Peeking at a byte and then reading: the case split on what stands on the tape. -/
theorem exact_peek_u8 {f : UInt8 → Rd α} {R : UInt8 → α → List UInt8 → Prop}
    (hf : ∀ b, Exact (f b) (R b)) (hne : ∀ b a bs, R b a bs → ∃ l, bs = b :: l) :
    Exact (Rd.peek Rd.u8 >>= f) (fun a bs => ∃ b, R b a bs) := by
  intro env p a q
  rcases hd : env.data.drop p with _ | ⟨b, l⟩
  · have := peek_u8_eof env p hd
    rw [Rd.bind_of_err this]
    simp only [List.prefix_nil]
    constructor
    · simp
    · rintro ⟨bs, ⟨b, hR⟩, rfl, _⟩
      obtain ⟨l, h⟩ := hne _ _ _ hR
      simp at h
  · rw [Rd.bind_of_ok (peek_u8 env p b l hd), hf b env p a q, hd]
    constructor
    · rintro ⟨bs, hR, h1, h2⟩
      exact ⟨bs, ⟨b, hR⟩, h1, h2⟩
    · rintro ⟨bs, ⟨b', hR⟩, h1, h2⟩
      obtain ⟨l', rfl⟩ := hne _ _ _ hR
      have : b' = b := by
        obtain ⟨t, ht⟩ := h1
        simp at ht
        exact ht.1
      subst this
      exact ⟨_, hR, h1, h2⟩

/-! ## Truncated tapes -/

/-- Where `m` succeeds, it reports the end of file on a tape cut anywhere before
the end of what it consumed. -/
def Trunc (m : Rd α) : Prop :=
  ∀ cfg data p a q n, m { cfg, data } p = (.ok a, q) → p ≤ n → n < q →
    ∃ q', m { cfg, data := data.take n } p = (.err .eof, q')

/-- A success depends on the consumed bytes only. -/
theorem Exact.stable {m : Rd α} {R : α → List UInt8 → Prop} (h : Exact m R) {cfg cfg' : Config}
    {data : List UInt8} {p q n : Nat} {a : α} (hm : m { cfg, data } p = (.ok a, q)) (hn : q ≤ n) :
    m { cfg := cfg', data := data.take n } p = (.ok a, q) := by
  obtain ⟨bs, hR, hp, rfl⟩ := (h _ _ _ _).mp hm
  rw [h]
  refine ⟨bs, hR, ?_, rfl⟩
  show bs <+: (data.take n).drop p
  rw [List.drop_take]
  have hp : bs <+: data.drop p := hp
  exact List.prefix_take_iff.mpr ⟨hp, by omega⟩

/-- A success does not move the position backwards. -/
theorem Exact.le {m : Rd α} {R : α → List UInt8 → Prop} (h : Exact m R) {env : Env}
    {p q : Nat} {a : α} (hm : m env p = (.ok a, q)) : p ≤ q := by
  obtain ⟨bs, hR, hp, rfl⟩ := (h _ _ _ _).mp hm
  omega

namespace Trunc

theorem pure (a : α) : Trunc (Pure.pure a : Rd α) := by
  intro cfg data p b q n h h1 h2
  simp only [Rd.pure_eq, Prod.mk.injEq] at h
  omega

theorem raise (r : Reason) : Trunc (Rd.raise r : Rd α) := by
  intro cfg data p b q n h h1 h2
  simp [Rd.raise] at h

theorem panic (x : Panic) : Trunc (Rd.panic x : Rd α) := by
  intro cfg data p b q n h h1 h2
  simp [Rd.panic] at h

theorem bind {m : Rd α} {f : α → Rd β} {R : α → List UInt8 → Prop} (hm : Trunc m) (he : Exact m R)
    (hf : ∀ a, Trunc (f a)) : Trunc (m >>= f) := by
  intro cfg data p b q n h h1 h2
  obtain ⟨a, p', h3, h4⟩ := Rd.bind_ok.mp h
  by_cases hn : n < p'
  · obtain ⟨q', hq⟩ := hm cfg data p a p' n h3 h1 hn
    exact ⟨q', Rd.bind_of_err hq⟩
  · obtain ⟨q', hq⟩ := hf a cfg data p' b q n h4 (by omega) h2
    exact ⟨q', by rw [Rd.bind_of_ok (he.stable h3 (by omega))]; exact hq⟩

theorem cfg_bind {f : Config → Rd α} (h : ∀ c, Trunc (f c)) : Trunc (Rd.cfg >>= f) := by
  intro cfg data p b q n h' h1 h2
  exact h cfg cfg data p b q n h' h1 h2

theorem ite {c : Prop} [Decidable c] {m n : Rd α} (hm : c → Trunc m) (hn : ¬ c → Trunc n) :
    Trunc (if c then m else n) := by
  split
  · exact hm ‹_›
  · exact hn ‹_›

end Trunc

theorem trunc_readExact (k : Nat) : Trunc (Rd.readExact k) := by
  intro cfg data p a q n h h1 h2
  unfold Rd.readExact at h ⊢
  simp only [] at h ⊢
  split at h
  · simp only [Prod.mk.injEq, Res.ok.injEq] at h
    rw [if_neg]
    · exact ⟨_, rfl⟩
    · simp; omega
  · simp at h

theorem trunc_u8 : Trunc Rd.u8 := Trunc.bind (trunc_readExact 1) (exact_readExact 1) (fun _ => Trunc.pure _)
theorem trunc_u16 : Trunc Rd.u16 := Trunc.bind (trunc_readExact 2) (exact_readExact 2) (fun _ => Trunc.pure _)
theorem trunc_u32 : Trunc Rd.u32 := Trunc.bind (trunc_readExact 4) (exact_readExact 4) (fun _ => Trunc.pure _)

namespace Trunc

theorem replicate {m : Rd α} {R : α → List UInt8 → Prop} (hm : Trunc m) (he : Exact m R) (n : Nat) :
    Trunc (Rd.replicate n m) := by
  induction n with
  | zero => exact pure _
  | succ n ih => exact bind hm he (fun _ => bind ih (exact_replicate he n) (fun _ => pure _))

theorem vec {m : Rd α} {R : α → List UInt8 → Prop} (hm : Trunc m) (he : Exact m R) (w n : Nat)
    (hn : n * w ≤ 2 ^ 63 - 1) : Trunc (Rd.vec w n m) := by
  refine cfg_bind (fun c => ?_)
  rw [if_neg (by omega)]
  exact replicate hm he n

/-- Peeking at a byte of what is consumed later. -/
theorem peek_u8 {f : UInt8 → Rd α} (hf : ∀ b, Trunc (f b)) :
    Trunc (Rd.peek Rd.u8 >>= f) := by
  intro cfg data p a q n h h1 h2
  obtain ⟨b, p', h3, h4⟩ := Rd.bind_ok.mp h
  have hpp : p' = p := by
    simp only [Rd.peek, Prod.mk.injEq] at h3
    exact h3.2.symm
  subst hpp
  rcases hd : (data.take n).drop p' with _ | ⟨c, l⟩
  · exact ⟨p', Rd.bind_of_err (peek_u8_eof _ _ hd)⟩
  · have hb : c = b := by
      rcases hd' : data.drop p' with _ | ⟨c', l'⟩
      · rw [List.drop_take, hd'] at hd
        simp at hd
      · rw [PS.peek_u8 { cfg, data } p' c' l' hd'] at h3
        simp only [Prod.mk.injEq, Res.ok.injEq, and_true] at h3
        rw [List.drop_take, hd'] at hd
        rcases hk : n - p' with _ | k
        · rw [hk] at hd; simp at hd
        · rw [hk] at hd
          simp only [List.take_succ_cons, List.cons.injEq] at hd
          rw [← hd.1, h3]
    subst hb
    obtain ⟨q', hq⟩ := hf c cfg data p' a q n h4 h1 h2
    exact ⟨q', by rw [Rd.bind_of_ok (PS.peek_u8 _ _ c l hd)]; exact hq⟩

end Trunc

end PS
