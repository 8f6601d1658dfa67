import Verif.Lemmas.FontSetPanic
import Verif.Spec.Defect
/-!
# Lemmas: how reading a font set fails
-/
namespace PS
open Spec

/-- A reader fails with `f` from the position `p`. -/
def Fails (env : Env) (m : Rd α) (p : Nat) (f : Failure) : Prop := ∃ q, m env p = (f.result, q)

namespace Fails

variable {env : Env} {p : Nat} {f : Failure}

theorem bind {m : Rd α} {g : α → Rd β} :
    Fails env (m >>= g) p f ↔ Fails env m p f ∨ ∃ a p', m env p = (.ok a, p') ∧ Fails env (g a) p' f := by
  unfold Fails
  cases f with
  | error e =>
    simp only [Failure.result, Rd.bind_err]
    constructor
    · rintro ⟨q, h | ⟨a, p', h1, h2⟩⟩
      · exact .inl ⟨q, h⟩
      · exact .inr ⟨a, p', h1, q, h2⟩
    · rintro (⟨q, h⟩ | ⟨a, p', h1, q, h2⟩)
      · exact ⟨q, .inl h⟩
      · exact ⟨q, .inr ⟨a, p', h1, h2⟩⟩
  | panic x =>
    simp only [Failure.result, Rd.bind_panic]
    constructor
    · rintro ⟨q, h | ⟨a, p', h1, h2⟩⟩
      · exact .inl ⟨q, h⟩
      · exact .inr ⟨a, p', h1, q, h2⟩
    · rintro (⟨q, h⟩ | ⟨a, p', h1, q, h2⟩)
      · exact ⟨q, .inl h⟩
      · exact ⟨q, .inr ⟨a, p', h1, h2⟩⟩

theorem pure (a : α) : ¬ Fails env (Pure.pure a : Rd α) p f := by
  rintro ⟨q, h⟩
  cases f <;> simp [Failure.result, Rd.pure_eq] at h

theorem raise {r : Reason} : Fails env (Rd.raise r : Rd α) p f ↔ f = complaint r := by
  unfold Fails
  cases f <;> simp [Failure.result, Rd.raise, complaint]
  exact eq_comm

theorem panic {x : Panic} : Fails env (Rd.panic x : Rd α) p f ↔ f = .panic x := by
  unfold Fails
  cases f <;> simp [Failure.result, Rd.panic]
  exact eq_comm

theorem ofRes {r : Res α} : Fails env (Rd.ofRes r) p f ↔ r = f.result := by
  unfold Fails
  simp [Rd.ofRes]

theorem cfg_bind {g : Config → Rd α} : Fails env (Rd.cfg >>= g) p f ↔ Fails env (g env.cfg) p f := Iff.rfl

/-- Ways of not having failed. -/
theorem not_ok {m : Rd α} {a : α} {q : Nat} (h : m env p = (.ok a, q)) : ¬ Fails env m p f := by
  rintro ⟨q', h'⟩
  rw [h] at h'
  cases f <;> simp [Failure.result] at h'

theorem bind_of_ok {m : Rd α} {g : α → Rd β} {a : α} {q : Nat} (h : m env p = (.ok a, q)) :
    Fails env (m >>= g) p f ↔ Fails env (g a) q f := by
  unfold Fails
  rw [Rd.bind_of_ok h]

theorem map {m : Rd α} {g : α → β} : Fails env (m >>= fun a => Pure.pure (g a)) p f ↔ Fails env m p f := by
  rw [bind]
  constructor
  · rintro (h | ⟨_, _, _, h⟩)
    · exact h
    · exact absurd h (pure _)
  · exact .inl

theorem ofRes_bind {r : Res α} {g : α → Rd β} :
    Fails env (Rd.ofRes r >>= g) p f ↔ r = f.result ∨ ∃ a, r = .ok a ∧ Fails env (g a) p f := by
  rw [bind, ofRes]
  refine or_congr Iff.rfl ⟨?_, ?_⟩
  · rintro ⟨a, p', h1, h2⟩
    simp only [Rd.ofRes, Prod.mk.injEq] at h1
    obtain ⟨h1, rfl⟩ := h1
    exact ⟨a, h1, h2⟩
  · rintro ⟨a, h1, h2⟩
    exact ⟨a, p, Prod.ext h1 rfl, h2⟩

end Fails

/-! ## Readers of a fixed number of bytes -/

/-- A reader of exactly `w` bytes, which fails only if they are not there. -/
def Wide (m : Rd α) (w : Nat) : Prop := ∀ (env : Env) (p : Nat),
  (p + w ≤ env.data.length ∨ w = 0 → ∃ a, m env p = (.ok a, p + w)) ∧
  (env.data.length < p + w → 0 < w → ∃ q, m env p = (.err .eof, q))

namespace Wide

theorem pure (a : α) : Wide (Pure.pure a : Rd α) 0 := fun env p => ⟨fun _ => ⟨a, rfl⟩, fun _ h => absurd h (by omega)⟩

theorem bind {m : Rd α} {g : α → Rd β} {v w : Nat} (hm : Wide m v) (hg : ∀ a, Wide (g a) w) : Wide (m >>= g) (v + w) := by
  intro env p
  constructor
  · intro h
    obtain ⟨a, ha⟩ := (hm env p).1 (by omega)
    obtain ⟨b, hb⟩ := (hg a env (p + v)).1 (by omega)
    exact ⟨b, by rw [Rd.bind_of_ok ha, hb, Nat.add_assoc]⟩
  · intro h1 h2
    by_cases hv : p + v ≤ env.data.length ∨ v = 0
    · obtain ⟨a, ha⟩ := (hm env p).1 hv
      rw [Rd.bind_of_ok ha]
      exact (hg a env (p + v)).2 (by omega) (by omega)
    · obtain ⟨q, hq⟩ := (hm env p).2 (by omega) (by omega)
      exact ⟨q, Rd.bind_of_err hq⟩

theorem map {m : Rd α} {g : α → β} {w : Nat} (hm : Wide m w) : Wide (m >>= fun a => Pure.pure (g a)) w :=
  bind hm (fun _ => pure _)

theorem readExact (n : Nat) (hn : 0 < n) : Wide (Rd.readExact n) n := by
  intro env p
  constructor
  · intro h
    obtain ⟨a, ha⟩ : ∃ a, a <+: env.data.drop p ∧ a.length = n :=
      ⟨(env.data.drop p).take n, List.take_prefix _ _, by simp; omega⟩
    exact ⟨a, (exact_readExact n env p a _).mpr ⟨a, ⟨rfl, ha.2⟩, ha.1, by rw [ha.2]⟩⟩
  · intro h1 h2
    rcases total_of (Errs.readExact n (E := fun e => e = .eof) rfl) (NoPanic.readExact n) env p with ⟨a, q, h⟩ | ⟨e, q, rfl, h⟩
    · obtain ⟨bs, ⟨rfl, h3⟩, h4, -⟩ := (exact_readExact n _ _ _ _).mp h
      have := h4.length_le
      simp at this
      omega
    · exact ⟨q, h⟩

theorem u8 : Wide Rd.u8 1 := map (readExact 1 (by omega))
theorem u16 : Wide Rd.u16 2 := map (readExact 2 (by omega))
theorem u32 : Wide Rd.u32 4 := map (readExact 4 (by omega))

theorem replicate {m : Rd α} {w : Nat} (hm : Wide m w) (n : Nat) : Wide (Rd.replicate n m) (n * w) := by
  induction n with
  | zero => rw [Nat.zero_mul]; exact pure _
  | succ n ih =>
    rw [Nat.succ_mul, Nat.add_comm (n * w)]
    exact bind hm (fun _ => map ih)

theorem vec {m : Rd α} {w : Nat} (hm : Wide m w) (v n : Nat) (hn : n * v ≤ 2 ^ 63 - 1) : Wide (Rd.vec v n m) (n * w) := by
  intro env p
  unfold Rd.vec
  rw [PS.cfg_bind, if_neg (by omega)]
  exact replicate hm n env p

theorem fails {m : Rd α} {w : Nat} (hm : Wide m w) {env : Env} {p : Nat} {f : Failure} :
    Fails env m p f ↔ f = ends ∧ env.data.length < p + w ∧ 0 < w := by
  constructor
  · intro h
    by_cases hw : p + w ≤ env.data.length ∨ w = 0
    · obtain ⟨a, ha⟩ := (hm env p).1 hw
      exact absurd h (Fails.not_ok ha)
    · obtain ⟨q, hq⟩ := (hm env p).2 (by omega) (by omega)
      obtain ⟨q', h⟩ := h
      rw [hq] at h
      refine ⟨?_, by omega, by omega⟩
      cases f <;> simp [Failure.result] at h
      rw [← h.1]
      rfl
  · rintro ⟨rfl, h1, h2⟩
    exact (hm env p).2 h1 h2

/-- Reading something and then something else. -/
theorem fails_bind {m : Rd α} {R : α → List UInt8 → Prop} {w : Nat} (hm : Wide m w) (he : Exact m R) {g : α → Rd β}
    {env : Env} {p : Nat} {f : Failure} :
    Fails env (m >>= g) p f ↔ (f = ends ∧ env.data.length < p + w ∧ 0 < w) ∨
      ∃ a bs, R a bs ∧ Sits env.data p bs ∧ Fails env (g a) (p + w) f := by
  rw [Fails.bind, hm.fails]
  refine or_congr Iff.rfl ⟨?_, ?_⟩
  · rintro ⟨a, p', h1, h2⟩
    have hp : p' = p + w := by
      by_cases hw : p + w ≤ env.data.length ∨ w = 0
      · obtain ⟨a', ha⟩ := (hm env p).1 hw
        rw [h1] at ha
        exact (Prod.mk.inj ha).2
      · obtain ⟨q, hq⟩ := (hm env p).2 (by omega) (by omega)
        rw [h1] at hq
        simp at hq
    obtain ⟨bs, h3, h4, -⟩ := (he _ _ _ _).mp h1
    exact ⟨a, bs, h3, h4, hp ▸ h2⟩
  · rintro ⟨a, bs, h3, h4, h2⟩
    have h1 := (he _ _ _ _).mpr ⟨bs, h3, h4, rfl⟩
    refine ⟨a, p + bs.length, h1, ?_⟩
    have hp : p + bs.length = p + w := by
      by_cases hw : p + w ≤ env.data.length ∨ w = 0
      · obtain ⟨a', ha⟩ := (hm env p).1 hw
        rw [h1] at ha
        exact (Prod.mk.inj ha).2
      · obtain ⟨q, hq⟩ := (hm env p).2 (by omega) (by omega)
        rw [h1] at hq
        simp at hq
    exact hp ▸ h2

end Wide

theorem sits_bound {data bs : List UInt8} {p : Nat} (h : Sits data p bs) (hb : bs ≠ []) : p + bs.length ≤ data.length := by
  have h1 := h.length_le
  have h2 := List.length_pos_iff.mpr hb
  simp at h1
  omega

theorem sits_app {data a b : List UInt8} {p : Nat} : Sits data p (a ++ b) ↔ Sits data p a ∧ Sits data (p + a.length) b := by
  unfold Sits
  rw [prefix_append_iff, List.drop_drop]

/-! ## Offsets -/

theorem fails_jumpTo {env : Env} {base : Nat} {o : Int} {p : Nat} {f : Failure} :
    Fails env (jumpTo base o) p f ↔ AddressFault env.cfg base o f := by
  unfold jumpTo
  rw [Fails.cfg_bind, Fails.ofRes_bind]
  have hj : ∀ n, Fails env (Rd.jump n) p f ↔ f = .error .seek ∧ env.cfg.maxSeek < n := by
    intro n
    unfold Fails Rd.jump
    split
    · cases f <;> simp [Failure.result]
      omega
    · cases f <;> simp [Failure.result]
      · constructor
        · exact fun h => ⟨h.symm, by omega⟩
        · exact fun h => h.1.symm
  simp only [hj]
  unfold addU64 toU
  simp only
  by_cases h : base + (o % 2 ^ 64).toNat < 2 ^ 64
  · rw [if_pos h]
    constructor
    · rintro (h1 | ⟨n, h1, rfl, h2⟩)
      · cases f <;> simp [Failure.result] at h1
      · simp only [Res.ok.injEq] at h1
        exact .beyond (fun _ => by omega) (by omega)
    · intro hf
      cases hf with
      | beyond h1 h2 => exact .inr ⟨_, rfl, rfl, by omega⟩
      | overflow h1 h2 => omega
  · rw [if_neg h]
    by_cases hc : env.cfg.checks = true
    · rw [if_pos hc]
      constructor
      · rintro (h1 | ⟨n, h1, -⟩)
        · cases f <;> simp [Failure.result] at h1
          subst h1
          exact .overflow hc (by omega)
        · simp at h1
      · intro hf
        cases hf with
        | beyond h1 h2 => exact absurd (h1 hc) (by omega)
        | overflow h1 h2 => exact .inl rfl
    · rw [if_neg hc]
      constructor
      · rintro (h1 | ⟨n, h1, rfl, h2⟩)
        · cases f <;> simp [Failure.result] at h1
        · simp only [Res.ok.injEq] at h1
          exact .beyond (fun h => absurd h hc) (by omega)
      · intro hf
        cases hf with
        | beyond h1 h2 => exact .inr ⟨_, rfl, rfl, by omega⟩
        | overflow h1 h2 => exact absurd h1 hc

/-- Jumping and then going on. -/
theorem fails_jumpTo_bind {env : Env} {base : Nat} {o : Int} {p : Nat} {f : Failure} {g : Unit → Rd α} :
    Fails env (jumpTo base o >>= g) p f ↔ AddressFault env.cfg base o f ∨
      ∃ q, (machine env.cfg base).addr o q ∧ Fails env (g ()) q f := by
  rw [Fails.bind, fails_jumpTo]
  refine or_congr Iff.rfl ⟨?_, ?_⟩
  · rintro ⟨_, q, h1, h2⟩
    exact ⟨q, jumpTo_ok.mp h1, h2⟩
  · rintro ⟨q, h1, h2⟩
    exact ⟨(), q, jumpTo_ok.mpr h1, h2⟩

/-! ## INDEXes -/

theorem Wide.offset (w : UInt8) (h1 : 1 ≤ w.toNat) (h2 : w.toNat ≤ 4) : Wide (readOffset w) w.toNat := by
  unfold readOffset
  by_cases e1 : w = 1
  · rw [if_pos e1, e1]; exact Wide.map Wide.u8
  rw [if_neg e1]
  by_cases e2 : w = 2
  · rw [if_pos e2, e2]; exact Wide.map Wide.u16
  rw [if_neg e2]
  by_cases e3 : w = 3
  · rw [if_pos e3, e3]; exact Wide.map (Wide.readExact 3 (by omega))
  rw [if_neg e3]
  by_cases e4 : w = 4
  · rw [if_pos e4, e4]; exact Wide.u32
  exfalso
  have : w.toNat = 1 ∨ w.toNat = 2 ∨ w.toNat = 3 ∨ w.toNat = 4 := by omega
  rcases this with h | h | h | h
  · exact e1 (UInt8.toNat_inj.mp h)
  · exact e2 (UInt8.toNat_inj.mp h)
  · exact e3 (UInt8.toNat_inj.mp h)
  · exact e4 (UInt8.toNat_inj.mp h)

theorem readOffset_bad (w : UInt8) (h : ¬ (1 ≤ w.toNat ∧ w.toNat ≤ 4)) : readOffset w = Rd.raise .malformedOffset := by
  unfold readOffset
  rw [if_neg, if_neg, if_neg, if_neg]
  all_goals
    rintro rfl
    exact h (by decide)

theorem fails_replicate_raise {env : Env} {p n : Nat} {r : Reason} {f : Failure} :
    Fails env (Rd.replicate (n + 1) (Rd.raise r : Rd α)) p f ↔ f = complaint r := by
  unfold Rd.replicate
  rw [Fails.bind, Fails.raise]
  constructor
  · rintro (h | ⟨_, _, h, _⟩)
    · exact h
    · simp [Rd.raise] at h
  · exact .inl

/-- How the objects of an INDEX fail to be read, the first offset being `a` at `p`. -/
theorem fails_readData {env : Env} {f : Failure} (a : UInt32) (rest : List UInt32) {p : Nat} (hp : p ≤ env.data.length) :
    Fails env (Index.readData (a :: rest)) p f ↔ ∃ before b c after, a :: rest = before ++ b :: c :: after ∧
      (before ++ [b]).head? = some a ∧ ((before ++ [b]).map UInt32.toNat).Pairwise (· ≤ ·) ∧ p + b.toNat ≤ env.data.length + a.toNat ∧
      ((f = complaint .malformedIndex ∧ c.toNat < b.toNat) ∨
       (f = ends ∧ b.toNat ≤ c.toNat ∧ env.data.length + a.toNat < p + c.toNat)) := by
  induction rest generalizing a p with
  | nil =>
    constructor
    · intro h
      exact absurd h (Fails.pure _)
    · rintro ⟨before, b, c, after, h, -⟩
      have := congrArg List.length h
      simp at this
      omega
  | cons b rest ih =>
    rw [Index.readData]
    -- the first pair of offsets, or a later one
    have split : ∀ P : List UInt32 → UInt32 → UInt32 → Prop,
        (∃ before x c after, a :: b :: rest = before ++ x :: c :: after ∧ P before x c) ↔
        P [] a b ∨ ∃ before x c after, b :: rest = before ++ x :: c :: after ∧ P (a :: before) x c := by
      intro P
      constructor
      · rintro ⟨before, x, c, after, h, hP⟩
        cases before with
        | nil =>
          simp only [List.nil_append, List.cons.injEq] at h
          obtain ⟨rfl, rfl, -⟩ := h
          exact .inl hP
        | cons y before =>
          simp only [List.cons_append, List.cons.injEq] at h
          obtain ⟨rfl, h⟩ := h
          exact .inr ⟨before, x, c, after, h, hP⟩
      · rintro (hP | ⟨before, x, c, after, h, hP⟩)
        · exact ⟨[], a, b, rest, rfl, hP⟩
        · exact ⟨a :: before, x, c, after, by rw [h]; rfl, hP⟩
    have split := split (fun before x c => (before ++ [x]).head? = some a ∧ ((before ++ [x]).map UInt32.toNat).Pairwise (· ≤ ·) ∧
      p + x.toNat ≤ env.data.length + a.toNat ∧ ((f = complaint .malformedIndex ∧ c.toNat < x.toNat) ∨
       (f = ends ∧ x.toNat ≤ c.toNat ∧ env.data.length + a.toNat < p + c.toNat)))
    rw [split]
    -- a later pair comes after a pair in order
    have later : ∀ before x c after, b :: rest = before ++ x :: c :: after →
        ((a :: before ++ [x]).map UInt32.toNat).Pairwise (· ≤ ·) → a.toNat ≤ b.toNat := by
      intro before x c after h1 h2
      rw [List.cons_append, List.map_cons, List.pairwise_cons] at h2
      refine h2.1 _ (List.mem_map_of_mem ?_)
      cases before with
      | nil => simp only [List.nil_append, List.cons.injEq] at h1; simp [h1.1]
      | cons y before => simp only [List.cons_append, List.cons.injEq] at h1; simp [h1.1]
    by_cases hlt : b < a
    · rw [if_pos hlt, Fails.raise]
      have hlt' : b.toNat < a.toNat := hlt
      constructor
      · rintro rfl
        exact .inl ⟨rfl, by simp, by omega, .inl ⟨rfl, hlt'⟩⟩
      · rintro (⟨-, -, -, ⟨h, -⟩ | ⟨-, h, -⟩⟩ | ⟨before, x, c, after, h1, -, h2, -⟩)
        · exact h
        · omega
        · have := later _ _ _ _ h1 h2
          omega
    · rw [if_neg hlt, Fails.cfg_bind, subU32_ok hlt, ofRes_ok, rd_pure_bind]
      have hs := sub_toNat hlt
      have hle : a.toNat ≤ b.toNat := by simpa [UInt32.not_lt, UInt32.le_iff_toNat_le] using hlt
      have hb := b.toNat_lt
      have hw : Wide (Rd.bytes (b - a).toNat) (b.toNat - a.toNat) := by
        rw [← hs]
        have := Wide.vec Wide.u8 1 (b - a).toNat (by omega)
        rwa [Nat.mul_one] at this
      rw [hw.fails_bind (exact_bytes _ (by omega))]
      by_cases hend : env.data.length < p + (b.toNat - a.toNat)
      · constructor
        · rintro (⟨rfl, h1, h2⟩ | ⟨chunk, _, ⟨rfl, h1⟩, h2, -⟩)
          · exact .inl ⟨rfl, by simp, by omega, .inr ⟨rfl, hle, by omega⟩⟩
          · have := h2.length_le
            simp at this
            omega
        · rintro (⟨-, -, -, ⟨-, h⟩ | ⟨rfl, -, h⟩⟩ | ⟨before, x, c, after, h1, -, h2, h3, h4⟩)
          · omega
          · exact .inl ⟨rfl, hend, by omega⟩
          · exfalso
            -- an object that ends later cannot be in the file
            have : b.toNat ≤ x.toNat := by
              rw [List.cons_append, List.map_cons, List.pairwise_cons] at h2
              cases before with
              | nil => simp only [List.nil_append, List.cons.injEq] at h1; simp [h1.1]
              | cons y before =>
                simp only [List.cons_append, List.cons.injEq] at h1
                rw [List.cons_append, List.map_cons, List.pairwise_cons] at h2
                rw [h1.1]
                exact h2.2.1 _ (by simp)
            omega
      · have hchunk : ∃ chunk : List UInt8, chunk.length = (b - a).toNat ∧ Sits env.data p chunk :=
          ⟨(env.data.drop p).take (b - a).toNat, by simp; omega, List.take_prefix _ _⟩
        have h0 : (∃ (chunk bs : List UInt8), (chunk = bs ∧ bs.length = (b - a).toNat) ∧ Sits env.data p bs ∧
            Fails env (do let data ← Index.readData (b :: rest); pure (chunk :: data)) (p + (b.toNat - a.toNat)) f) ↔
            Fails env (Index.readData (b :: rest)) (p + (b.toNat - a.toNat)) f := by
          constructor
          · rintro ⟨chunk, _, -, -, h⟩
            exact Fails.map.mp h
          · intro h
            obtain ⟨chunk, h1, h2⟩ := hchunk
            exact ⟨chunk, chunk, ⟨rfl, h1⟩, h2, Fails.map.mpr h⟩
        rw [h0, ih b (by clear hchunk; omega)]
        clear h0 hchunk
        constructor
        · rintro (⟨-, h, -⟩ | ⟨before, x, c, after, h1, h2, h3, h4, h5⟩)
          · omega
          · refine .inr ⟨before, x, c, after, h1, rfl, ?_, by omega, ?_⟩
            · rw [List.cons_append, List.map_cons, List.pairwise_cons]
              refine ⟨?_, h3⟩
              intro y hy
              have hx : (before ++ [x]).map UInt32.toNat ≠ [] := by simp
              obtain ⟨z, l, hz⟩ := List.exists_cons_of_ne_nil hx
              rw [hz] at h3 hy
              have hzb : z = b.toNat := by
                have := congrArg List.head? hz
                rw [List.head?_map, h2] at this
                simpa using this.symm
              rw [List.pairwise_cons] at h3
              rcases List.mem_cons.mp hy with rfl | hy
              · omega
              · have := h3.1 y hy
                omega
            · rcases h5 with h5 | ⟨h5, h6, h7⟩
              · exact .inl h5
              · exact .inr ⟨h5, h6, by omega⟩
        · rintro (⟨-, -, -, ⟨-, h⟩ | ⟨-, -, h⟩⟩ | ⟨before, x, c, after, h1, -, h2, h3, h4⟩)
          · omega
          · omega
          · have hx : b.toNat ≤ x.toNat ∧ (before ++ [x]).head? = some b := by
              rw [List.cons_append, List.map_cons, List.pairwise_cons] at h2
              cases before with
              | nil => simp only [List.nil_append, List.cons.injEq] at h1; simp [h1.1]
              | cons y before =>
                simp only [List.cons_append, List.cons.injEq] at h1
                rw [List.cons_append, List.map_cons, List.pairwise_cons] at h2
                rw [h1.1]
                exact ⟨h2.2.1 _ (by simp), rfl⟩
            refine .inr ⟨before, x, c, after, h1, hx.2, ?_, by omega, ?_⟩
            · rw [List.cons_append, List.map_cons, List.pairwise_cons] at h2
              exact h2.2
            · rcases h4 with h4 | ⟨h4, h5, h6⟩
              · exact .inl h4
              · exact .inr ⟨h4, h5, by omega⟩

theorem u16_of (n : Nat) (h : n < 65536) : ∃ v : UInt16, v.toNat = n := ⟨UInt16.ofNat n, by simp; omega⟩

theorem u32_of (n : Nat) (h : n < 2 ^ 32) : ∃ v : UInt32, v.toNat = n := ⟨UInt32.ofNat n, by simp; omega⟩

theorem u8_of (n : Nat) (h : n < 256) : ∃ v : UInt8, v.toNat = n := ⟨UInt8.ofNat n, by simp; omega⟩

theorem u32s_of (l : List Nat) (h : ∀ n ∈ l, n < 2 ^ 32) : ∃ vs : List UInt32, vs.map UInt32.toNat = l := by
  induction l with
  | nil => exact ⟨[], rfl⟩
  | cons n l ih =>
    obtain ⟨v, hv⟩ := u32_of n (h n (by simp))
    obtain ⟨vs, hvs⟩ := ih (fun n hn => h n (by simp [hn]))
    exact ⟨v :: vs, by simp [hv, hvs]⟩

theorem be_two_length (n : Nat) : (be 2 n).length = 2 := be_length 2 n

theorem fails_index {env : Env} {p : Nat} {f : Failure} : Fails env Index.read p f ↔ IndexFault env.data p f := by
  unfold Index.read
  rw [Wide.u16.fails_bind exact_u16]
  constructor
  · rintro (⟨rfl, h, -⟩ | ⟨n, _, rfl, hn, h⟩)
    · exact .count h
    by_cases h0 : n = 0
    · rw [if_pos h0] at h
      exact absurd h (Fails.pure _)
    have h1 : 1 ≤ n.toNat := by
      rcases Nat.eq_zero_or_pos n.toNat with e | e
      · exact absurd (UInt16.toNat_inj.mp e) h0
      · exact e
    have h2 := n.toNat_lt
    rw [if_neg h0, Wide.u8.fails_bind exact_u8] at h
    rcases h with ⟨rfl, h, -⟩ | ⟨w, _, rfl, hw, h⟩
    · exact .width h1 h2 hn h
    have hnw : Sits env.data p (be 2 n.toNat ++ [w]) := sits_app.mpr ⟨hn, by rwa [be_two_length]⟩
    by_cases hwb : ¬ (1 ≤ w.toNat ∧ w.toNat ≤ 4)
    · rw [readOffset_bad w hwb, Fails.bind, fails_replicate_raise] at h
      rcases h with rfl | ⟨_, _, h, _⟩
      · exact .badWidth h1 h2 hnw (by omega)
      · have := (Fails.not_ok (f := complaint .malformedOffset) h)
        exact absurd (fails_replicate_raise.mpr rfl) this
    · have hwb : 1 ≤ w.toNat ∧ w.toNat ≤ 4 := by simpa using hwb
      rw [(Wide.replicate (Wide.offset w hwb.1 hwb.2) (n.toNat + 1)).fails_bind (exact_replicate (exact_offset w) _)] at h
      rcases h with ⟨rfl, h, -⟩ | ⟨offs, bs, ⟨hl, hs⟩, hsit, h⟩
      · exact .offsets h1 h2 hnw hwb.1 hwb.2 h
      obtain ⟨-, hb, rfl⟩ := seq_offset.mp hs
      have hat : OffsetsAt env.data p n.toNat w.toNat (offs.map UInt32.toNat) := by
        refine ⟨h1, h2, hwb.1, hwb.2, by simpa using hl, ?_, ?_⟩
        · intro o ho
          obtain ⟨a, ha, rfl⟩ := List.mem_map.mp ho
          exact hb a ha
        · rw [be_one, List.flatMap_map]
          exact sits_app.mpr ⟨hnw, by simpa [be_two_length] using hsit⟩
      have hle : p + 2 + 1 + (n.toNat + 1) * w.toNat ≤ env.data.length := by
        have hne : (offs.flatMap fun a => be w.toNat a.toNat) ≠ [] := by
          match offs, hl with
          | a :: offs, _ =>
            intro h
            have := congrArg List.length h
            simp at this
            omega
        have := sits_bound hsit hne
        simp only [List.length_flatMap, be_length, List.map_const', List.sum_replicate, hl] at this
        exact this
      match offs, hl with
      | a :: rest, hl =>
        simp only at h
        by_cases ha : a ≠ 1
        · rw [if_pos ha, Fails.raise] at h
          subst h
          refine .first hat ?_
          intro h
          simp only [List.map_cons, List.head?_cons, Option.some.injEq] at h
          exact ha (UInt32.toNat_inj.mp h)
        · rw [if_neg ha, Fails.map, fails_readData a rest hle] at h
          simp only [ne_eq, Decidable.not_not] at ha
          obtain ⟨before, b, c, after, e, g1, g2, g3, g4⟩ := h
          rw [e, List.map_append, List.map_cons, List.map_cons] at hat
          have ga : a.toNat = 1 := by rw [ha]; rfl
          have k1 : (before.map UInt32.toNat ++ [b.toNat]).head? = some 1 := by
            rw [show before.map UInt32.toNat ++ [b.toNat] = (before ++ [b]).map UInt32.toNat by simp, List.head?_map, g1]
            simp [ga]
          have k2 : (before.map UInt32.toNat ++ [b.toNat]).Pairwise (· ≤ ·) := by
            rwa [show before.map UInt32.toNat ++ [b.toNat] = (before ++ [b]).map UInt32.toNat by simp]
          have k3 : objectAt p n.toNat w.toNat b.toNat ≤ env.data.length := by unfold objectAt; omega
          rcases g4 with ⟨rfl, g4⟩ | ⟨rfl, g4, g5⟩
          · exact .order hat k1 k2 k3 g4
          · exact .object hat k1 k2 k3 g4 (by unfold objectAt; omega)
  · -- an INDEX with some offsets
    have key : ∀ n w offs, OffsetsAt env.data p n w offs → ∃ (n' : UInt16) (w' : UInt8) (a : UInt32) (rest : List UInt32),
        n'.toNat = n ∧ w'.toNat = w ∧ (a :: rest).map UInt32.toNat = offs ∧
        p + 2 + 1 + (n + 1) * w ≤ env.data.length ∧
        (Fails env (if a ≠ 1 then Rd.raise .malformedIndex else do
            let data ← Index.readData (a :: rest)
            pure (Index.mk n' w' (a :: rest) data)) (p + 2 + 1 + (n + 1) * w) f →
          (f = ends ∧ env.data.length < p + 2 ∧ 0 < 2) ∨ ∃ (v : UInt16) (bs : List UInt8), bs = be 2 v.toNat ∧ Sits env.data p bs ∧
          Fails env (if v = 0 then pure Index.empty else do
            let offsetSize ← Rd.u8
            let offsets ← Rd.replicate (v.toNat + 1) (readOffset offsetSize)
            match offsets with
            | [] => Rd.panic .bounds
            | first :: _ =>
              if first ≠ 1 then Rd.raise .malformedIndex
              else do
                let data ← Index.readData offsets
                pure (Index.mk v offsetSize offsets data)) (p + 2) f) := by
      rintro n w offs ⟨h1, h2, h3, h4, h5, h6, h7⟩
      obtain ⟨n', rfl⟩ := u16_of n h2
      obtain ⟨w', rfl⟩ := u8_of w (by omega)
      have hbig : (256 : Nat) ^ w'.toNat ≤ 2 ^ 32 := by
        calc (256 : Nat) ^ w'.toNat ≤ 256 ^ 4 := Nat.pow_le_pow_right (by omega) h4
          _ = 2 ^ 32 := by norm_num
      obtain ⟨vs, hvs⟩ := u32s_of offs (fun o ho => lt_of_lt_of_le (h6 o ho) hbig)
      have hl : vs.length = n'.toNat + 1 := by rw [← h5, ← hvs]; simp
      rw [be_one, sits_app, sits_app, be_two_length] at h7
      obtain ⟨⟨g1, g2⟩, g3⟩ := h7
      rw [List.length_append, be_two_length, List.length_singleton] at g3
      have g3 : Sits env.data (p + 2 + 1) (vs.flatMap fun a => be w'.toNat a.toNat) := by
        rw [← hvs, List.flatMap_map] at g3; exact g3
      have hseq : Seq (OffsetEnc w') vs (vs.flatMap fun a => be w'.toNat a.toNat) := by
        rw [seq_offset]
        refine ⟨fun _ => ⟨h3, h4⟩, ?_, rfl⟩
        intro a ha
        exact h6 _ (by rw [← hvs]; exact List.mem_map_of_mem ha)
      obtain ⟨a, rest, rfl⟩ : ∃ a rest, vs = a :: rest := by
        cases vs with
        | nil => simp at hl
        | cons a rest => exact ⟨a, rest, rfl⟩
      have hle : p + 2 + 1 + (n'.toNat + 1) * w'.toNat ≤ env.data.length := by
        have hne : ((a :: rest).flatMap fun a => be w'.toNat a.toNat) ≠ [] := by
          intro h
          have := congrArg List.length h
          simp at this
          omega
        have := sits_bound g3 hne
        simp only [List.length_flatMap, be_length, List.map_const', List.sum_replicate, hl] at this
        exact this
      refine ⟨n', w', a, rest, rfl, rfl, hvs, hle, fun hf => .inr ⟨n', _, rfl, g1, ?_⟩⟩
      rw [if_neg (by rintro rfl; simp at h1), Wide.u8.fails_bind exact_u8]
      refine .inr ⟨w', _, rfl, g2, ?_⟩
      rw [(Wide.replicate (Wide.offset w' h3 h4) (n'.toNat + 1)).fails_bind (exact_replicate (exact_offset w') _)]
      exact .inr ⟨a :: rest, _, ⟨hl, hseq⟩, g3, hf⟩
    have count : ∀ {n : Nat}, 1 ≤ n → ∀ {v : UInt16}, v.toNat = n → v ≠ 0 := by
      rintro n h v hv rfl
      simp at hv
      omega
    intro hf
    cases hf with
    | count h => exact .inl ⟨rfl, h, by omega⟩
    | @width n h1 h2 h3 h4 =>
      obtain ⟨v, hv⟩ := u16_of n h2
      refine .inr ⟨v, _, rfl, hv ▸ h3, ?_⟩
      rw [if_neg (count h1 hv), Wide.u8.fails_bind exact_u8]
      exact .inl ⟨rfl, h4, by omega⟩
    | @badWidth n w h1 h2 h3 h4 =>
      obtain ⟨v, hv⟩ := u16_of n h2
      rw [sits_app, be_two_length] at h3
      refine .inr ⟨v, _, rfl, hv ▸ h3.1, ?_⟩
      rw [if_neg (count h1 hv), Wide.u8.fails_bind exact_u8]
      refine .inr ⟨w, _, rfl, h3.2, ?_⟩
      rw [readOffset_bad w (by omega), Fails.bind, fails_replicate_raise]
      exact .inl rfl
    | @offsets n w h1 h2 h3 h4 h5 h6 =>
      obtain ⟨v, hv⟩ := u16_of n h2
      rw [sits_app, be_two_length] at h3
      refine .inr ⟨v, _, rfl, hv ▸ h3.1, ?_⟩
      rw [if_neg (count h1 hv), Wide.u8.fails_bind exact_u8]
      refine .inr ⟨w, _, rfl, h3.2, ?_⟩
      rw [(Wide.replicate (Wide.offset w h4 h5) (v.toNat + 1)).fails_bind (exact_replicate (exact_offset w) _), hv]
      exact .inl ⟨rfl, h6, by positivity⟩
    | first hat h1 =>
      obtain ⟨n', w', a, rest, -, -, rfl, -, hk⟩ := key _ _ _ hat
      refine hk ?_
      rw [if_pos, Fails.raise]
      rintro rfl
      exact h1 rfl
    | @order n w b c before after hat h1 h2 h3 h4 =>
      obtain ⟨n', w', a, rest, rfl, rfl, he, hle, hk⟩ := key _ _ _ hat
      refine hk ?_
      obtain ⟨before, t, e, rfl, he2⟩ := List.map_eq_append_iff.mp he
      obtain ⟨b, t, rfl, rfl, he3⟩ := List.map_eq_cons_iff.mp he2
      obtain ⟨c, after, rfl, rfl, rfl⟩ := List.map_eq_cons_iff.mp he3
      have h1' : (before ++ [b]).head? = some a := by
        cases before with
        | nil => simp at e ⊢; exact e.1.symm
        | cons x before => simp at e ⊢; exact e.1.symm
      have ha : a.toNat = 1 := by
        have : ((before ++ [b]).map UInt32.toNat).head? = some 1 := by simpa using h1
        rw [List.head?_map, h1'] at this
        simpa using this
      have ha1 : a = 1 := UInt32.toNat_inj.mp ha
      rw [if_neg (by simpa using ha1), Fails.map, fails_readData a rest hle]
      unfold objectAt at h3
      exact ⟨before, b, c, after, e, h1', by simpa using h2, by omega, .inl ⟨rfl, h4⟩⟩
    | @object n w b c before after hat h1 h2 h3 h4 h5 =>
      obtain ⟨n', w', a, rest, rfl, rfl, he, hle, hk⟩ := key _ _ _ hat
      refine hk ?_
      obtain ⟨before, t, e, rfl, he2⟩ := List.map_eq_append_iff.mp he
      obtain ⟨b, t, rfl, rfl, he3⟩ := List.map_eq_cons_iff.mp he2
      obtain ⟨c, after, rfl, rfl, rfl⟩ := List.map_eq_cons_iff.mp he3
      have h1' : (before ++ [b]).head? = some a := by
        cases before with
        | nil => simp at e ⊢; exact e.1.symm
        | cons x before => simp at e ⊢; exact e.1.symm
      have ha : a.toNat = 1 := by
        have : ((before ++ [b]).map UInt32.toNat).head? = some 1 := by simpa using h1
        rw [List.head?_map, h1'] at this
        simpa using this
      have ha1 : a = 1 := UInt32.toNat_inj.mp ha
      rw [if_neg (by simpa using ha1), Fails.map, fails_readData a rest hle]
      unfold objectAt at h3 h5
      exact ⟨before, b, c, after, e, h1', by simpa using h2, by omega, .inr ⟨rfl, h4, by omega⟩⟩

/-! ## Dictionaries and operations -/

theorem fails_ofBytes {cfg : Config} {chunk : List UInt8} {f : Failure} :
    Operations.ofBytes cfg chunk = f.result ↔ DictFault chunk f := by
  have h1 := C13_dict_malformed_iff cfg chunk 0
  have h2 := C13_dict_unknown_iff cfg chunk 0
  rw [List.drop_zero] at h1 h2
  rw [show Operations.ofBytes cfg chunk = (Operations.read (tape cfg chunk) 0).1 from rfl]
  constructor
  · intro h
    rcases operations_total (tape cfg chunk) 0 with ⟨o, q, ho⟩ | ⟨q, hq⟩ | ⟨q, hq⟩
    · rw [ho] at h
      cases f <;> simp [Failure.result] at h
    · obtain ⟨ops, bs, ns, os, tail, g1, g2, g3, g4⟩ := h1.mp ⟨q, hq⟩
      rw [hq] at h
      cases f <;> simp [Failure.result] at h
      subst h
      exact .operand g1 g2 g3 g4
    · obtain ⟨ops, bs, ns, os, tail, g1, g2, g3, g4⟩ := h2.mp ⟨q, hq⟩
      rw [hq] at h
      cases f <;> simp [Failure.result] at h
      subst h
      exact .operator g1 g2 g3 g4
  · intro h
    cases h with
    | operand g1 g2 g3 g4 =>
      obtain ⟨q, hq⟩ := h1.mpr ⟨_, _, _, _, _, g1, g2, g3, g4⟩
      rw [hq]; rfl
    | operator g1 g2 g3 g4 =>
      obtain ⟨q, hq⟩ := h2.mpr ⟨_, _, _, _, _, g1, g2, g3, g4⟩
      rw [hq]; rfl

theorem fails_toOperations {cfg : Config} {ix : Index} {f : Failure} :
    ix.toOperations cfg = f.result ↔ DictsFault ix.data f := by
  have hof : ∀ chunk r, (Operations.ofBytes cfg chunk = r ↔ ∃ q, Operations.read (tape cfg chunk) 0 = (r, q)) := by
    intro chunk r
    rw [show Operations.ofBytes cfg chunk = (Operations.read (tape cfg chunk) 0).1 from rfl]
    constructor
    · intro h; exact ⟨_, Prod.ext h rfl⟩
    · rintro ⟨q, h⟩; rw [h]
  cases f with
  | panic x =>
    constructor
    · intro h; exact absurd h (C16_dictionaries_no_panic _ _ _)
    · rintro ⟨_, _, _, -, -, h⟩; cases h
  | error e =>
    rw [show (Failure.error e).result = (Res.err e : Res (List Operations)) from rfl, C16_dictionaries_first_error]
    constructor
    · rintro ⟨k, chunk, q, h1, h2, h3⟩
      obtain ⟨hk, rfl⟩ := List.getElem?_eq_some_iff.mp h1
      refine ⟨ix.data.take k, ix.data[k], ix.data.drop (k + 1), ?_, ?_, ?_⟩
      · rw [List.getElem_cons_drop, List.take_append_drop]
      · intro x hx
        obtain ⟨j, hj, rfl⟩ := List.mem_iff_getElem.mp hx
        simp only [List.length_take] at hj
        rw [List.getElem_take]
        obtain ⟨o, q, ho⟩ := h3 j (by omega) _ (List.getElem?_eq_getElem (by omega))
        exact ⟨o, ofBytes_ok.mp ((hof _ _).mpr ⟨q, ho⟩)⟩
      · exact (fails_ofBytes (cfg := cfg)).mp ((hof _ _).mpr ⟨q, h2⟩)
    · rintro ⟨before, chunk, after, h1, h2, h3⟩
      obtain ⟨q, hq⟩ := (hof _ _).mp ((fails_ofBytes (cfg := cfg)).mpr h3)
      refine ⟨before.length, chunk, q, by simp [h1], hq, ?_⟩
      intro j hj x hx
      rw [h1, List.getElem?_append_left hj] at hx
      obtain ⟨o, ho⟩ := h2 x (List.mem_of_getElem? hx)
      obtain ⟨q, ho⟩ := (hof _ _).mp (ofBytes_ok (cfg := cfg).mpr ho)
      exact ⟨o, q, ho⟩

/-- The operators whose operand is an offset or a number of a format. -/
def Sought (op : Operator) : Prop :=
  op ∈ [Operator.opCharStrings, .opCharStringType, .opCharSet, .opEncoding, .opFDSelect, .opFDArray, .opSubrs]

theorem get_real {o : Operations} {op : Operator} (hop : Sought op) {x : F32} {rest : List Number} :
    o.get op = some (.real x :: rest) ↔ o.map op = some (.real x :: rest) := by
  unfold Operations.get
  rcases hm : o.map op with _ | ns
  · simp only [Sought, List.mem_cons, List.not_mem_nil, or_false] at hop
    rcases hop with rfl | rfl | rfl | rfl | rfl | rfl | rfl <;> simp [Operator.default]
  · exact Iff.rfl

theorem fails_getI {o : Operations} {op : Operator} (hop : Sought op) {f : Failure} :
    getI o op = f.result ↔ IntFault o op f := by
  constructor
  · intro h
    unfold getI Operations.getSingle at h
    rcases hg : o.get op with _ | _ | ⟨i | x, l⟩ <;> rw [hg] at h <;> cases f <;> simp [Failure.result] at h <;> subst h
    · exact .missing (absent_iff.mpr (.inl hg))
    · exact .missing (absent_iff.mpr (.inr hg))
    · exact .malformed ((get_real hop).mp hg)
  · intro h
    unfold getI Operations.getSingle
    cases h with
    | missing h => rcases absent_iff.mp h with h | h <;> rw [h] <;> rfl
    | malformed h => rw [(get_real hop).mpr h]; rfl

theorem fails_tryGetI {o : Operations} {op : Operator} (hop : Sought op) {f : Failure} :
    tryGetI o op = f.result ↔ f = complaint .malformedOperation ∧ ∃ x rest, o.map op = some (.real x :: rest) := by
  constructor
  · intro h
    unfold tryGetI Operations.getSingle at h
    rcases hg : o.get op with _ | _ | ⟨i | x, l⟩ <;> rw [hg] at h <;> cases f <;> simp [Failure.result] at h
    subst h
    exact ⟨rfl, x, l, (get_real hop).mp hg⟩
  · rintro ⟨rfl, x, rest, h⟩
    unfold tryGetI Operations.getSingle
    rw [(get_real hop).mpr h]
    rfl

theorem fails_getI_bind {env : Env} {p : Nat} {o : Operations} {op : Operator} (hop : Sought op) {f : Failure} {g : Int → Rd α} :
    Fails env (Rd.ofRes (getI o op) >>= g) p f ↔ IntFault o op f ∨ ∃ i, IntOf o op i ∧ Fails env (g i) p f := by
  rw [Fails.ofRes_bind, fails_getI hop]
  simp only [getI_ok]

/-! ## Private dictionaries -/

theorem fails_bytes {env : Env} (hd : env.data.length < 2 ^ 61) {size : Int} (hs : -2 ^ 31 ≤ size ∧ size < 2 ^ 31) {p : Nat}
    {f : Failure} : Fails env (Rd.bytes (toU 64 size)) p f ↔
      (f = .panic .capacity ∧ size < 0 ∧ env.cfg.prealloc = true) ∨ (f = ends ∧ size < 0 ∧ env.cfg.prealloc = false) ∨
      (f = ends ∧ 0 < size ∧ (env.data.length : Int) < p + size) := by
  by_cases h : 0 ≤ size
  · have hn : toU 64 size ≤ 2 ^ 63 - 1 := by unfold toU; omega
    have hw := Wide.vec Wide.u8 1 (toU 64 size) (by omega)
    rw [Nat.mul_one] at hw
    rw [show Rd.bytes (toU 64 size) = Rd.vec 1 (toU 64 size) Rd.u8 from rfl, hw.fails]
    have : (toU 64 size : Int) = size := by unfold toU; omega
    constructor
    · rintro ⟨h1, h2, h3⟩
      exact .inr (.inr ⟨h1, by omega, by omega⟩)
    · rintro (⟨-, h1, -⟩ | ⟨-, h1, -⟩ | ⟨h1, h2, h3⟩)
      · omega
      · omega
      · exact ⟨h1, by omega, by omega⟩
  · have hu : 2 ^ 63 < toU 64 size := by unfold toU; omega
    unfold Rd.bytes Rd.vec
    rw [Fails.cfg_bind]
    by_cases hp : env.cfg.prealloc = true
    · rw [if_pos ⟨hp, by omega⟩, Fails.panic]
      constructor
      · intro h1; exact .inl ⟨h1, by omega, hp⟩
      · rintro (⟨h1, -⟩ | ⟨-, -, h1⟩ | ⟨-, h1, -⟩)
        · exact h1
        · rw [hp] at h1; simp at h1
        · omega
    · rw [if_neg (fun h => hp h.1), (Wide.replicate Wide.u8 _).fails]
      constructor
      · rintro ⟨h1, -⟩
        exact .inr (.inl ⟨h1, by omega, by simpa using hp⟩)
      · rintro (⟨-, -, h1⟩ | ⟨h1, -⟩ | ⟨-, h1, -⟩)
        · exact absurd h1 hp
        · exact ⟨h1, by omega, by omega⟩
        · omega

theorem fails_addI32 {checks : Bool} {a b : Int} {f : Failure} : addI32 checks a b = f.result ↔
    f = .panic .overflow ∧ checks = true ∧ (a + b < -2 ^ 31 ∨ 2 ^ 31 ≤ a + b) := by
  unfold addI32 wrapI32
  split
  · constructor
    · intro h; cases f <;> simp [Failure.result] at h
    · rintro ⟨-, -, h⟩; omega
  · rename_i h0
    cases checks with
    | true =>
      simp only [if_true, true_and]
      constructor
      · intro h
        cases f <;> simp [Failure.result] at h
        exact ⟨by rw [h], by omega⟩
      · rintro ⟨rfl, -⟩; rfl
    | false =>
      simp only [Bool.false_eq_true, if_false, false_and, and_false, iff_false]
      intro h; cases f <;> simp [Failure.result] at h

theorem fails_getPrivate {o : Operations} {f : Failure} : getII o .opPrivate = f.result ↔
    (f = complaint .missingOperation ∧ ∀ a b rest, o.map .opPrivate ≠ some (a :: b :: rest)) ∨
    (f = complaint .malformedOperation ∧ ∃ a b rest x, o.map .opPrivate = some (a :: b :: rest) ∧
      (a = Number.real x ∨ b = Number.real x)) := by
  unfold getII Operations.getDouble
  rw [get_private]
  rcases hm : o.map .opPrivate with _ | _ | ⟨a, _ | ⟨b, l⟩⟩
  · cases f <;> simp [Failure.result, complaint]; exact eq_comm
  · cases f <;> simp [Failure.result, complaint]; exact eq_comm
  · cases f <;> simp [Failure.result, complaint]; exact eq_comm
  · rcases a with i | x <;> rcases b with j | y <;> cases f <;> simp [Failure.result, complaint]
    all_goals exact eq_comm

theorem fails_private {env : Env} (hd : env.data.length < 2 ^ 61) {base : Nat} {top : Operations} (ht : Small top) {p : Nat}
    {f : Failure} : Fails env (PrivateRecord.read base top) p f ↔ PrivateFault env.cfg env.data base top f := by
  unfold PrivateRecord.read
  rw [Fails.cfg_bind, Fails.ofRes_bind, fails_getPrivate]
  have sub : ∀ (offset : Int) (another : Option Int) q, Fails env (match another with
      | some anotherOffset => do
        let sum ← Rd.ofRes (addI32 env.cfg.checks offset anotherOffset)
        jumpTo base sum
        Index.read
      | none => pure Index.empty : Rd Index) q f ↔ ∃ s, another = some s ∧
        ((f = .panic .overflow ∧ env.cfg.checks = true ∧ (offset + s < -2 ^ 31 ∨ 2 ^ 31 ≤ offset + s)) ∨
        ∃ t, (machine env.cfg base).sum offset s t ∧ (AddressFault env.cfg base t f ∨
          ∃ q, (machine env.cfg base).addr t q ∧ IndexFault env.data q f)) := by
    intro offset another q
    cases another with
    | none =>
      constructor
      · intro h; exact absurd h (Fails.pure _)
      · rintro ⟨s, h, -⟩; simp at h
    | some s =>
      simp only [Option.some.injEq, exists_eq_left']
      rw [Fails.ofRes_bind, fails_addI32]
      simp only [fails_jumpTo_bind, fails_index, machine_sum]
  constructor
  · rintro ((⟨rfl, h⟩ | ⟨rfl, a, b, rest, x, h1, h2⟩) | ⟨⟨size, offset⟩, h1, h⟩)
    · exact .missing h
    · exact .malformed h1 h2
    obtain ⟨rest, h1⟩ := getPrivate_ok.mp h1
    have hs := ht _ _ size h1 (by simp)
    simp only at h
    rw [fails_jumpTo_bind] at h
    rcases h with h | ⟨q, h2, h⟩
    · exact .offset h1 h
    rw [Fails.bind, fails_bytes hd hs] at h
    rcases h with (⟨rfl, h3, h4⟩ | ⟨rfl, h3, h4⟩ | ⟨rfl, h3, h4⟩) | ⟨chunk, q', h3, h⟩
    · exact .negative h1 h2 h3 h4
    · exact .endless h1 h2 h3 h4
    · exact .cut h1 h2 h3 h4
    obtain ⟨h3, h4⟩ := (bytes_at env hd size hs q chunk).mp ⟨q', h3⟩
    rw [Fails.ofRes_bind, fails_ofBytes] at h
    rcases h with h | ⟨o, h5, h⟩
    · exact .dictionary h1 h2 h3 h4 h
    have h5 := ofBytes_ok.mp h5
    rw [Fails.ofRes_bind, fails_tryGetI (by simp [Sought])] at h
    rcases h with ⟨rfl, x, rest', h⟩ | ⟨another, h6, h⟩
    · exact .subroutines h1 h2 h3 h4 h5 h
    obtain ⟨s, rfl, h'⟩ := (sub _ _ _).mp (Fails.map.mp h)
    have h6 := tryGetI_some.mp h6
    rcases h' with ⟨rfl, h7, h8⟩ | ⟨t, h7, h | ⟨q'', h8, h9⟩⟩
    · exact .sum h1 h2 h3 h4 h5 h6 h7 h8
    · exact .reach h1 h2 h3 h4 h5 h6 h7 h
    · exact .index h1 h2 h3 h4 h5 h6 h7 h8 h9
  · -- so far, so good
    have go1 : ∀ {size offset : Int} {rest : List Number},
        top.map .opPrivate = some (.integer size :: .integer offset :: rest) → ∀ {g : Int × Int → Rd PrivateRecord},
        Fails env (g (size, offset)) p f → ∃ a, getII top .opPrivate = .ok a ∧ Fails env (g a) p f :=
      fun h1 _ h => ⟨_, getPrivate_ok.mpr ⟨_, h1⟩, h⟩
    have go2 : ∀ {size : Int} {q : Nat} {chunk : List UInt8} {g : List UInt8 → Rd PrivateRecord},
        -2 ^ 31 ≤ size ∧ size < 2 ^ 31 → (chunk.length : Int) = size → Sits env.data q chunk →
        (∀ q, Fails env (g chunk) q f) → Fails env (Rd.bytes (toU 64 size) >>= g) q f := by
      intro size q chunk g hs h3 h4 h
      obtain ⟨q', hq⟩ := (bytes_at env hd size hs q chunk).mpr ⟨h3, h4⟩
      exact (Fails.bind_of_ok hq).mpr (h q')
    intro hf
    cases hf with
    | missing h => exact .inl (.inl ⟨rfl, h⟩)
    | malformed h1 h2 => exact .inl (.inr ⟨rfl, _, _, _, _, h1, h2⟩)
    | offset h1 h => exact .inr (go1 h1 (fails_jumpTo_bind.mpr (.inl h)))
    | @negative size _ _ _ h1 h2 h3 h4 =>
      exact .inr (go1 h1 (fails_jumpTo_bind.mpr (.inr ⟨_, h2, Fails.bind.mpr (.inl
        ((fails_bytes hd (ht _ _ size h1 (by simp))).mpr (.inl ⟨rfl, h3, h4⟩)))⟩)))
    | @endless size _ _ _ h1 h2 h3 h4 =>
      exact .inr (go1 h1 (fails_jumpTo_bind.mpr (.inr ⟨_, h2, Fails.bind.mpr (.inl
        ((fails_bytes hd (ht _ _ size h1 (by simp))).mpr (.inr (.inl ⟨rfl, h3, h4⟩))))⟩)))
    | @cut size _ _ _ h1 h2 h3 h4 =>
      exact .inr (go1 h1 (fails_jumpTo_bind.mpr (.inr ⟨_, h2, Fails.bind.mpr (.inl
        ((fails_bytes hd (ht _ _ size h1 (by simp))).mpr (.inr (.inr ⟨rfl, h3, h4⟩))))⟩)))
    | @dictionary size _ _ _ _ _ h1 h2 h3 h4 h5 =>
      exact .inr (go1 h1 (fails_jumpTo_bind.mpr (.inr ⟨_, h2, go2 (ht _ _ size h1 (by simp)) h3 h4 (fun q =>
        Fails.ofRes_bind.mpr (.inl (fails_ofBytes.mpr h5)))⟩)))
    | @subroutines size _ _ _ _ _ _ _ h1 h2 h3 h4 h5 h6 =>
      exact .inr (go1 h1 (fails_jumpTo_bind.mpr (.inr ⟨_, h2, go2 (ht _ _ size h1 (by simp)) h3 h4 (fun q =>
        Fails.ofRes_bind.mpr (.inr ⟨_, ofBytes_ok.mpr h5, Fails.ofRes_bind.mpr (.inl
          ((fails_tryGetI (by simp [Sought])).mpr ⟨rfl, _, _, h6⟩))⟩))⟩)))
    | @sum size _ _ _ _ _ _ h1 h2 h3 h4 h5 h6 h7 h8 =>
      exact .inr (go1 h1 (fails_jumpTo_bind.mpr (.inr ⟨_, h2, go2 (ht _ _ size h1 (by simp)) h3 h4 (fun q =>
        Fails.ofRes_bind.mpr (.inr ⟨_, ofBytes_ok.mpr h5, Fails.ofRes_bind.mpr (.inr ⟨_, tryGetI_some.mpr h6,
          Fails.map.mpr ((sub _ _ _).mpr ⟨_, rfl, .inl ⟨rfl, h7, h8⟩⟩)⟩)⟩))⟩)))
    | @reach size _ _ _ _ _ _ _ _ h1 h2 h3 h4 h5 h6 h7 h8 =>
      exact .inr (go1 h1 (fails_jumpTo_bind.mpr (.inr ⟨_, h2, go2 (ht _ _ size h1 (by simp)) h3 h4 (fun q =>
        Fails.ofRes_bind.mpr (.inr ⟨_, ofBytes_ok.mpr h5, Fails.ofRes_bind.mpr (.inr ⟨_, tryGetI_some.mpr h6,
          Fails.map.mpr ((sub _ _ _).mpr ⟨_, rfl, .inr ⟨_, h7, .inl h8⟩⟩)⟩)⟩))⟩)))
    | @index size _ _ _ _ _ _ _ _ _ h1 h2 h3 h4 h5 h6 h7 h8 h9 =>
      exact .inr (go1 h1 (fails_jumpTo_bind.mpr (.inr ⟨_, h2, go2 (ht _ _ size h1 (by simp)) h3 h4 (fun q =>
        Fails.ofRes_bind.mpr (.inr ⟨_, ofBytes_ok.mpr h5, Fails.ofRes_bind.mpr (.inr ⟨_, tryGetI_some.mpr h6,
          Fails.map.mpr ((sub _ _ _).mpr ⟨_, rfl, .inr ⟨_, h7, .inr ⟨_, h8, h9⟩⟩⟩)⟩)⟩))⟩)))

end PS
