import Verif.Lemmas.Encoding
import Verif.Lemmas.Dict
import Verif.Props.Dict
import Verif.Props.CharacterSet
import Verif.Spec.FontSet
/-!
# Lemmas about font sets
-/
namespace PS
open Spec

/-- What a parser returns does not depend on where it starts. -/
def Any (env : Env) (m : Rd α) (S : α → Prop) : Prop := ∀ p a, (∃ q, m env p = (.ok a, q)) ↔ S a

namespace Any

theorem congr {env : Env} {m : Rd α} {S T : α → Prop} (h : Any env m S) (hst : ∀ a, S a ↔ T a) : Any env m T :=
  fun p a => (h p a).trans (hst a)

theorem pure {env : Env} (b : α) : Any env (pure b) (fun a => a = b) := by
  intro p a
  constructor
  · rintro ⟨q, h⟩
    simp only [Rd.pure_eq, Prod.mk.injEq, Res.ok.injEq] at h
    exact h.1.symm
  · rintro rfl
    exact ⟨p, rfl⟩

theorem raise {env : Env} (r : Reason) : Any env (Rd.raise r : Rd α) (fun _ => False) := by
  intro p a
  simp [Rd.raise]

theorem ofRes {env : Env} (r : Res α) : Any env (Rd.ofRes r) (fun a => r = .ok a) := by
  intro p a
  simp [Rd.ofRes]

theorem bind {env : Env} {m : Rd α} {f : α → Rd β} {S : α → Prop} {T : α → β → Prop} (hm : Any env m S)
    (hf : ∀ a, Any env (f a) (T a)) : Any env (m >>= f) (fun b => ∃ a, S a ∧ T a b) := by
  intro p b
  constructor
  · rintro ⟨q, h⟩
    obtain ⟨a, p', h1, h2⟩ := Rd.bind_ok.mp h
    exact ⟨a, (hm p a).mp ⟨p', h1⟩, (hf a p' b).mp ⟨q, h2⟩⟩
  · rintro ⟨a, h1, h2⟩
    obtain ⟨p', h1⟩ := (hm p a).mpr h1
    obtain ⟨q, h2⟩ := (hf a p' b).mpr h2
    exact ⟨q, Rd.bind_ok.mpr ⟨a, p', h1, h2⟩⟩

theorem cfg_bind {env : Env} {f : Config → Rd α} {S : α → Prop} (h : Any env (f env.cfg) S) :
    Any env (Rd.cfg >>= f) S := h

theorem ite {env : Env} {c : Prop} [Decidable c] {m n : Rd α} {S T : α → Prop} (hm : c → Any env m S)
    (hn : ¬ c → Any env n T) : Any env (if c then m else n) (fun a => (c ∧ S a) ∨ (¬ c ∧ T a)) := by
  by_cases hc : c
  · rw [if_pos hc]; exact (hm hc).congr (by simp [hc])
  · rw [if_neg hc]; exact (hn hc).congr (by simp [hc])

end Any

theorem machine_addr {cfg : Config} {base p : Nat} {o : Int} :
    (machine cfg base).addr o p ↔ addU64 cfg.checks base (toU 64 o) = .ok p ∧ p ≤ cfg.maxSeek := by
  unfold machine addU64 toU
  simp only
  by_cases h : base + (o % 2 ^ 64).toNat < 2 ^ 64
  · rw [if_pos h]
    simp only [Res.ok.injEq]
    constructor
    · rintro ⟨h1, h2, -⟩; omega
    · rintro ⟨h1, h2⟩; omega
  · rw [if_neg h]
    cases cfg.checks with
    | true => simp only [if_true, reduceCtorEq, false_and, iff_false, true_imp_iff]; omega
    | false =>
      simp only [Bool.false_eq_true, if_false, Res.ok.injEq, false_imp_iff, and_true]
      omega

theorem machine_sum {cfg : Config} {base : Nat} {a b c : Int} :
    (machine cfg base).sum a b c ↔ addI32 cfg.checks a b = .ok c := by
  unfold machine addI32 wrapI32
  simp only
  by_cases h : -2 ^ 31 ≤ a + b ∧ a + b < 2 ^ 31
  · rw [if_pos h]
    simp only [Res.ok.injEq]
    constructor
    · rintro ⟨h1, h2, h3, -⟩; omega
    · rintro rfl; exact ⟨by simp, h.1, h.2, fun _ => rfl⟩
  · rw [if_neg h]
    cases cfg.checks with
    | true => simp only [if_true, reduceCtorEq, iff_false, true_imp_iff]; omega
    | false =>
      simp only [Bool.false_eq_true, if_false, Res.ok.injEq, false_imp_iff, and_true, toS]
      generalize a + b = z
      have hu : (toU 32 z : Int) = z % 2 ^ 32 := by unfold toU; omega
      generalize toU 32 z = u at hu
      by_cases hz : u % 2 ^ 32 < 2 ^ (32 - 1)
      · rw [if_pos hz]; omega
      · rw [if_neg hz]; omega

theorem jumpTo_ok {env : Env} {base p q : Nat} {o : Int} :
    jumpTo base o env p = (.ok (), q) ↔ (machine env.cfg base).addr o q := by
  unfold jumpTo
  rw [cfg_bind, machine_addr, Rd.bind_ok]
  constructor
  · rintro ⟨a, p', h1, h2⟩
    simp only [Rd.ofRes, Prod.mk.injEq] at h1
    obtain ⟨h1, rfl⟩ := h1
    unfold Rd.jump at h2
    split at h2
    · simp only [Prod.mk.injEq, true_and] at h2
      subst h2
      exact ⟨h1, by assumption⟩
    · simp at h2
  · rintro ⟨h1, h2⟩
    refine ⟨q, p, Prod.ext h1 rfl, ?_⟩
    unfold Rd.jump
    rw [if_pos h2]

theorem jumpTo_eq (e : Env) (b : Nat) (o : Int) (p : Nat) :
    jumpTo b o e p =
      (if b + toU 64 o < 2 ^ 64 then
        (if b + toU 64 o ≤ e.cfg.maxSeek then (.ok (), b + toU 64 o) else (.err .seek, p))
      else if e.cfg.checks then (.panic .overflow, p)
      else if (b + toU 64 o) % 2 ^ 64 ≤ e.cfg.maxSeek then (.ok (), (b + toU 64 o) % 2 ^ 64) else (.err .seek, p)) := by
  unfold jumpTo addU64
  rw [cfg_bind]
  dsimp only
  split
  · rfl
  · split
    · rfl
    · rfl

/-- Jumping and reading. -/
theorem any_jump {env : Env} {base : Nat} {o : Int} {m : Rd α} {R : Nat → α → Prop}
    (h : ∀ q a, (∃ q', m env q = (.ok a, q')) ↔ R q a) :
    Any env (jumpTo base o >>= fun _ => m) (fun a => ∃ q, (machine env.cfg base).addr o q ∧ R q a) := by
  intro p a
  constructor
  · rintro ⟨q', h1⟩
    obtain ⟨_, q, h2, h3⟩ := Rd.bind_ok.mp h1
    exact ⟨q, jumpTo_ok.mp h2, (h q a).mp ⟨q', h3⟩⟩
  · rintro ⟨q, h1, h2⟩
    obtain ⟨q', h3⟩ := (h q a).mpr h2
    exact ⟨q', Rd.bind_ok.mpr ⟨(), q, jumpTo_ok.mpr h1, h3⟩⟩

theorem Exact.at {m : Rd α} {R : α → List UInt8 → Prop} (h : Exact m R) (env : Env) (q : Nat) (a : α) :
    (∃ q', m env q = (.ok a, q')) ↔ ∃ bs, R a bs ∧ Sits env.data q bs := by
  constructor
  · rintro ⟨q', h1⟩
    obtain ⟨bs, h2, h3, -⟩ := (h _ _ _ _).mp h1
    exact ⟨bs, h2, h3⟩
  · rintro ⟨bs, h2, h3⟩
    exact ⟨_, (h _ _ _ _).mpr ⟨bs, h2, h3, rfl⟩⟩

theorem exact_indexBytes : Exact Index.read IndexBytes := exact_index

theorem index_at (env : Env) (q : Nat) (ix : Index) :
    (∃ q', Index.read env q = (.ok ix, q')) ↔ IndexAt env.data q ix := exact_indexBytes.at env q ix

theorem indexAt_count {data : List UInt8} {p : Nat} {ix : Index} (h : IndexAt data p ix) :
    ix.count.toNat = ix.data.length := by
  obtain ⟨bs, ⟨rfl, -⟩ | ⟨-, -, h, -⟩, -⟩ := h
  · rfl
  · exact h

/-! ## Lookups -/

theorem default_int {op : Operator} {i : Int} {rest : List Number} (h0 : opDefault op ≠ [])
    (h : List.Forall₂ Stands (opDefault op) (.integer i :: rest)) : ∃ rest, op.default = some (.integer i :: rest) := by
  cases op <;> first | exact absurd rfl h0 | skip
  all_goals
    obtain ⟨h, -⟩ := List.forall₂_cons.mp h
    have h : (_ : ℚ) = (i : ℚ) := h
  case opFontMatrix | opBlueScale | opExpansionFactor =>
    exfalso
    have h1 : (0 : ℚ) < i := by rw [← h]; norm_num
    have h2 : (i : ℚ) < 1 := by rw [← h]; norm_num
    norm_cast at h1 h2
    omega
  all_goals
    norm_cast at h
    subst h
    exact ⟨_, rfl⟩

theorem intOf_iff {o : Operations} {op : Operator} {i : Int} :
    IntOf o op i ↔ ∃ rest, o.get op = some (.integer i :: rest) := by
  unfold IntOf Given Operations.get
  rcases hm : o.map op with _ | ns
  · constructor
    · rintro ⟨rest, h | ⟨-, h1, h2⟩⟩
      · simp at h
      · exact default_int h1 h2
    · rintro ⟨rest, h⟩
      exact ⟨rest, .inr ⟨rfl, default_some h⟩⟩
  · simp

theorem absent_iff {o : Operations} {op : Operator} : Absent o op ↔ o.get op = none ∨ o.get op = some [] := by
  unfold Absent Operations.get
  rcases hm : o.map op with _ | ns
  · rcases hd : op.default with _ | ns
    · simp [default_none hd]
    · have := default_some hd
      rcases ns with _ | ⟨n, ns⟩
      · simp at this
      · simpa using this.1
  · simp

theorem get_private (o : Operations) : o.get .opPrivate = o.map .opPrivate := by
  unfold Operations.get
  rcases o.map .opPrivate with _ | l <;> rfl

theorem getI_ok {o : Operations} {op : Operator} {i : Int} : getI o op = .ok i ↔ IntOf o op i := by
  rw [intOf_iff]
  unfold getI Operations.getSingle
  rcases o.get op with _ | _ | ⟨_ | _, l⟩ <;> simp

theorem tryGetI_some {o : Operations} {op : Operator} {i : Int} : tryGetI o op = .ok (some i) ↔ IntOf o op i := by
  rw [intOf_iff]
  unfold tryGetI Operations.getSingle
  rcases o.get op with _ | _ | ⟨_ | _, l⟩ <;> simp

theorem tryGetI_none {o : Operations} {op : Operator} : tryGetI o op = .ok none ↔ Absent o op := by
  rw [absent_iff]
  unfold tryGetI Operations.getSingle
  rcases o.get op with _ | _ | ⟨_ | _, l⟩ <;> simp

theorem getII_ok {o : Operations} {op : Operator} {i j : Int} :
    getII o op = .ok (i, j) ↔ ∃ rest, o.get op = some (.integer i :: .integer j :: rest) := by
  unfold getII Operations.getDouble
  rcases o.get op with _ | _ | ⟨_ | _, _ | ⟨_ | _, l⟩⟩ <;> simp

theorem getPrivate_ok {o : Operations} {i j : Int} :
    getII o .opPrivate = .ok (i, j) ↔ ∃ rest, o.map .opPrivate = some (.integer i :: .integer j :: rest) := by
  rw [getII_ok, get_private]

theorem ofBytes_ok {cfg : Config} {chunk : List UInt8} {o : Operations} :
    Operations.ofBytes cfg chunk = .ok o ↔ DictOf chunk o := by
  rw [show Operations.ofBytes cfg chunk = (Operations.read (tape cfg chunk) 0).1 from rfl]
  have := C13_dict_accepted_iff cfg chunk 0 o
  rw [List.drop_zero] at this
  unfold DictOf
  rw [← this]
  constructor
  · intro h
    exact ⟨_, Prod.ext h rfl⟩
  · rintro ⟨q, h⟩
    rw [h]

theorem toOperations_ok {cfg : Config} {ix : Index} {xs : List Operations} :
    ix.toOperations cfg = .ok xs ↔ List.Forall₂ DictOf ix.data xs := by
  rw [C16_dictionaries_entrywise, List.forall₂_iff_get]
  constructor
  · rintro ⟨h1, h2⟩
    refine ⟨h1.symm, ?_⟩
    intro i hi hi'
    obtain ⟨o, q, ho, hq⟩ := h2 i _ (List.getElem?_eq_getElem hi)
    rw [List.getElem?_eq_getElem hi'] at ho
    injection ho with ho
    rw [List.get_eq_getElem, List.get_eq_getElem, ho]
    exact ofBytes_ok.mp (congrArg Prod.fst hq)
  · rintro ⟨h1, h2⟩
    refine ⟨h1.symm, ?_⟩
    intro i chunk hc
    obtain ⟨hi, rfl⟩ := List.getElem?_eq_some_iff.mp hc
    have := h2 i hi (h1 ▸ hi)
    exact ⟨_, _, List.getElem?_eq_getElem (h1 ▸ hi), Prod.ext (ofBytes_ok (cfg := cfg).mpr this) rfl⟩

/-! ## Records -/

theorem toU_eq_of_lt {size : Int} (hs : -2 ^ 31 ≤ size ∧ size < 2 ^ 31) {n : Nat} (hn : n < 2 ^ 62) :
    n = toU 64 size ↔ (n : Int) = size := by
  unfold toU
  omega

/-- A byte string of a given length, which may be negative. -/
theorem bytes_at (env : Env) (hd : env.data.length < 2 ^ 61) (size : Int) (hs : -2 ^ 31 ≤ size ∧ size < 2 ^ 31) (q : Nat)
    (chunk : List UInt8) :
    (∃ q', Rd.bytes (toU 64 size) env q = (.ok chunk, q')) ↔ (chunk.length : Int) = size ∧ Sits env.data q chunk := by
  by_cases h : 0 ≤ size
  · have hn : toU 64 size ≤ 2 ^ 63 - 1 := by unfold toU; omega
    rw [(exact_bytes _ hn).at env q chunk]
    constructor
    · rintro ⟨bs, ⟨rfl, h1⟩, h2⟩
      have := h2.length_le
      simp at this
      exact ⟨(toU_eq_of_lt hs (by omega)).mp h1, h2⟩
    · rintro ⟨h1, h2⟩
      have := h2.length_le
      simp at this
      exact ⟨chunk, ⟨rfl, (toU_eq_of_lt hs (by omega)).mpr h1⟩, h2⟩
  · constructor
    · rintro ⟨q', h1⟩
      exfalso
      unfold Rd.bytes Rd.vec at h1
      rw [cfg_bind] at h1
      by_cases hp : env.cfg.prealloc ∧ toU 64 size * 1 > 2 ^ 63 - 1
      · rw [if_pos hp] at h1; simp [Rd.panic] at h1
      · rw [if_neg hp] at h1
        have := CharacterSet.replicate_ok_length exact_u8 (by rintro a bs rfl; simp) h1
        unfold toU at this
        omega
    · rintro ⟨h1, -⟩
      omega

theorem small_default {op : Operator} {ns : List Number} (h : op.default = some ns) (i : Int) (hi : Number.integer i ∈ ns) :
    -2 ^ 31 ≤ i ∧ i < 2 ^ 31 := by
  cases op <;> simp only [Operator.default, Option.some.injEq, reduceCtorEq] at h <;> subst h <;>
    simp only [List.mem_cons, List.not_mem_nil, or_false, Number.integer.injEq, reduceCtorEq, or_self] at hi <;> omega

theorem dictInt_small {i : Int} {bs : List UInt8} (h : DictInt i bs) : -2 ^ 31 ≤ i ∧ i < 2 ^ 31 := by
  cases h with
  | short h =>
    cases h with
    | oneByte b h1 h2 => omega
    | positive b c h1 h2 => have := c.toNat_lt; omega
    | negative b c h1 h2 => have := c.toNat_lt; omega
    | word h1 h2 => omega
  | long h1 h2 => omega

theorem seq_mem {α : Type} {R : α → List UInt8 → Prop} {as : List α} {bs : List UInt8} (h : Seq R as bs) {a : α}
    (ha : a ∈ as) : ∃ b, R a b := by
  induction h with
  | nil => simp at ha
  | cons h _ ih =>
    rcases List.mem_cons.mp ha with rfl | ha
    · exact ⟨_, h⟩
    · exact ih ha

theorem dictOf_small {chunk : List UInt8} {o : Operations} (h : DictOf chunk o) : Small o := by
  obtain ⟨ops, bs, rest, h1, -, -, h2⟩ := h
  intro op operands i hm hi
  obtain ⟨b, a, rfl, -⟩ := (h2 _ _).mp hm
  obtain ⟨os, os', hs, -⟩ := seq_mem h1 (a := (op, operands)) (by simp)
  obtain ⟨l, hl⟩ := seq_mem hs hi
  exact dictInt_small hl

theorem small_get {o : Operations} (h : Small o) {op : Operator} {operands : List Number} {i : Int}
    (hg : o.get op = some operands) (hi : Number.integer i ∈ operands) : -2 ^ 31 ≤ i ∧ i < 2 ^ 31 := by
  unfold Operations.get at hg
  rcases hm : o.map op with _ | ns
  · rw [hm] at hg
    exact small_default hg i hi
  · rw [hm] at hg
    injection hg with hg
    subst hg
    exact h _ _ i hm hi

theorem at_bind {env : Env} {m : Rd α} {f : α → Rd β} {R : α → Prop} {T : α → β → Prop} {q : Nat}
    (hm : ∀ a, (∃ q', m env q = (.ok a, q')) ↔ R a) (hf : ∀ a, R a → Any env (f a) (T a)) (b : β) :
    (∃ q', (m >>= f) env q = (.ok b, q')) ↔ ∃ a, R a ∧ T a b := by
  constructor
  · rintro ⟨q', h⟩
    obtain ⟨a, p', h1, h2⟩ := Rd.bind_ok.mp h
    have := (hm a).mp ⟨p', h1⟩
    exact ⟨a, this, (hf a this p' b).mp ⟨q', h2⟩⟩
  · rintro ⟨a, h1, h2⟩
    obtain ⟨p', h3⟩ := (hm a).mpr h1
    obtain ⟨q, h2⟩ := (hf a h1 p' b).mpr h2
    exact ⟨q, Rd.bind_ok.mpr ⟨a, p', h3, h2⟩⟩

theorem any_bind {env : Env} {m : Rd α} {f : α → Rd β} {S : α → Prop} {T : α → β → Prop} (hm : Any env m S)
    (hf : ∀ a, S a → Any env (f a) (T a)) : Any env (m >>= f) (fun b => ∃ a, S a ∧ T a b) :=
  fun p b => at_bind (fun a => hm p a) hf b

theorem any_private (env : Env) (hd : env.data.length < 2 ^ 61) (base : Nat) (top : Operations) (ht : Small top) :
    Any env (PrivateRecord.read base top) (PrivateAt (machine env.cfg base) env.data top) := by
  unfold PrivateRecord.read
  refine Any.cfg_bind ?_
  have sub : ∀ (offset : Int) (another : Option Int), Any env (match another with
      | some anotherOffset => do
        let sum ← Rd.ofRes (addI32 env.cfg.checks offset anotherOffset)
        jumpTo base sum
        Index.read
      | none => pure Index.empty : Rd Index) (fun ix => match another with
      | some o => ∃ s, (machine env.cfg base).sum offset o s ∧ ∃ q, (machine env.cfg base).addr s q ∧
          IndexAt env.data q ix
      | none => ix = noObjects) := by
    intro offset another
    cases another with
    | none => exact Any.pure _
    | some o => exact Any.bind ((Any.ofRes _).congr (fun s => machine_sum.symm)) (fun s => any_jump (fun q a => index_at env q a))
  refine Any.congr (any_bind (S := fun x => ∃ rest, top.map .opPrivate = some (.integer x.1 :: .integer x.2 :: rest))
    ((Any.ofRes _).congr (fun x => getPrivate_ok)) (fun x hx => any_jump (fun q r =>
      at_bind (fun chunk => bytes_at env hd x.1 (ht _ _ x.1 hx.choose_spec (by simp)) q chunk)
        (fun chunk _ => any_bind ((Any.ofRes _).congr (fun o => ofBytes_ok)) (fun o _ =>
          any_bind (Any.ofRes _) (fun another _ => any_bind (sub x.2 another) (fun ix _ => Any.pure _)))) r))) ?_
  intro r
  unfold PrivateAt
  constructor
  · rintro ⟨⟨size, offset⟩, ⟨rest, h1⟩, q, h2, chunk, ⟨h3, h4⟩, o, h5, another, h6, ix, h7, rfl⟩
    refine ⟨size, offset, rest, q, chunk, h1, h2, h3, h4, h5, ?_⟩
    cases another with
    | none => exact .inr ⟨tryGetI_none.mp h6, h7⟩
    | some a =>
      obtain ⟨s, h7, p', h8, h9⟩ := h7
      exact .inl ⟨a, s, p', tryGetI_some.mp h6, h7, h8, h9⟩
  · rintro ⟨size, offset, rest, q, chunk, h1, h2, h3, h4, h5, ⟨a, s, p', h6, h7, h8, h9⟩ | ⟨h6, h7⟩⟩
    · exact ⟨(size, offset), ⟨rest, h1⟩, q, h2, chunk, ⟨h3, h4⟩, _, h5, some a, tryGetI_some.mpr h6, _,
        ⟨s, h7, p', h8, h9⟩, rfl⟩
    · exact ⟨(size, offset), ⟨rest, h1⟩, q, h2, chunk, ⟨h3, h4⟩, _, h5, none, tryGetI_none.mpr h6, _, h7, rfl⟩

/-! ## FDSelect -/

namespace DictEncoding

theorem exact_range3 : Exact readRange3 (fun r bs => bs = be 2 r.firstGlyphID.toNat ++ [r.dictionaryID]) := by
  unfold readRange3
  refine Exact.congr (Exact.bind exact_u16 (fun f => Exact.bind exact_u8 (fun l => Exact.pure _))) ?_
  intro r bs
  constructor
  · rintro ⟨f, b1, _, rfl, rfl, l, b2, b3, rfl, rfl, rfl, rfl⟩
    simp
  · rintro rfl
    exact ⟨_, _, _, rfl, rfl, _, _, [], by simp, rfl, rfl, rfl⟩

theorem u16_small (n : UInt16) (w : Nat) (hw : w ≤ 4) : n.toNat * w ≤ 2 ^ 63 - 1 := by
  have := n.toNat_lt
  have : n.toNat * w ≤ 65536 * 4 := Nat.mul_le_mul (by omega) hw
  omega

theorem exact_read0 (cs : Index) : Exact (read0 cs) (fun e bs => ∃ f ids, e = format0 f ids ∧
    ids.length = cs.count.toNat ∧ bs = f :: ids) := by
  unfold read0
  refine Exact.congr (Exact.bind exact_u8 (fun f => Exact.bind (exact_bytes cs.count.toNat
    (by have := u16_small cs.count 1 (by omega); omega)) (fun cs => Exact.pure _))) ?_
  intro e bs
  constructor
  · rintro ⟨f, b1, _, rfl, rfl, ids, b3, b4, rfl, ⟨rfl, hs⟩, rfl, rfl⟩
    exact ⟨f, _, rfl, hs, by simp⟩
  · rintro ⟨f, ids, rfl, hl, rfl⟩
    exact ⟨f, [f], _, rfl, rfl, ids, ids, [], by simp, ⟨rfl, hl⟩, rfl, rfl⟩

theorem exact_read3 : Exact read3 (fun e bs => ∃ n ranges gc, e = format3 3 n ranges gc ∧
    ranges.length = n.toNat ∧ bs = encodeSelect e) := by
  unfold read3
  refine Exact.congr (Exact.bind exact_u8 (fun f => Exact.ite (fun _ => Exact.raise _) (fun _ =>
    Exact.bind exact_u16 (fun n => Exact.bind (exact_vec exact_range3 4 n.toNat (u16_small n 4 (by omega)))
      (fun cs => Exact.bind exact_u16 (fun gc => Exact.pure _)))))) ?_
  intro e bs
  constructor
  · rintro ⟨f, b1, _, rfl, rfl, ⟨-, h⟩ | ⟨hf, n, b2, _, rfl, rfl, rs, b3, b4, rfl, ⟨hl, hs⟩, gc, b5, b6, rfl, rfl, rfl, rfl⟩⟩
    · exact h.elim
    · simp only [ne_eq, Decidable.not_not] at hf
      subst hf
      rw [seq_fun_iff] at hs
      subst hs
      exact ⟨n, _, gc, rfl, hl, by simp [encodeSelect, hl]⟩
  · rintro ⟨n, rs, gc, rfl, hl, rfl⟩
    refine ⟨3, [3], _, rfl, rfl, .inr ⟨by simp, n, be 2 n.toNat, _ ++ be 2 gc.toNat, ?_, rfl, rs, _, be 2 gc.toNat, rfl,
      ⟨hl, seq_fun_iff.mpr rfl⟩, gc, _, [], (List.append_nil _).symm, rfl, rfl, rfl⟩⟩
    rw [← hl, ← List.append_assoc]
    rfl

theorem exact_select (cs : Index) : Exact (read cs) (fun e bs => SelectFits cs.count.toNat e ∧ bs = encodeSelect e) := by
  unfold read
  refine (exact_peek_u8_ne (fun b => Exact.ite (fun _ => exact_read0 cs) (fun _ => Exact.ite (fun _ => exact_read3)
    (fun _ => Exact.raise _))) ?_).congr ?_
  · rintro b e bs (⟨-, n, x, -, -, rfl⟩ | ⟨-, ⟨-, n, x, gc, rfl, -, rfl⟩ | ⟨-, h⟩⟩)
    · simp
    · simp [encodeSelect]
    · exact h.elim
  · intro e bs
    constructor
    · rintro ⟨b, l, rfl, ⟨rfl, f, x, rfl, hl, h⟩ | ⟨-, ⟨-, n, x, gc, rfl, hl, h⟩ | ⟨-, h⟩⟩⟩
      · obtain ⟨rfl, rfl⟩ := List.cons.inj h
        exact ⟨⟨rfl, hl⟩, rfl⟩
      · exact ⟨⟨rfl, hl⟩, h⟩
      · exact h.elim
    · rintro ⟨hc, rfl⟩
      rcases e with ⟨f, ids⟩ | ⟨f, n, rs, gc⟩
      · obtain ⟨rfl, hl⟩ := hc
        exact ⟨0, _, rfl, .inl ⟨rfl, 0, ids, rfl, hl, rfl⟩⟩
      · obtain ⟨rfl, hl⟩ := hc
        exact ⟨3, _, rfl, .inr ⟨by decide, .inl ⟨rfl, n, rs, gc, rfl, hl, rfl⟩⟩⟩

end DictEncoding

/-! ## Records keyed by character identifiers -/

theorem any_privates (env : Env) (hd : env.data.length < 2 ^ 61) (base : Nat) (tops : List Operations)
    (ht : ∀ o ∈ tops, Small o) :
    Any env (readPrivateRecords base tops) (List.Forall₂ (PrivateAt (machine env.cfg base) env.data) tops) := by
  induction tops with
  | nil => exact (Any.pure _).congr (by simp)
  | cons top tops ih =>
    refine Any.congr (any_bind (any_private env hd base top (ht _ (by simp))) (fun r _ =>
      any_bind (ih (fun o ho => ht o (by simp [ho]))) (fun rs _ => Any.pure _))) ?_
    intro l
    constructor
    · rintro ⟨r, h1, rs, h2, rfl⟩
      exact .cons h1 h2
    · intro h
      cases h with
      | cons h1 h2 => exact ⟨_, h1, _, h2, rfl⟩

theorem forall₂_right_mem {α β : Type} {R : α → β → Prop} {l : List α} {m : List β} (h : List.Forall₂ R l m) {b : β}
    (hb : b ∈ m) : ∃ a ∈ l, R a b := by
  induction h with
  | nil => simp at hb
  | cons h _ ih =>
    rcases List.mem_cons.mp hb with rfl | hb
    · exact ⟨_, by simp, h⟩
    · obtain ⟨a, h1, h2⟩ := ih hb
      exact ⟨a, by simp [h1], h2⟩

theorem forall₂_left_mem {α β : Type} {R : α → β → Prop} {l : List α} {m : List β} (h : List.Forall₂ R l m) {a : α}
    (ha : a ∈ l) : ∃ b ∈ m, R a b := by
  induction h with
  | nil => simp at ha
  | cons h _ ih =>
    rcases List.mem_cons.mp ha with rfl | ha
    · exact ⟨_, by simp, h⟩
    · obtain ⟨a, h1, h2⟩ := ih ha
      exact ⟨a, by simp [h1], h2⟩

theorem get_ros (o : Operations) : o.get .opROS = o.map .opROS := by
  unfold Operations.get
  rcases o.map .opROS with _ | l <;> rfl

theorem stringID_ok {n : Number} {id : UInt16} : stringIDOfNumber n = .ok id ↔ StandsForID n id :=
  (C20_string_id_partial n id).1

theorem any_cid (env : Env) (hd : env.data.length < 2 ^ 61) (base : Nat) (top : Operations) (cs : Index) :
    Any env (CIDRecord.read base top cs) (CIDAt (machine env.cfg base) env.data top cs.count.toNat) := by
  unfold CIDRecord.read
  rw [get_ros]
  rcases hr : top.map .opROS with _ | _ | ⟨a, _ | ⟨b, _ | ⟨c, _ | ⟨d, l⟩⟩⟩⟩
  · exact (Any.raise _).congr (by simp [CIDAt, hr])
  · exact (Any.raise _).congr (by simp [CIDAt, hr])
  · exact (Any.raise _).congr (by simp [CIDAt, hr])
  · exact (Any.raise _).congr (by simp [CIDAt, hr])
  · refine Any.cfg_bind ?_
    refine Any.congr (any_bind ((Any.ofRes _).congr (fun x => getI_ok)) (fun o1 _ =>
      any_jump (fun q1 r => at_bind (fun e => (DictEncoding.exact_select cs).at env q1 e) (fun e _ =>
        any_bind ((Any.ofRes _).congr (fun x => getI_ok)) (fun o2 _ =>
          any_jump (fun q2 r => at_bind (fun ix => index_at env q2 ix) (fun ix _ =>
            any_bind ((Any.ofRes _).congr (fun x => toOperations_ok)) (fun ops hops =>
              any_bind (any_privates env hd base ops (fun o ho => by
                obtain ⟨_, _, h⟩ := forall₂_right_mem hops ho
                exact dictOf_small h)) (fun rs _ =>
                any_bind ((Any.ofRes _).congr (fun x => stringID_ok)) (fun id1 _ =>
                  any_bind ((Any.ofRes _).congr (fun x => stringID_ok)) (fun id2 _ => Any.pure _))))) r))) r))) ?_
    intro r
    unfold CIDAt
    rw [hr]
    constructor
    · rintro ⟨o1, h1, q1, h2, e, ⟨_, ⟨h3, rfl⟩, h4⟩, o2, h5, q2, h6, ix, h7, ops, h8, rs, h9, id1, h10, id2, h11, rfl⟩
      exact ⟨⟨a, b, rfl, h10, h11⟩, ⟨o1, q1, h1, h2, h3, h4⟩, ⟨o2, q2, ix, h5, h6, h7, h8⟩, h9⟩
    · rintro ⟨⟨a', b', h, h10, h11⟩, ⟨o1, q1, h1, h2, h3, h4⟩, ⟨o2, q2, ix, h5, h6, h7, h8⟩, h9⟩
      simp only [Option.some.injEq, List.cons.injEq, and_true] at h
      obtain ⟨rfl, rfl, rfl⟩ := h
      exact ⟨o1, h1, q1, h2, r.encoding, ⟨_, ⟨h3, rfl⟩, h4⟩, o2, h5, q2, h6, ix, h7, r.operations, h8, r.records, h9,
        r.registry, h10, r.ordering, h11, rfl⟩
  · exact (Any.raise _).congr (by simp [CIDAt, hr])

theorem any_record (env : Env) (hd : env.data.length < 2 ^ 61) (base : Nat) (top : Operations) (ht : Small top) (cs : Index) :
    Any env (Record.read base top cs) (RecordAt (machine env.cfg base) env.data top cs.count.toNat) := by
  unfold Record.read
  refine Any.congr (Any.ite (fun _ => any_bind (any_cid env hd base top cs) (fun r _ => Any.pure _))
    (fun _ => any_bind (any_private env hd base top ht) (fun r _ => Any.pure _))) ?_
  intro r
  have hc : top.containsKey .opROS = true ↔ ∃ l, top.map .opROS = some l := by
    unfold Operations.containsKey
    rw [Option.isSome_iff_exists]
  constructor
  · rintro (⟨h, r, h1, rfl⟩ | ⟨h, r, h1, rfl⟩)
    · exact h1
    · refine ⟨?_, h1⟩
      rw [hc] at h
      rcases hm : top.map .opROS with _ | l
      · rfl
      · exact absurd ⟨l, hm⟩ h
  · intro h
    rcases r with r | r
    · refine .inl ⟨?_, r, h, rfl⟩
      obtain ⟨⟨a, b, h, -⟩, -⟩ := h
      exact hc.mpr ⟨_, h⟩
    · refine .inr ⟨?_, r, h.2, rfl⟩
      rw [hc]
      rintro ⟨l, hl⟩
      have := h.1
      rw [hl] at this
      simp at this

/-! ## Fonts -/

theorem characterSet_at (env : Env) (hd : env.data.length < 2 ^ 61) (count : UInt16) (q : Nat) (s : CharacterSet) :
    (∃ q', CharacterSet.read count.toNat env q = (.ok s, q')) ↔
      Custom s ∧ 1 + covered s = count.toNat ∧ Sits env.data q (encodeCharacterSet s) := by
  have hc := count.toNat_lt
  constructor
  · rintro ⟨q', h⟩
    obtain ⟨h1, h2, h3, -⟩ := C21_cover env.cfg env.data q q' count.toNat s (by omega) hd h
    exact ⟨h2, h1, h3⟩
  · rintro ⟨h1, h2, h3⟩
    exact ((CharacterSet.exact_characterSet _ (by omega) (by omega)).at env q s).mpr ⟨_, ⟨h1, h2, rfl⟩, h3⟩

theorem ofRes_bind_at {env : Env} {r : Res α} {f : α → Rd β} {q : Nat} {b : β} :
    (∃ q', (Rd.ofRes r >>= f) env q = (.ok b, q')) ↔ ∃ a, r = .ok a ∧ ∃ q', f a env q = (.ok b, q') := by
  constructor
  · rintro ⟨q', h⟩
    obtain ⟨a, p', h1, h2⟩ := Rd.bind_ok.mp h
    simp only [Rd.ofRes, Prod.mk.injEq] at h1
    obtain ⟨h1, rfl⟩ := h1
    exact ⟨a, h1, q', h2⟩
  · rintro ⟨a, h1, q', h2⟩
    exact ⟨q', Rd.bind_ok.mpr ⟨a, q, Prod.ext h1 rfl, h2⟩⟩

theorem any_characterSet (env : Env) (hd : env.data.length < 2 ^ 61) (base : Nat) (count : UInt16) (o : Int) :
    Any env (if o = 0 then pure CharacterSet.isoAdobe
      else if o = 1 then pure CharacterSet.expert
      else if o = 2 then pure CharacterSet.expertSubset
      else do
        jumpTo base o
        CharacterSet.read count.toNat : Rd CharacterSet)
      (fun s => (o = 0 ∧ s = .isoAdobe) ∨ (o = 1 ∧ s = .expert) ∨ (o = 2 ∧ s = .expertSubset) ∨
       (o ≠ 0 ∧ o ≠ 1 ∧ o ≠ 2 ∧ ∃ p, (machine env.cfg base).addr o p ∧ Custom s ∧ 1 + covered s = count.toNat ∧
         Sits env.data p (encodeCharacterSet s))) := by
  refine Any.congr (Any.ite (fun _ => Any.pure _) (fun _ => Any.ite (fun _ => Any.pure _) (fun _ =>
    Any.ite (fun _ => Any.pure _) (fun _ => any_jump (fun q s => characterSet_at env hd count q s))))) ?_
  intro s
  by_cases h0 : o = 0
  · simp [h0]
  by_cases h1 : o = 1
  · simp [h1]
  by_cases h2 : o = 2
  · simp [h2]
  simp [h0, h1, h2]

theorem any_encoding (env : Env) (base : Nat) (o : Int) :
    Any env (if o = 0 then pure Encoding.standard
      else if o = 1 then pure Encoding.expert
      else do
        jumpTo base o
        Encoding.read : Rd Encoding)
      (fun e => (o = 0 ∧ e = .standard) ∨ (o = 1 ∧ e = .expert) ∨
       (o ≠ 0 ∧ o ≠ 1 ∧ ∃ p, (machine env.cfg base).addr o p ∧ Encodable e ∧ Sits env.data p (encodeEncoding e))) := by
  refine Any.congr (Any.ite (fun _ => Any.pure _) (fun _ => Any.ite (fun _ => Any.pure _) (fun _ =>
    any_jump (fun q e => Encoding.exact_encoding.at env q e)))) ?_
  intro e
  by_cases h0 : o = 0
  · simp [h0]
  by_cases h1 : o = 1
  · simp [h1]
  simp only [h0, h1, false_and, not_false_eq_true, true_and, false_or, ne_eq]
  constructor
  · rintro ⟨q, h1, _, ⟨h2, rfl⟩, h3⟩
    exact ⟨q, h1, h2, h3⟩
  · rintro ⟨q, h1, h2, h3⟩
    exact ⟨q, h1, _, ⟨h2, rfl⟩, h3⟩

theorem any_entry (env : Env) (hd : env.data.length < 2 ^ 61) (base : Nat) (top : Operations) (ht : Small top) :
    Any env (FontEntry.read base top) (fun x => FontAt (machine env.cfg base) env.data top x.characterStrings
      x.characterSet x.encoding x.record) := by
  unfold FontEntry.read readCharacterStrings
  have cs : ∀ format q ix, (∃ q', (if format = 2 then Index.read else Rd.raise .unknownCharacterStringFormat) env q =
      (.ok ix, q')) ↔ format = (2 : Int) ∧ IndexAt env.data q ix := by
    intro format q ix
    by_cases h : format = 2
    · rw [if_pos h, index_at]; simp [h]
    · rw [if_neg h]; simp [h, Rd.raise]
  refine Any.congr (any_bind ((Any.ofRes _).congr (fun x => getI_ok)) (fun o1 _ =>
    any_jump (fun q1 r => ofRes_bind_at.trans (exists_congr fun f => and_congr getI_ok
      (at_bind (cs f q1) (fun ix _ => any_bind ((Any.ofRes _).congr (fun x => getI_ok)) (fun o2 _ =>
        any_bind (any_characterSet env hd base ix.count o2) (fun s _ =>
          any_bind ((Any.ofRes _).congr (fun x => getI_ok)) (fun o3 _ =>
            any_bind (any_encoding env base o3) (fun e _ =>
              any_bind (any_record env hd base top ht ix) (fun r _ => Any.pure _)))))) r))))) ?_
  intro x
  unfold FontAt CharacterStringsAt CharacterSetAt EncodingAt
  constructor
  · rintro ⟨o1, h1, q1, h2, f, h3, ix, ⟨rfl, h4⟩, o2, h5, s, h6, o3, h7, e, h8, r, h9, rfl⟩
    have hc := indexAt_count h4
    rw [hc] at h6 h9
    exact ⟨⟨o1, q1, h1, h2, h3, h4⟩, ⟨o2, h5, h6⟩, ⟨o3, h7, h8⟩, h9⟩
  · rintro ⟨⟨o1, q1, h1, h2, h3, h4⟩, ⟨o2, h5, h6⟩, ⟨o3, h7, h8⟩, h9⟩
    have hc := indexAt_count h4
    rw [← hc] at h6 h9
    exact ⟨o1, h1, q1, h2, 2, h3, x.characterStrings, ⟨rfl, h4⟩, o2, h5, x.characterSet, h6, o3, h7, x.encoding, h8, x.record, h9, rfl⟩

theorem any_entries (env : Env) (hd : env.data.length < 2 ^ 61) (base : Nat) (tops : List Operations)
    (ht : ∀ o ∈ tops, Small o) :
    Any env (readEntries base tops) (List.Forall₂ (fun top x => FontAt (machine env.cfg base) env.data top x.characterStrings
      x.characterSet x.encoding x.record) tops) := by
  induction tops with
  | nil => exact (Any.pure _).congr (by simp)
  | cons top tops ih =>
    refine Any.congr (any_bind (any_entry env hd base top (ht _ (by simp))) (fun r _ =>
      any_bind (ih (fun o ho => ht o (by simp [ho]))) (fun rs _ => Any.pure _))) ?_
    intro l
    constructor
    · rintro ⟨r, h1, rs, h2, rfl⟩
      exact .cons h1 h2
    · intro h
      cases h with
      | cons h1 h2 => exact ⟨_, h1, _, h2, rfl⟩

/-! ## Font sets -/

theorem exact_header : Exact Header.read (fun h bs => bs = encodeHeader h) := by
  unfold Header.read
  refine Exact.congr (Exact.bind exact_u8 (fun a => Exact.bind exact_u8 (fun b => Exact.bind exact_u8 (fun c =>
    Exact.bind exact_u8 (fun d => Exact.pure _))))) ?_
  intro h bs
  constructor
  · rintro ⟨a, _, _, rfl, rfl, b, _, _, rfl, rfl, c, _, _, rfl, rfl, d, _, _, rfl, rfl, rfl, rfl⟩
    rfl
  · rintro rfl
    exact ⟨h.major, [h.major], _, rfl, rfl, h.minor, [h.minor], _, rfl, rfl, h.headerSize, [h.headerSize], _, rfl, rfl,
      h.offsetSize, [h.offsetSize], _, rfl, rfl, rfl, rfl⟩

/-- Reading one thing after another. -/
theorem Exact.bind_at {m : Rd α} {R : α → List UInt8 → Prop} (hm : Exact m R) {f : α → Rd β} {env : Env} {p : Nat} {b : β} :
    (∃ q, (m >>= f) env p = (.ok b, q)) ↔
      ∃ a q', (∃ bs, R a bs ∧ Sits env.data p bs ∧ q' = p + bs.length) ∧ ∃ q, f a env q' = (.ok b, q) := by
  constructor
  · rintro ⟨q, h⟩
    obtain ⟨a, q', h1, h2⟩ := Rd.bind_ok.mp h
    exact ⟨a, q', (hm _ _ _ _).mp h1, q, h2⟩
  · rintro ⟨a, q', h1, q, h2⟩
    exact ⟨q, Rd.bind_ok.mpr ⟨a, q', (hm _ _ _ _).mpr h1, h2⟩⟩

theorem jumpTo_bind_at {f : Unit → Rd β} {env : Env} {base p : Nat} {o : Int} {b : β} :
    (∃ q, (jumpTo base o >>= f) env p = (.ok b, q)) ↔
      ∃ q', (machine env.cfg base).addr o q' ∧ ∃ q, f () env q' = (.ok b, q) := by
  constructor
  · rintro ⟨q, h⟩
    obtain ⟨a, q', h1, h2⟩ := Rd.bind_ok.mp h
    exact ⟨q', jumpTo_ok.mp h1, q, h2⟩
  · rintro ⟨q', h1, q, h2⟩
    exact ⟨q, Rd.bind_ok.mpr ⟨(), q', jumpTo_ok.mpr h1, h2⟩⟩

/-- The entries of a font set one by one. -/
theorem entries_iff {A : Addressing} {data : List UInt8} {fs : FontSet} :
    (∃ entries : List FontEntry, List.Forall₂ (fun top x => FontAt A data top x.characterStrings
      x.characterSet x.encoding x.record) fs.operations entries ∧
      fs.encodings = entries.map FontEntry.encoding ∧ fs.characterStrings = entries.map FontEntry.characterStrings ∧
      fs.characterSets = entries.map FontEntry.characterSet ∧ fs.records = entries.map FontEntry.record) ↔
    (fs.characterStrings.length = fs.operations.length ∧ fs.characterSets.length = fs.operations.length ∧
      fs.encodings.length = fs.operations.length ∧ fs.records.length = fs.operations.length ∧
      ∀ (i : Nat) (top : Operations), fs.operations[i]? = some top → ∃ cs s e r,
        fs.characterStrings[i]? = some cs ∧ fs.characterSets[i]? = some s ∧ fs.encodings[i]? = some e ∧
        fs.records[i]? = some r ∧ FontAt A data top cs s e r) := by
  obtain ⟨header, names, operations, strings, subroutines, encodings, characterStrings, characterSets, records⟩ := fs
  simp only
  constructor
  · rintro ⟨entries, h, rfl, rfl, rfl, rfl⟩
    have hl := h.length_eq
    refine ⟨by simp [hl], by simp [hl], by simp [hl], by simp [hl], ?_⟩
    intro i top ht
    obtain ⟨hi, rfl⟩ := List.getElem?_eq_some_iff.mp ht
    have hi' : i < entries.length := hl ▸ hi
    refine ⟨entries[i].characterStrings, entries[i].characterSet, entries[i].encoding, entries[i].record, ?_⟩
    simp only [List.getElem?_map, List.getElem?_eq_getElem hi', Option.map_some, true_and]
    exact (List.forall₂_iff_get.mp h).2 i hi hi'
  · rintro ⟨h1, h2, h3, h4, h⟩
    induction operations generalizing encodings characterStrings characterSets records with
    | nil =>
      simp only [List.length_nil, List.length_eq_zero_iff] at h1 h2 h3 h4
      subst h1 h2 h3 h4
      exact ⟨[], .nil, rfl, rfl, rfl, rfl⟩
    | cons top operations ih =>
      obtain ⟨cs, s, e, r, e1, e2, e3, e4, hf⟩ := h 0 top rfl
      cases characterStrings with
      | nil => simp at e1
      | cons cs' characterStrings =>
      cases characterSets with
      | nil => simp at e2
      | cons s' characterSets =>
      cases encodings with
      | nil => simp at e3
      | cons e' encodings =>
      cases records with
      | nil => simp at e4
      | cons r' records =>
      simp only [List.getElem?_cons_zero, Option.some.injEq] at e1 e2 e3 e4
      subst e1 e2 e3 e4
      simp only [List.length_cons, Nat.add_right_cancel_iff] at h1 h2 h3 h4
      obtain ⟨entries, g1, g2, g3, g4, g5⟩ := ih encodings characterStrings characterSets records h1 h2 h3 h4
        (fun i t ht => h (i + 1) t (by simpa using ht))
      exact ⟨⟨cs', s', e', r'⟩ :: entries, .cons hf g1, by simp [g2], by simp [g3], by simp [g4], by simp [g5]⟩

/-- **The main lemma.**  Reading a font set succeeds with `fs` exactly when `fs` is
laid out there. -/
theorem fontSet_iff (env : Env) (hd : env.data.length < 2 ^ 61) (base : Nat) (fs : FontSet) :
    (∃ q, FontSet.read env base = (.ok fs, q)) ↔ LaidOut (machine env.cfg base) env.data base fs := by
  unfold FontSet.read
  rw [cfg_bind, show ∀ f : Nat → Rd FontSet, (Rd.position >>= f) env base = f base env base from fun _ => rfl,
    exact_header.bind_at]
  simp only [jumpTo_bind_at, exact_indexBytes.bind_at, ofRes_bind_at, toOperations_ok]
  unfold LaidOut
  constructor
  · rintro ⟨header, p0, ⟨_, rfl, h0, -⟩, p1, h1, names, p2, h2, dicts, p3, h3, ops, h4, strings, p4, h5, subrs, p5, h6, h7⟩
    have hs : ∀ o ∈ ops, Small o := fun o ho => by
      obtain ⟨_, _, h⟩ := forall₂_right_mem h4 ho
      exact dictOf_small h
    obtain ⟨entries, h8, rfl⟩ := (any_bind (any_entries env hd base ops hs) (fun es _ => Any.pure _) p5 fs).mp h7
    exact ⟨h0, ⟨p1, p2, p3, p4, p5, dicts, h1, h2, h3, h5, h6, h4⟩, entries_iff.mp ⟨entries, h8, rfl, rfl, rfl, rfl⟩⟩
  · rintro ⟨h0, ⟨p1, p2, p3, p4, p5, dicts, h1, h2, h3, h5, h6, h4⟩, h7⟩
    obtain ⟨entries, h8, e1, e2, e3, e4⟩ := entries_iff.mpr h7
    have hs : ∀ o ∈ fs.operations, Small o := fun o ho => by
      obtain ⟨_, _, h⟩ := forall₂_right_mem h4 ho
      exact dictOf_small h
    refine ⟨fs.header, _, ⟨_, rfl, h0, rfl⟩, p1, h1, fs.names, p2, h2, dicts, p3, h3, fs.operations, h4, fs.strings, p4, h5,
      fs.subroutines, p5, h6, ?_⟩
    refine (any_bind (any_entries env hd base fs.operations hs) (fun es _ => Any.pure _) p5 fs).mpr ⟨entries, h8, ?_⟩
    rw [← e1, ← e2, ← e3, ← e4]

/-! ## Moving a layout -/

/-- Offsets in files are 32-bit integers. -/
def Int32 (o : Int) : Prop := -2 ^ 31 ≤ o ∧ o < 2 ^ 31

/-- What is addressed in one file is addressed in another; for the empty byte
string, which sits anywhere, offsets are restricted to `N`. -/
structure Transfer (A : Addressing) (data : List UInt8) (A' : Addressing) (data' : List UInt8) (N : Int → Prop) : Prop where
  addr : ∀ o p bs, Int32 o → bs ≠ [] → A.addr o p → Sits data p bs → ∃ p', A'.addr o p' ∧ Sits data' p' bs
  empty : ∀ o p, Int32 o → N o → A.addr o p → ∃ p', A'.addr o p'
  sum : ∀ a b c p bs, Int32 a → Int32 b → bs ≠ [] → A.sum a b c → A.addr c p → Sits data p bs → A'.sum a b c ∧ Int32 c

theorem indexBytes_ne_nil {ix : Index} {bs : List UInt8} (h : IndexBytes ix bs) : bs ≠ [] := by
  rcases h with ⟨-, rfl⟩ | ⟨h1, h2, -, -, rfl⟩
  · simp [be]
  · unfold encodeIndex
    rw [if_neg h1]
    simp [be]

theorem intOf_int32 {o : Operations} (h : Small o) {op : Operator} {i : Int} (hi : IntOf o op i) : Int32 i := by
  obtain ⟨rest, hr⟩ := intOf_iff.mp hi
  exact small_get h hr (by simp)

namespace Transfer

variable {A A' : Addressing} {data data' : List UInt8} {N : Int → Prop}

theorem indexAt (T : Transfer A data A' data' N) {o : Int} {p : Nat} {ix : Index} (ho : Int32 o) (h : A.addr o p)
    (hi : IndexAt data p ix) : ∃ p', A'.addr o p' ∧ IndexAt data' p' ix := by
  obtain ⟨bs, hb, hs⟩ := hi
  obtain ⟨p', h1, h2⟩ := T.addr o p bs ho (indexBytes_ne_nil hb) h hs
  exact ⟨p', h1, bs, hb, h2⟩

theorem privateAt (T : Transfer A data A' data' N) {top : Operations} {r : PrivateRecord} (ht : Small top)
    (hN : ∀ offset rest, top.map .opPrivate = some (.integer 0 :: .integer offset :: rest) → N offset)
    (h : PrivateAt A data top r) : PrivateAt A' data' top r := by
  obtain ⟨size, offset, rest, p, chunk, h1, h2, h3, h4, h5, h6⟩ := h
  have ho : Int32 offset := ht _ _ offset h1 (by simp)
  have hr : Small r.operations := dictOf_small h5
  obtain ⟨p', g1, g2⟩ : ∃ p', A'.addr offset p' ∧ Sits data' p' chunk := by
    by_cases hc : chunk = []
    · have h0 : size = 0 := by rw [hc] at h3; exact h3.symm
      rw [h0] at h1
      obtain ⟨p', hp'⟩ := T.empty _ _ ho (hN _ _ h1) h2
      exact ⟨p', hp', by rw [hc]; exact List.nil_prefix⟩
    · exact T.addr _ _ _ ho hc h2 h4
  refine ⟨size, offset, rest, p', chunk, h1, g1, h3, g2, h5, ?_⟩
  rcases h6 with ⟨o, s, q, h6, h7, h8, h9⟩ | h6
  · have ho' := intOf_int32 hr h6
    obtain ⟨bs, hb, hs⟩ := h9
    obtain ⟨k1, k2⟩ := T.sum _ _ _ _ _ ho ho' (indexBytes_ne_nil hb) h7 h8 hs
    obtain ⟨q', k3, k4⟩ := T.indexAt k2 h8 ⟨bs, hb, hs⟩
    exact .inl ⟨o, s, q', h6, k1, k3, k4⟩
  · exact .inr h6

theorem encodeSelect_ne_nil (e : DictEncoding) : encodeSelect e ≠ [] := by
  cases e <;> simp [encodeSelect]

theorem forall₂_mono_mem {α β : Type} {R S : α → β → Prop} {l : List α} {m : List β} (h : List.Forall₂ R l m)
    (hrs : ∀ a ∈ l, ∀ b, R a b → S a b) : List.Forall₂ S l m := by
  induction h with
  | nil => exact .nil
  | cons h _ ih => exact .cons (hrs _ (by simp) _ h) (ih (fun a ha => hrs a (by simp [ha])))

theorem cidAt (T : Transfer A data A' data' N) {top : Operations} {n : Nat} {r : CIDRecord} (ht : Small top)
    (hN : ∀ o ∈ r.operations, ∀ offset rest,
      o.map .opPrivate = some (.integer 0 :: .integer offset :: rest) → N offset)
    (h : CIDAt A data top n r) : CIDAt A' data' top n r := by
  obtain ⟨h1, ⟨o, p, h2, h3, h4, h5⟩, ⟨o', p', dicts, h6, h7, h8, h9⟩, h10⟩ := h
  obtain ⟨q, g1, g2⟩ := T.addr _ _ _ (intOf_int32 ht h2) (encodeSelect_ne_nil _) h3 h5
  obtain ⟨q', g3, g4⟩ := T.indexAt (intOf_int32 ht h6) h7 h8
  refine ⟨h1, ⟨o, q, h2, g1, h4, g2⟩, ⟨o', q', dicts, h6, g3, g4, h9⟩, forall₂_mono_mem h10 ?_⟩
  intro top' ht' r' hr'
  obtain ⟨_, _, hd⟩ := forall₂_right_mem h9 ht'
  exact T.privateAt (dictOf_small hd) (hN top' ht') hr'

theorem encodeCharacterSet_ne_nil {s : CharacterSet} (h : Custom s) : encodeCharacterSet s ≠ [] := by
  cases s <;> first | exact h.elim | simp [encodeCharacterSet]

theorem encodeEncoding_ne_nil {s : Encoding} (h : Encodable s) : encodeEncoding s ≠ [] := by
  cases s <;> first | exact h.elim | simp [encodeEncoding]

theorem fontAt (T : Transfer A data A' data' N) {top : Operations} {cs : Index} {s : CharacterSet} {e : Encoding} {r : Record}
    (ht : Small top) (hN : ∀ o, ((o = top ∧ ∃ r', r = .characterNameKeyed r') ∨
      ∃ r', r = .characterIDKeyed r' ∧ o ∈ r'.operations) → ∀ offset rest,
      o.map .opPrivate = some (.integer 0 :: .integer offset :: rest) → N offset)
    (h : FontAt A data top cs s e r) : FontAt A' data' top cs s e r := by
  obtain ⟨⟨o1, p1, h1, h2, h3, h4⟩, ⟨o2, h5, h6⟩, ⟨o3, h7, h8⟩, h9⟩ := h
  refine ⟨?_, ⟨o2, h5, ?_⟩, ⟨o3, h7, ?_⟩, ?_⟩
  · obtain ⟨q, g1, g2⟩ := T.indexAt (intOf_int32 ht h1) h2 h4
    exact ⟨o1, q, h1, g1, h3, g2⟩
  · rcases h6 with h | h | h | ⟨h0, h1, h2, p, h3, h4, h5', h6⟩
    · exact .inl h
    · exact .inr (.inl h)
    · exact .inr (.inr (.inl h))
    · obtain ⟨q, g1, g2⟩ := T.addr _ _ _ (intOf_int32 ht h5) (encodeCharacterSet_ne_nil h4) h3 h6
      exact .inr (.inr (.inr ⟨h0, h1, h2, q, g1, h4, h5', g2⟩))
  · rcases h8 with h | h | ⟨h0, h1, p, h3, h4, h6⟩
    · exact .inl h
    · exact .inr (.inl h)
    · obtain ⟨q, g1, g2⟩ := T.addr _ _ _ (intOf_int32 ht h7) (encodeEncoding_ne_nil h4) h3 h6
      exact .inr (.inr ⟨h0, h1, q, g1, h4, g2⟩)
  · cases r with
    | characterIDKeyed r => exact T.cidAt ht (fun o ho => hN o (.inr ⟨r, rfl, ho⟩)) h9
    | characterNameKeyed r => exact ⟨h9.1, T.privateAt ht (hN top (.inl ⟨rfl, r, rfl⟩)) h9.2⟩

theorem sits_append {data a b : List UInt8} {p : Nat} : Sits data p (a ++ b) ↔ Sits data p a ∧ Sits data (p + a.length) b := by
  unfold Sits
  rw [prefix_append_iff, List.drop_drop]

theorem laidOut (T : Transfer A data A' data' N) {base base' : Nat} {fs : FontSet}
    (hbase : ∀ bs, bs ≠ [] → Sits data base bs → Sits data' base' bs)
    (hN : ∀ o, HasPrivate fs o → ∀ offset rest,
      o.map .opPrivate = some (.integer 0 :: .integer offset :: rest) → N offset)
    (h : LaidOut A data base fs) : LaidOut A' data' base' fs := by
  obtain ⟨h0, ⟨p1, p2, p3, p4, p5, dicts, h1, ⟨b1, h2, s2, rfl⟩, ⟨b2, h3, s3, rfl⟩, ⟨b3, h5, s4, rfl⟩, ⟨b4, h6, s5, rfl⟩, h4⟩,
    h7, h8, h9, h10, h11⟩ := h
  have hall : Sits data p1 (b1 ++ b2 ++ b3 ++ b4) := by
    rw [sits_append, sits_append, sits_append]
    refine ⟨⟨⟨s2, s3⟩, ?_⟩, ?_⟩
    · rw [List.length_append, ← Nat.add_assoc]; exact s4
    · rw [List.length_append, List.length_append, ← Nat.add_assoc, ← Nat.add_assoc]; exact s5
  have hh : Int32 (fs.header.headerSize.toNat : Int) := by
    have := fs.header.headerSize.toNat_lt
    constructor <;> omega
  obtain ⟨q, g1, g2⟩ := T.addr _ _ _ hh (by simp [indexBytes_ne_nil h2]) h1 hall
  rw [sits_append, sits_append, sits_append, List.length_append, List.length_append] at g2
  refine ⟨hbase _ (by simp [encodeHeader]) h0, ⟨q, _, _, _, _, dicts, g1, ⟨b1, h2, g2.1.1.1, rfl⟩, ⟨b2, h3, g2.1.1.2, rfl⟩,
    ⟨b3, h5, ?_, rfl⟩, ⟨b4, h6, ?_, rfl⟩, h4⟩, h7, h8, h9, h10, ?_⟩
  · rw [Nat.add_assoc, ← List.length_append, List.length_append]; exact g2.1.2
  · have := g2.2
    rw [List.length_append] at this
    rw [Nat.add_assoc, Nat.add_assoc, ← Nat.add_assoc b1.length]; exact this
  · intro i top htop
    obtain ⟨cs, s, e, r, e1, e2, e3, e4, hf⟩ := h11 i top htop
    have hm : top ∈ fs.operations := List.mem_of_getElem? htop
    obtain ⟨_, _, hd⟩ := forall₂_right_mem h4 hm
    refine ⟨cs, s, e, r, e1, e2, e3, e4, T.fontAt (dictOf_small hd) ?_ hf⟩
    rintro o (⟨rfl, r', rfl⟩ | ⟨r', rfl, ho⟩)
    · exact hN _ (.inl ⟨i, r', htop, e4⟩)
    · exact hN _ (.inr ⟨r', List.mem_of_getElem? e4, ho⟩)

end Transfer

end PS
