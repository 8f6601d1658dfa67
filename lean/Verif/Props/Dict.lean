import Verif.Lemmas.Dict
import Verif.Props.Numbers
/-!
# Properties C10–C16: dictionaries
-/
namespace PS
open Spec

/-- **C10.**  Any sequence of operations, each in any legal encoding, reads as the
map that sends each operator to the operands of its last occurrence, and nothing
else. -/
theorem C10_dict_last_write_wins {ops : List (Operator × List Number)} {bs : List UInt8} (h : Dict ops bs)
    (cfg : Config) (pre : List UInt8) :
    ∃ o q, Operations.read (tape cfg (pre ++ bs)) pre.length = (.ok o, q) ∧
      ∀ op operands, o.map op = some operands ↔ Last ops op operands := by
  obtain ⟨q, hq⟩ := (operations_ok (env := tape cfg (pre ++ bs)) (p := pre.length)).mpr
    ⟨ops, bs, [], h, by simp [tape], cutOperation_nil, rfl⟩
  exact ⟨_, q, hq, insertAll_map ops⟩

private theorem dict_append {ops ops' : List (Operator × List Number)} {bs bs' : List UInt8} (h : Dict ops bs)
    (h' : Dict ops' bs') : Dict (ops ++ ops') (bs ++ bs') := by
  unfold Dict at *
  induction h with
  | nil => exact h'
  | cons h _ ih => rw [List.cons_append, List.append_assoc]; exact .cons h ih

private theorem exists_last {ops : List (Operator × List Number)} {x : Operator × List Number} (hx : x ∈ ops) :
    ∃ ys, Last ops x.1 ys := by
  induction ops using List.reverseRecOn with
  | nil => simp at hx
  | append_singleton ops z ih =>
    by_cases hz : z.1 = x.1
    · exact ⟨z.2, ops, [], by rw [← hz], by simp⟩
    · have hx' : x ∈ ops := by
        rcases List.mem_append.mp hx with h | h
        · exact h
        · exact absurd (by rw [List.mem_singleton.mp h]) hz
      obtain ⟨ys, a, b, rfl, hb⟩ := ih hx'
      refine ⟨ys, a, b ++ [z], by simp, fun w hw => ?_⟩
      rcases List.mem_append.mp hw with h | h
      · exact hb w h
      · rw [List.mem_singleton.mp h]; exact hz

/-- **C10.**  Of two dictionaries one after the other, the operations of the second one take
precedence. -/
theorem C10_concatenation {ops ops' : List (Operator × List Number)} {bs bs' : List UInt8} (h : Dict ops bs)
    (h' : Dict ops' bs') (cfg : Config) :
    ∃ o o' o'' q q' q'', Operations.read (tape cfg bs) 0 = (.ok o, q) ∧ Operations.read (tape cfg bs') 0 = (.ok o', q') ∧
      Operations.read (tape cfg (bs ++ bs')) 0 = (.ok o'', q'') ∧ ∀ op, o''.map op = (o'.map op).or (o.map op) := by
  obtain ⟨o, q, h1, h2⟩ := C10_dict_last_write_wins h cfg []
  obtain ⟨o', q', h1', h2'⟩ := C10_dict_last_write_wins h' cfg []
  obtain ⟨o'', q'', h1'', h2''⟩ := C10_dict_last_write_wins (ops := ops ++ ops') (bs := bs ++ bs') (dict_append h h') cfg []
  refine ⟨o, o', o'', q, q', q'', h1, h1', h1'', fun op => Option.ext fun xs => ?_⟩
  rw [h2'', Option.or_eq_some_iff, h2', h2]
  constructor
  · rintro ⟨a, b, he, hb⟩
    rcases List.append_eq_append_iff.mp he with ⟨c, rfl, hc⟩ | ⟨c, rfl, hc⟩
    · exact .inl ⟨c, b, hc, hb⟩
    · rcases c with _ | ⟨y, c⟩
      · exact .inl ⟨[], b, hc.symm, hb⟩
      · simp only [List.cons_append, List.cons.injEq] at hc
        obtain ⟨rfl, rfl⟩ := hc
        refine .inr ⟨Option.eq_none_iff_forall_ne_some.mpr fun ys hy => ?_, a, c, rfl, fun x hx => hb x (by simp [hx])⟩
        obtain ⟨d, e, rfl, _⟩ := (h2' op ys).mp hy
        exact hb (op, ys) (by simp) rfl
  · rintro (⟨a, b, rfl, hb⟩ | ⟨hn, a, b, rfl, hb⟩)
    · exact ⟨ops ++ a, b, by simp, hb⟩
    · refine ⟨a, b ++ ops', by simp, fun x hx he => ?_⟩
      rcases List.mem_append.mp hx with hx | hx
      · exact hb x hx he
      · obtain ⟨ys, hy⟩ : ∃ ys, Last ops' op ys := by
          obtain ⟨ys, hy⟩ := exists_last hx
          exact ⟨ys, he ▸ hy⟩
        rw [(h2' op ys).mpr hy] at hn
        cases hn

/-- A DICT with a repeated operator: `1 Weight 2 3 FontBBox 4 Weight`. -/
example : Dict [(.opWeight, [.integer 1]), (.opFontBBox, [.integer 2, .integer 3]), (.opWeight, [.integer 4])]
      [140, 4, 141, 142, 5, 143, 4] ∧
    Last [(.opWeight, [.integer 1]), (.opFontBBox, [.integer 2, .integer 3]), (.opWeight, [.integer 4])]
      .opWeight [.integer 4] := by
  have e (b : UInt8) (i : Int) (h1 : 32 ≤ b.toNat) (h2 : b.toNat ≤ 246) (hi : i = b.toNat - 139) :
      Operand (.integer i) [b] := by subst hi; exact .short (.oneByte b h1 h2)
  refine ⟨?_, ⟨[(.opWeight, [.integer 1]), (.opFontBBox, [.integer 2, .integer 3])], [], rfl, by simp⟩⟩
  refine Seq.cons (b := [140, 4]) (bs := [141, 142, 5, 143, 4]) ?_ (Seq.cons (b := [141, 142, 5]) (bs := [143, 4]) ?_
    (Seq.cons (b := [143, 4]) (bs := []) ?_ .nil))
  · exact ⟨[140], Seq.cons (b := [140]) (bs := []) (e _ _ (by decide) (by decide) (by decide)) .nil, rfl⟩
  · exact ⟨[141, 142], Seq.cons (b := [141]) (bs := [142]) (e _ _ (by decide) (by decide) (by decide))
      (Seq.cons (b := [142]) (bs := []) (e _ _ (by decide) (by decide) (by decide)) .nil), rfl⟩
  · exact ⟨[143], Seq.cons (b := [143]) (bs := []) (e _ _ (by decide) (by decide) (by decide)) .nil, rfl⟩

theorem last_nodup {ops : List (Operator × List Number)} (h : (ops.map Prod.fst).Nodup) (op : Operator)
    (operands : List Number) : Last ops op operands ↔ (op, operands) ∈ ops := by
  constructor
  · rintro ⟨b, a, rfl, -⟩
    simp
  · intro hm
    obtain ⟨b, a, rfl⟩ := List.append_of_mem hm
    refine ⟨b, a, rfl, ?_⟩
    intro x hx hxo
    rw [List.map_append, List.map_cons, List.nodup_append] at h
    refine (List.nodup_cons.mp h.2.1).1 ?_
    simp only [← hxo]
    exact List.mem_map.mpr ⟨x, hx, rfl⟩

/-- **C11.**  Permuting the operations of a DICT without repeated operators, and
choosing any other encoding of their operands, does not change what is read. -/
theorem C11_dict_order_irrelevant {ops ops' : List (Operator × List Number)} {bs bs' : List UInt8}
    (h : Dict ops bs) (h' : Dict ops' bs') (hp : ops.Perm ops') (hn : (ops.map Prod.fst).Nodup)
    (cfg cfg' : Config) (pre pre' : List UInt8) :
    ∃ o q q', Operations.read (tape cfg (pre ++ bs)) pre.length = (.ok o, q) ∧
      Operations.read (tape cfg' (pre' ++ bs')) pre'.length = (.ok o, q') := by
  obtain ⟨o, q, h1, h2⟩ := C10_dict_last_write_wins h cfg pre
  obtain ⟨o', q', h1', h2'⟩ := C10_dict_last_write_wins h' cfg' pre'
  have hn' : (ops'.map Prod.fst).Nodup := (hp.map _).nodup_iff.mp hn
  have : o = o' := by
    obtain ⟨m⟩ := o
    obtain ⟨m'⟩ := o'
    congr 1
    funext op
    apply Option.ext
    intro operands
    exact ((h2 op operands).trans (last_nodup hn op operands)).trans
      (hp.mem_iff.trans ((h2' op operands).trans (last_nodup hn' op operands)).symm)
  subst this
  exact ⟨o, q, q', h1, h1'⟩

/-- Distinct operators in two orders. -/
example : ([(Operator.opWeight, [Number.integer 1]), (.opNotice, [])].map Prod.fst).Nodup ∧
    [(Operator.opWeight, [Number.integer 1]), (.opNotice, [])].Perm [(.opNotice, []), (.opWeight, [.integer 1])] :=
  ⟨by decide, List.Perm.swap _ _ _⟩

/-- **C12.**  Cutting a DICT at any byte makes reading succeed with the map of the
operations that end before the cut: the operation that is cut and those after it
leave no trace. -/
theorem C12_dict_truncated {ops : List (Operator × List Number)} {bs : List UInt8} (h : Dict ops bs) {k : Nat}
    (hk : k < bs.length) (cfg : Config) (pre : List UInt8) :
    ∃ done next rest b1 b2 b3, ops = done ++ next :: rest ∧ bs = b1 ++ b2 ++ b3 ∧
      Dict done b1 ∧ Operation next b2 ∧ Dict rest b3 ∧ b1.length ≤ k ∧ k < b1.length + b2.length ∧
      ∃ o q, Operations.read (tape cfg (pre ++ bs.take k)) pre.length = (.ok o, q) ∧
        ∀ op operands, o.map op = some operands ↔ Last done op operands := by
  obtain ⟨done, next, rest, b1, b2, b3, h1, rfl, h3, h4, h5, h6, h7⟩ := cut_dict h hk
  refine ⟨done, next, rest, b1, b2, b3, h1, rfl, h3, h4, h5, h6, h7, ?_⟩
  have ht : (b1 ++ b2 ++ b3).take k = b1 ++ b2.take (k - b1.length) := by
    rw [List.append_assoc, List.take_append, List.take_of_length_le h6,
      List.take_append_of_le_length (by omega)]
  obtain ⟨q, hq⟩ := (operations_ok (env := tape cfg (pre ++ (b1 ++ b2 ++ b3).take k)) (p := pre.length)).mpr
    ⟨done, b1, b2.take (k - b1.length), h3, by simp only [tape, List.drop_left]; exact ht,
      cut_operation h4 (by omega), rfl⟩
  exact ⟨_, q, hq, insertAll_map done⟩

/-- **C13.**  Reading a DICT always terminates with the operations or with one of
the two errors for malformed input: it neither panics nor runs out of bytes. -/
theorem C13_dict_total (cfg : Config) (data : List UInt8) (p : Nat) :
    (∃ o q, Operations.read (tape cfg data) p = (.ok o, q)) ∨
    (∃ q, Operations.read (tape cfg data) p = (.err (.raised .malformedNumber), q)) ∨
    (∃ q, Operations.read (tape cfg data) p = (.err (.raised .unknownOperator), q)) :=
  operations_total _ _

/-- **C13.**  Reading succeeds exactly when the bytes ahead are operations followed
by an operation cut short (or by nothing), with the map of these operations. -/
theorem C13_dict_accepted_iff (cfg : Config) (data : List UInt8) (p : Nat) (o : Operations) :
    (∃ q, Operations.read (tape cfg data) p = (.ok o, q)) ↔
      ∃ ops bs rest, Dict ops bs ∧ data.drop p = bs ++ rest ∧ CutOperation rest ∧
        ∀ op operands, o.map op = some operands ↔ Last ops op operands := by
  rw [operations_ok]
  constructor
  · rintro ⟨ops, bs, rest, h1, h2, h3, rfl⟩
    exact ⟨ops, bs, rest, h1, h2, h3, insertAll_map ops⟩
  · rintro ⟨ops, bs, rest, h1, h2, h3, h4⟩
    refine ⟨ops, bs, rest, h1, h2, h3, ?_⟩
    obtain ⟨m⟩ := o
    have : m = (insertAll .empty ops).map := by
      funext op
      apply Option.ext
      intro operands
      exact (h4 op operands).trans (insertAll_map ops op operands).symm
    rw [this]

/-- **C13.**  The error of a malformed number arises exactly when, after complete
operations and complete operands, a malformed operand is next. -/
theorem C13_dict_malformed_iff (cfg : Config) (data : List UInt8) (p : Nat) :
    (∃ q, Operations.read (tape cfg data) p = (.err (.raised .malformedNumber), q)) ↔
      ∃ ops bs ns os tail, Dict ops bs ∧ Seq Operand ns os ∧ data.drop p = bs ++ os ++ tail ∧ BadOperand tail :=
  operations_err (by simp)

/-- **C13.**  The error of an unknown operator arises exactly when, after complete
operations and complete operands, there is something that is no operator. -/
theorem C13_dict_unknown_iff (cfg : Config) (data : List UInt8) (p : Nat) :
    (∃ q, Operations.read (tape cfg data) p = (.err (.raised .unknownOperator), q)) ↔
      ∃ ops bs ns os tail, Dict ops bs ∧ Seq Operand ns os ∧ data.drop p = bs ++ os ++ tail ∧ BadOperator tail :=
  operations_err (by simp)

/-- **C13.**  Every operation takes a byte at least. -/
theorem C13_operation_progress {cfg : Config} {data : List UInt8} {p q : Nat} {x : Operator × List Number}
    (h : Operations.readOperation (tape cfg data) p = (.ok x, q)) : p < q ∧ q ≤ data.length := by
  obtain ⟨bs, hx, hp, rfl⟩ := (exact_readOperation _ _ _ _).mp h
  have := operation_nonempty hx
  have := hp.length_le
  simp [tape] at this
  omega

/-- An unknown operator (22) after an operand, and a malformed real (`--`). -/
example : BadOperator [22, 0] ∧ BadOperand [30, 0xee, 0xff] := by
  refine ⟨⟨⟨22, [0], rfl, by unfold OperandByte; decide⟩, by decide, ?_⟩, ?_⟩
  · intro op
    cases op <;> decide
  · have := (number_malformed (env := ⟨⟨true, true, 0, fun p _ => p⟩, [30, 0xee, 0xff]⟩) (p := 0) (b := 30)
      (l := [0xee, 0xff]) rfl (by decide)).mp ⟨3, by decide +kernel⟩
    exact this

/-- **C14.**  An operator that occurs is found with the operands it was stored with. -/
theorem C14_get_stored {o : Operations} {op : Operator} {operands : List Number} (h : o.map op = some operands) :
    o.get op = some operands := by
  simp [Operations.get, h]

example : (Operations.empty.insert .opWeight [.integer 392]).get .opWeight = some [.integer 392] := C14_get_stored rfl

theorem stands_decimal {m : Nat} {k : Int} {q : ℚ} (hq : q = m * (10 : ℚ) ^ k) :
    Stands q (.real (F32.ofDecimal false m k)) := by
  have h0 : 0 ≤ q := by rw [hq]; positivity
  unfold Stands
  rw [abs_of_nonneg h0, decide_eq_false (not_lt.mpr h0), hq]
  exact ofDecimal_nearest false m k

theorem default_none {op : Operator} (h : op.default = none) : opDefault op = [] := by
  cases op <;> first | rfl | (exfalso; simp [Operator.default] at h)

theorem stands_int {q : ℚ} {i : Int} (h : q = i) : Stands q (.integer i) := h

theorem default_some {op : Operator} {ns : List Number} (h : op.default = some ns) :
    opDefault op ≠ [] ∧ List.Forall₂ Stands (opDefault op) ns := by
  have one (q : ℚ) (i : Int) (hq : q = i) (h2 : some [Number.integer i] = some ns) :
      [q] ≠ [] ∧ List.Forall₂ Stands [q] ns := by
    injection h2 with h2
    subst h2
    exact ⟨List.cons_ne_nil _ _, .cons hq .nil⟩
  have real (q : ℚ) (m : Nat) (k : Int) (hq : q = m * (10 : ℚ) ^ k)
      (h2 : some [Number.real (F32.ofDecimal false m k)] = some ns) : [q] ≠ [] ∧ List.Forall₂ Stands [q] ns := by
    injection h2 with h2
    subst h2
    exact ⟨List.cons_ne_nil _ _, .cons (stands_decimal hq) .nil⟩
  cases op
  case opFontMatrix =>
    injection h with h
    subst h
    refine ⟨List.cons_ne_nil _ _, .cons (stands_decimal ?_) (.cons (stands_decimal ?_) (.cons (stands_decimal ?_)
      (.cons (stands_decimal ?_) (.cons (stands_decimal ?_) (.cons (stands_decimal ?_) .nil)))))⟩ <;> norm_num
  case opFontBBox =>
    injection h with h
    subst h
    refine ⟨List.cons_ne_nil _ _, .cons (stands_int ?_) (.cons (stands_int ?_) (.cons (stands_int ?_)
      (.cons (stands_int ?_) .nil)))⟩ <;> norm_num
  case opBlueScale => exact real _ _ _ (by norm_num) h
  case opExpansionFactor => exact real _ _ _ (by norm_num) h
  all_goals first
    | (exfalso; simp [Operator.default] at h; done)
    | exact one _ _ (by norm_num) h

/-- **C14.**  An operator that does not occur has the default operands of the
specification, if there are any, and nothing otherwise. -/
theorem C14_get_default {o : Operations} {op : Operator} (h : o.map op = none) :
    (opDefault op = [] → o.get op = none) ∧
    (opDefault op ≠ [] → ∃ ns, o.get op = some ns ∧ List.Forall₂ Stands (opDefault op) ns) := by
  have hg : o.get op = op.default := by simp [Operations.get, h]
  rw [hg]
  rcases hd : op.default with _ | ns
  · exact ⟨fun _ => rfl, fun h => absurd (default_none hd) h⟩
  · exact ⟨fun h => absurd h (default_some hd).1, fun _ => ⟨ns, rfl, (default_some hd).2⟩⟩

/-- **C14.**  `get_single` gives the first operand, if there is one. -/
theorem C14_get_single (o : Operations) (op : Operator) (a : Number) :
    o.getSingle op = some a ↔ ∃ rest, o.get op = some (a :: rest) := by
  unfold Operations.getSingle
  rcases o.get op with _ | _ | ⟨b, l⟩ <;> simp

/-- **C14.**  `get_double` gives the first two operands, if there are two. -/
theorem C14_get_double (o : Operations) (op : Operator) (a b : Number) :
    o.getDouble op = some (a, b) ↔ ∃ rest, o.get op = some (a :: b :: rest) := by
  unfold Operations.getDouble
  rcases o.get op with _ | _ | ⟨c, _ | ⟨d, l⟩⟩ <;> simp

/-- **C14.**  Looking up in a DICT that was read: the last occurrence wins over the
default, and the default is used exactly when there is no occurrence. -/
theorem C14_get_read {ops : List (Operator × List Number)} {bs : List UInt8} (h : Dict ops bs)
    (cfg : Config) (pre : List UInt8) :
    ∃ o q, Operations.read (tape cfg (pre ++ bs)) pre.length = (.ok o, q) ∧ ∀ op,
      (∀ operands, Last ops op operands → o.get op = some operands) ∧
      ((∀ x ∈ ops, x.1 ≠ op) →
        (opDefault op = [] → o.get op = none) ∧
        (opDefault op ≠ [] → ∃ ns, o.get op = some ns ∧ List.Forall₂ Stands (opDefault op) ns)) := by
  obtain ⟨o, q, h1, h2⟩ := C10_dict_last_write_wins h cfg pre
  refine ⟨o, q, h1, fun op => ⟨fun operands hl => C14_get_stored ((h2 op operands).mpr hl), fun hn => ?_⟩⟩
  apply C14_get_default
  rcases hm : o.map op with _ | operands
  · rfl
  · obtain ⟨b, a, rfl, -⟩ := (h2 op operands).mp hm
    exact absurd rfl (hn (op, operands) (by simp))

example : opDefault .opFontMatrix ≠ [] ∧ opDefault .opXUID = [] ∧ Operations.empty.map .opFontMatrix = none :=
  ⟨List.cons_ne_nil _ _, rfl, rfl⟩

/-- **C15.**  The code of every operator in the specification is accepted and gives
that operator, and no other code gives it. -/
theorem C15_operator_iff (code : UInt16) (op : Operator) :
    Operator.from code = .ok op ↔ lookupCode (opCode op) = some code.toNat := by
  have key : ∀ op, lookupCode (opCode op) = some (codeOf op).toNat := by
    intro op
    cases op <;> decide +kernel
  rw [from_ok, key, Option.some.injEq, ← UInt16.toNat_inj, eq_comm]

/-- **C15.**  Every other code is rejected. -/
theorem C15_operator_unknown (code : UInt16) (h : ∀ op, lookupCode (opCode op) ≠ some code.toNat) :
    Operator.from code = .err (.raised .unknownOperator) := by
  rcases from_total code with ⟨op, ho⟩ | ho
  · exact absurd ((C15_operator_iff code op).mp ho) (h op)
  · exact ho

/-- **C15.**  Distinct codes give distinct operators. -/
theorem C15_operator_injective {c d : UInt16} {op : Operator} (hc : Operator.from c = .ok op)
    (hd : Operator.from d = .ok op) : c = d :=
  UInt16.toNat_inj.mp (Option.some.inj (((C15_operator_iff c op).mp hc).symm.trans ((C15_operator_iff d op).mp hd)))

/-- **C15.**  Every operator has a code. -/
theorem C15_operator_surjective (op : Operator) : ∃ code, Operator.from code = .ok op :=
  ⟨_, from_codeOf op⟩

/-- 0x0c1d is between `BaseFontBlend` and `ROS`, and is reserved. -/
example : ∀ op, lookupCode (opCode op) ≠ some (0x0c1d : UInt16).toNat := by
  intro op
  cases op <;> decide

theorem toOperationsFrom_ok (cfg : Config) (ix : Index) (n i : Nat) (hn : i + n = ix.data.length) (xs : List Operations) :
    ix.toOperationsFrom cfg i n = .ok xs ↔ xs.length = n ∧ ∀ j chunk, ix.data[i + j]? = some chunk →
      ∃ o q, xs[j]? = some o ∧ Operations.read (tape cfg chunk) 0 = (.ok o, q) := by
  induction n generalizing i xs with
  | zero =>
    simp only [Index.toOperationsFrom, Res.ok.injEq]
    constructor
    · rintro rfl
      refine ⟨rfl, fun j chunk h => ?_⟩
      rw [List.getElem?_eq_none (by omega)] at h
      simp at h
    · rintro ⟨h, -⟩
      exact (List.length_eq_zero_iff.mp h).symm
  | succ n ih =>
    have hi : i < ix.data.length := by omega
    simp only [Index.toOperationsFrom, Index.getOperations, List.getElem?_eq_getElem hi, Operations.ofBytes]
    constructor
    · intro h
      rcases hr : Operations.read { cfg := cfg, data := ix.data[i] } 0 with ⟨o | e | x, q⟩ <;> rw [hr] at h <;> simp at h
      rcases ht : ix.toOperationsFrom cfg (i + 1) n with ys | e | x <;> rw [ht] at h <;> simp at h
      subst h
      obtain ⟨h1, h2⟩ := (ih (i + 1) (by omega) ys).mp ht
      refine ⟨by simp [h1], ?_⟩
      rintro (_ | j) chunk hc
      · rw [Nat.add_zero, List.getElem?_eq_getElem hi] at hc
        simp at hc
        subst hc
        exact ⟨o, q, rfl, hr⟩
      · exact h2 j chunk (by rw [← hc]; congr 1; omega)
    · rintro ⟨h1, h2⟩
      obtain ⟨o, q, h3, h4⟩ := h2 0 _ (List.getElem?_eq_getElem hi)
      obtain ⟨y, ys, rfl⟩ : ∃ y ys, xs = y :: ys := by
        cases xs with
        | nil => simp at h1
        | cons y ys => exact ⟨y, ys, rfl⟩
      simp at h3
      subst h3
      rw [tape] at h4
      rw [h4]
      have := (ih (i + 1) (by omega) ys).mpr ⟨by simpa using h1, fun j chunk hc =>
        h2 (j + 1) chunk (by rw [← hc]; congr 1; omega)⟩
      rw [this]

/-- **C16.**  Converting a dictionary INDEX succeeds exactly with the vector whose
entries are the parses of the entries of the INDEX. -/
theorem C16_dictionaries_entrywise (cfg : Config) (ix : Index) (xs : List Operations) :
    ix.toOperations cfg = .ok xs ↔ xs.length = ix.data.length ∧ ∀ (i : Nat) (chunk : List UInt8), ix.data[i]? = some chunk →
      ∃ o q, xs[i]? = some o ∧ Operations.read (tape cfg chunk) 0 = (.ok o, q) := by
  have := toOperationsFrom_ok cfg ix ix.data.length 0 (by omega) xs
  simpa [Index.toOperations] using this

theorem toOperationsFrom_err (cfg : Config) (ix : Index) (n i : Nat) (hn : i + n = ix.data.length) (e : Err) :
    ix.toOperationsFrom cfg i n = .err e ↔ ∃ k chunk q, ix.data[i + k]? = some chunk ∧
      Operations.read (tape cfg chunk) 0 = (.err e, q) ∧
      ∀ j < k, ∀ chunk, ix.data[i + j]? = some chunk → ∃ o q, Operations.read (tape cfg chunk) 0 = (.ok o, q) := by
  induction n generalizing i with
  | zero =>
    simp only [Index.toOperationsFrom, reduceCtorEq, false_iff]
    rintro ⟨k, chunk, q, h, -⟩
    rw [List.getElem?_eq_none (by omega)] at h
    simp at h
  | succ n ih =>
    have hi : i < ix.data.length := by omega
    simp only [Index.toOperationsFrom, Index.getOperations, List.getElem?_eq_getElem hi, Operations.ofBytes]
    rcases hr : Operations.read { cfg := cfg, data := ix.data[i] } 0 with ⟨o | e' | x, q⟩
    · simp only []
      have hstep : (∃ k chunk q, ix.data[i + k]? = some chunk ∧
            Operations.read (tape cfg chunk) 0 = (.err e, q) ∧
            ∀ j < k, ∀ chunk, ix.data[i + j]? = some chunk → ∃ o q, Operations.read (tape cfg chunk) 0 = (.ok o, q)) ↔
          ix.toOperationsFrom cfg (i + 1) n = .err e := by
        rw [ih (i + 1) (by omega)]
        constructor
        · rintro ⟨k, chunk, q', h1, h2, h3⟩
          rcases k with _ | k
          · rw [Nat.add_zero, List.getElem?_eq_getElem hi] at h1
            simp at h1
            subst h1
            rw [tape, hr] at h2
            simp at h2
          · exact ⟨k, chunk, q', by rw [← h1]; congr 1; omega, h2, fun j hj c hc =>
              h3 (j + 1) (by omega) c (by rw [← hc]; congr 1; omega)⟩
        · rintro ⟨k, chunk, q', h1, h2, h3⟩
          refine ⟨k + 1, chunk, q', by rw [← h1]; congr 1; omega, h2, ?_⟩
          rintro (_ | j) hj c hc
          · rw [Nat.add_zero, List.getElem?_eq_getElem hi] at hc
            simp at hc
            subst hc
            exact ⟨o, q, hr⟩
          · exact h3 j (by omega) c (by rw [← hc]; congr 1; omega)
      rw [hstep]
      rcases ht : ix.toOperationsFrom cfg (i + 1) n with ys | e | x <;> simp
    · simp only [Res.err.injEq]
      constructor
      · rintro rfl
        exact ⟨0, _, q, List.getElem?_eq_getElem hi, hr, by simp⟩
      · rintro ⟨k, chunk, q', h1, h2, h3⟩
        rcases k with _ | k
        · rw [Nat.add_zero, List.getElem?_eq_getElem hi] at h1
          simp at h1
          subst h1
          rw [tape, hr] at h2
          simp at h2
          exact h2.1
        · obtain ⟨o, q2, h4⟩ := h3 0 (by omega) _ (List.getElem?_eq_getElem hi)
          rw [tape, hr] at h4
          simp at h4
    · exfalso
      rcases operations_total { cfg := cfg, data := ix.data[i] } 0 with ⟨o, q', h⟩ | ⟨q', h⟩ | ⟨q', h⟩ <;>
        rw [hr] at h <;> simp at h

/-- **C16.**  Converting fails exactly with the error of the first entry that does
not parse. -/
theorem C16_dictionaries_first_error (cfg : Config) (ix : Index) (e : Err) :
    ix.toOperations cfg = .err e ↔ ∃ (k : Nat) (chunk : List UInt8) (q : Nat), ix.data[k]? = some chunk ∧
      Operations.read (tape cfg chunk) 0 = (.err e, q) ∧
      ∀ j < k, ∀ chunk, ix.data[j]? = some chunk → ∃ o q, Operations.read (tape cfg chunk) 0 = (.ok o, q) := by
  have := toOperationsFrom_err cfg ix ix.data.length 0 (by omega) e
  simpa [Index.toOperations] using this

theorem toOperationsFrom_no_panic (cfg : Config) (ix : Index) (n i : Nat) (hn : i + n = ix.data.length) (x : Panic) :
    ix.toOperationsFrom cfg i n ≠ .panic x := by
  induction n generalizing i with
  | zero => simp [Index.toOperationsFrom]
  | succ n ih =>
    have hi : i < ix.data.length := by omega
    simp only [Index.toOperationsFrom, Index.getOperations, List.getElem?_eq_getElem hi, Operations.ofBytes]
    have h2 := ih (i + 1) (by omega)
    rcases operations_total { cfg := cfg, data := ix.data[i] } 0 with ⟨o, q', h⟩ | ⟨q', h⟩ | ⟨q', h⟩ <;> rw [h]
    · simp only []
      rcases ht : ix.toOperationsFrom cfg (i + 1) n with ys | e | y <;> simp
      rintro rfl
      exact h2 ht
    · simp
    · simp

/-- **C16.**  Converting never panics. -/
theorem C16_dictionaries_no_panic (cfg : Config) (ix : Index) (x : Panic) : ix.toOperations cfg ≠ .panic x :=
  toOperationsFrom_no_panic cfg ix _ 0 (by omega) x

/-- An INDEX whose second entry does not parse. -/
example : ∃ (k : Nat) (chunk : List UInt8) (q : Nat), (Index.mk 2 1 [1, 3, 4] [[140, 4], [22]]).data[k]? = some chunk ∧
    Operations.read (tape ⟨true, true, 0, fun p _ => p⟩ chunk) 0 = (.err (.raised .unknownOperator), q) :=
  ⟨1, [22], 1, rfl, rfl⟩

end PS
