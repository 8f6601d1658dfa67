import Verif.Spec.Renumber
import Verif.Lemmas.Type2Extend
import Verif.Props.Type2Calls
/-!
# Lemmas: subroutines that are given other numbers
-/
namespace PS.Type2
open PS.Spec hiding Operand Operation
open PS.Type2.Spec

/-- The change undone. -/
def Spec.Renumbering.undo (R : Renumbering) : Renumbering := ⟨R.after, R.before, fun i j => R.becomes j i⟩

variable {G L : Renumbering} {m : Nat}

theorem renumbered_undo {a b : List UInt8} (h : Renumbered G L m a b) : Renumbered G.undo L.undo m b a := by
  induction h with
  | nil => exact .nil
  | operand h1 h2 _ ih => exact .operand h2 h1 ih
  | operator h1 h2 h3 _ ih => exact .operator h1 h2 h3 ih
  | mask h1 h2 _ ih => exact .mask h1 h2 ih
  | callLocal h1 h2 h3 _ ih => exact .callLocal (L := L.undo) h2 h1 h3 ih
  | callGlobal h1 h2 h3 _ ih => exact .callGlobal (G := G.undo) h2 h1 h3 ih

theorem consistent_undo (h : Consistent G L m) : Consistent G.undo L.undo m := by
  intro R hR i j hij
  simp only [List.mem_cons, List.not_mem_nil, or_false] at hR
  rcases hR with rfl | rfl
  · obtain ⟨b, b', h1, h2, h3⟩ := h G (by simp) j i hij
    exact ⟨b', b, h2, h1, renumbered_undo h3⟩
  · obtain ⟨b, b', h1, h2, h3⟩ := h L (by simp) j i hij
    exact ⟨b', b, h2, h1, renumbered_undo h3⟩

theorem renumbered_nil {b : List UInt8} (h : Renumbered G L m [] b) : b = [] := by
  have key : ∀ {a b}, Renumbered G L m a b → a = [] → b = [] := by
    intro a b h ha
    cases h with
    | nil => rfl
    | operand h1 => exact absurd (List.append_eq_nil_iff.mp ha).1 (operand_ne_nil h1)
    | operator => exact absurd (List.append_eq_nil_iff.mp ha).1 (bytes_ne_nil _)
    | mask => exact absurd (List.append_eq_nil_iff.mp (List.append_eq_nil_iff.mp ha).1).1 (bytes_ne_nil _)
    | callLocal h1 =>
      obtain ⟨x, n, h1, _⟩ := h1
      exact absurd (List.append_eq_nil_iff.mp ha).1 (operand_ne_nil h1)
    | callGlobal h1 =>
      obtain ⟨x, n, h1, _⟩ := h1
      exact absurd (List.append_eq_nil_iff.mp ha).1 (operand_ne_nil h1)
  exact key h rfl

/-- What follows the operands on the one side is what follows them on the other. -/
inductive Split (G L : Renumbering) (m : Nat) (xs : List F32) (op : Operator) (rest c' : List UInt8) : Prop
  | operator {bs' r'} : ¬ Mask op → op ≠ .opCallSubr → op ≠ .opCallGSubr → Seq Operand xs bs' →
    c' = bs' ++ (bytes op ++ r') → Renumbered G L m rest r' → Split G L m xs op rest c'
  | mask {bs' mask r r'} : Mask op → mask.length = m → Seq Operand xs bs' → rest = mask ++ r →
    c' = bs' ++ (bytes op ++ (mask ++ r')) → Renumbered G L m r r' → Split G L m xs op rest c'
  | callLocal {ys bs' r' x x' n n' i j} : op = .opCallSubr → xs = ys ++ [x] → Seq Operand (ys ++ [x']) bs' →
    c' = bs' ++ (bytes op ++ r') → Renumbered G L m rest r' → x.WF → IntArg x n → n + callBias L.before.length = (i : Nat) →
    IntArg x' n' → n' + callBias L.after.length = (j : Nat) → L.becomes i j → Split G L m xs op rest c'
  | callGlobal {ys bs' r' x x' n n' i j} : op = .opCallGSubr → xs = ys ++ [x] → Seq Operand (ys ++ [x']) bs' →
    c' = bs' ++ (bytes op ++ r') → Renumbered G L m rest r' → x.WF → IntArg x n → n + callBias G.before.length = (i : Nat) →
    IntArg x' n' → n' + callBias G.after.length = (j : Nat) → G.becomes i j → Split G L m xs op rest c'

theorem seq_bytes {xs : List F32} {bs r rest : List UInt8} {op op' : Operator} (h : Seq Operand xs bs)
    (he : bytes op' ++ r = bs ++ (bytes op ++ rest)) : xs = [] ∧ bs = [] ∧ op' = op ∧ r = rest := by
  cases h with
  | nil => exact ⟨rfl, rfl, bytes_unique (by simpa using he)⟩
  | cons h1 h2 =>
    rw [List.append_assoc] at he
    exact absurd he.symm (operand_bytes h1)

theorem seq_operand {xs : List F32} {b bs r rest : List UInt8} {x : F32} {op : Operator} (hx : Operand x b)
    (h : Seq Operand xs bs) (he : b ++ r = bs ++ (bytes op ++ rest)) :
    ∃ ys cs, xs = x :: ys ∧ bs = b ++ cs ∧ Seq Operand ys cs ∧ r = cs ++ (bytes op ++ rest) := by
  cases h with
  | nil => exact absurd he (operand_bytes hx)
  | cons h1 h2 =>
    rw [List.append_assoc] at he
    obtain ⟨rfl, rfl, h3⟩ := operand_unique hx h1 he
    exact ⟨_, _, rfl, rfl, h2, h3⟩

theorem split_cons {x : F32} {b : List UInt8} (hx : Operand x b) {xs : List F32} {op : Operator} {rest c' : List UInt8}
    (h : Split G L m xs op rest c') : Split G L m (x :: xs) op rest (b ++ c') := by
  cases h with
  | operator h1 h2 h3 h4 h5 h6 => exact .operator h1 h2 h3 (.cons hx h4) (by rw [h5, List.append_assoc]) h6
  | mask h1 h2 h3 h4 h5 h6 => exact .mask h1 h2 (.cons hx h3) h4 (by rw [h5, List.append_assoc]) h6
  | callLocal h1 h2 h3 h4 h5 h6 h7 h8 h9 h10 h11 =>
    exact .callLocal (ys := x :: _) h1 (by rw [h2]; rfl) (.cons hx h3) (by rw [h4, List.append_assoc]) h5 h6 h7 h8 h9 h10 h11
  | callGlobal h1 h2 h3 h4 h5 h6 h7 h8 h9 h10 h11 =>
    exact .callGlobal (ys := x :: _) h1 (by rw [h2]; rfl) (.cons hx h3) (by rw [h4, List.append_assoc]) h5 h6 h7 h8 h9 h10 h11

theorem renumbered_split {c c' : List UInt8} (h : Renumbered G L m c c') :
    ∀ {xs : List F32} {bs rest : List UInt8} {op : Operator}, Seq Operand xs bs → c = bs ++ (bytes op ++ rest) →
      Split G L m xs op rest c' := by
  induction h with
  | nil =>
    intro xs bs rest op _ he
    have := congrArg List.length he
    have := List.length_pos_iff.mpr (bytes_ne_nil op)
    simp at *
    omega
  | operand h1 h2 _ ih =>
    intro xs bs rest op hs he
    obtain ⟨ys, cs, rfl, rfl, h4, h5⟩ := seq_operand h1 hs he
    exact split_cons h2 (ih h4 h5)
  | operator h1 h2 h3 h4 ih =>
    intro xs bs rest op hs he
    obtain ⟨rfl, rfl, rfl, rfl⟩ := seq_bytes hs he
    exact .operator h1 h2 h3 .nil rfl h4
  | mask h1 h2 h3 ih =>
    intro xs bs rest op hs he
    rw [List.append_assoc] at he
    obtain ⟨rfl, rfl, rfl, rfl⟩ := seq_bytes hs he
    exact .mask h1 h2 .nil rfl (List.append_assoc _ _ _) h3
  | callLocal h1 h2 h3 h4 ih =>
    intro xs bs rest op hs he
    obtain ⟨x, n, o, k, e⟩ := h1
    obtain ⟨x', n', o', k', e'⟩ := h2
    obtain ⟨ys, cs, rfl, rfl, h5, h6⟩ := seq_operand o hs he
    obtain ⟨rfl, rfl, rfl, rfl⟩ := seq_bytes h5 h6
    exact .callLocal (ys := []) (bs' := _ ++ []) rfl rfl (.cons o' .nil) (by simp) h4 (operand_wf o) k e k' e' h3
  | callGlobal h1 h2 h3 h4 ih =>
    intro xs bs rest op hs he
    obtain ⟨x, n, o, k, e⟩ := h1
    obtain ⟨x', n', o', k', e'⟩ := h2
    obtain ⟨ys, cs, rfl, rfl, h5, h6⟩ := seq_operand o hs he
    obtain ⟨rfl, rfl, rfl, rfl⟩ := seq_bytes h5 h6
    exact .callGlobal (ys := []) (bs' := _ ++ []) rfl rfl (.cons o' .nil) (by simp) h4 (operand_wf o) k e k' e' h3

/-! ## States -/

/-- States that differ in the numbers of subroutines only. -/
structure Paired (G L : Renumbering) (m : Nat) (σ σ' : State) : Prop where
  code : Renumbered G L m σ.code σ'.code
  callers : List.Forall₂ (Renumbered G L m) σ.callers σ'.callers
  global : σ.global = G.before ∧ σ'.global = G.after
  «local» : σ.local = L.before ∧ σ'.local = L.after
  stack : σ'.stack = σ.stack
  stems : σ'.stems = σ.stems
  width : σ'.width = σ.width

theorem paired_undo {σ σ' : State} (h : Paired G L m σ σ') : Paired G.undo L.undo m σ' σ where
  code := renumbered_undo h.code
  callers := by
    have : List.Forall₂ (fun a b => Renumbered G.undo L.undo m b a) σ.callers σ'.callers :=
      h.callers.imp fun _ _ => renumbered_undo
    exact this.flip
  global := ⟨h.global.2, h.global.1⟩
  «local» := ⟨h.local.2, h.local.1⟩
  stack := h.stack.symm
  stems := h.stems.symm
  width := h.width.symm

theorem paired_pushes {σ σ' υ : State} (h : Paired G L m σ σ') (hp : Pushes σ υ) {op : Operator} {rest : List UInt8}
    (hc : υ.code = bytes op ++ rest) : ∃ xs, υ = { σ with code := bytes op ++ rest, stack := σ.stack ++ xs } ∧
      Split G L m xs op rest σ'.code := by
  obtain ⟨xs, bs, h1, h2, h3⟩ := pushes_iff.mp hp
  rw [hc] at h2 h3
  exact ⟨xs, h3, renumbered_split h.code h1 h2⟩

theorem pushed {σ' : State} {xs : List F32} {bs c : List UInt8} (h1 : Seq Operand xs bs) (h2 : σ'.code = bs ++ c) :
    Pushes σ' { σ' with code := c, stack := σ'.stack ++ xs } :=
  pushes_iff.mpr ⟨xs, bs, h1, h2, rfl⟩

theorem stackOp_else {c : Bool} {op : Operator} {st st' : List F32} (h : StackOp c op st st') :
    ¬ Mask op ∧ op ≠ .opCallSubr ∧ op ≠ .opCallGSubr := by
  cases h <;> decide

theorem paired_turn {c : Bool} (hcon : Consistent G L m) {σ σ' τ : State} (h : Paired G L m σ σ') (ht : Turn c σ τ) :
    ∃ τ', Turn c σ' τ' ∧ Paired G L m τ τ' := by
  obtain ⟨υ, hp, hq⟩ := ht
  obtain ⟨op, rest, hc⟩ := quiet_code hq
  obtain ⟨xs, rfl, hs⟩ := paired_pushes h hp hc
  obtain ⟨h1, h2, h3, h4, h5, h6, h7⟩ := h
  cases hq with
  | stack e k =>
    obtain ⟨rfl, rfl⟩ := bytes_unique e
    cases hs with
    | operator _ _ _ p1 p2 p3 =>
      refine ⟨_, ⟨_, pushed p1 p2, .stack rfl ?_⟩, ⟨p3, h2, h3, h4, rfl, h6, h7⟩⟩
      dsimp only
      rw [h5]
      exact k
    | mask hm => exact absurd hm (stackOp_else k).1
    | callLocal e => exact absurd e (stackOp_else k).2.1
    | callGlobal e => exact absurd e (stackOp_else k).2.2
  | callLocal e e1 e2 e3 e4 =>
    obtain ⟨rfl, rfl⟩ := bytes_unique e
    cases hs with
    | operator _ k => exact absurd rfl k
    | mask hm => simp [Mask] at hm
    | callLocal _ p1 p2 p3 p4 p5 p6 p7 p8 p9 p10 =>
      subst p1
      dsimp only at e1 e3 e4
      rw [← List.append_assoc] at e1
      obtain ⟨rfl, rfl⟩ := snoc_inj e1
      obtain rfl := intArg_unique p5 e2 p6
      rw [h4.1] at e3 e4
      obtain rfl : _ = _ := Int.ofNat_inj.mp (e3.symm.trans p7)
      obtain ⟨b, b', q1, q2, q3⟩ := hcon L (by simp) _ _ p10
      obtain rfl := Option.some.inj (e4.symm.trans q1)
      refine ⟨_, ⟨_, pushed p2 p3, .callLocal rfl (by dsimp only; rw [← List.append_assoc]) p8 (by dsimp only; rw [h4.2]; exact p9)
        (by dsimp only; rw [h4.2]; exact q2)⟩, ⟨q3, .cons p4 h2, h3, h4, ?_, h6, h7⟩⟩
      dsimp only
      rw [h5]
    | callGlobal e => cases e
  | callGlobal e e1 e2 e3 e4 =>
    obtain ⟨rfl, rfl⟩ := bytes_unique e
    cases hs with
    | operator _ _ k => exact absurd rfl k
    | mask hm => simp [Mask] at hm
    | callGlobal _ p1 p2 p3 p4 p5 p6 p7 p8 p9 p10 =>
      subst p1
      dsimp only at e1 e3 e4
      rw [← List.append_assoc] at e1
      obtain ⟨rfl, rfl⟩ := snoc_inj e1
      obtain rfl := intArg_unique p5 e2 p6
      rw [h3.1] at e3 e4
      obtain rfl : _ = _ := Int.ofNat_inj.mp (e3.symm.trans p7)
      obtain ⟨b, b', q1, q2, q3⟩ := hcon G (by simp) _ _ p10
      obtain rfl := Option.some.inj (e4.symm.trans q1)
      refine ⟨_, ⟨_, pushed p2 p3, .callGlobal rfl (by dsimp only; rw [← List.append_assoc]) p8 (by dsimp only; rw [h3.2]; exact p9)
        (by dsimp only; rw [h3.2]; exact q2)⟩, ⟨q3, .cons p4 h2, h3, h4, ?_, h6, h7⟩⟩
      dsimp only
      rw [h5]
    | callLocal e => cases e
  | «return» e e1 =>
    obtain ⟨rfl, rfl⟩ := bytes_unique e
    cases hs with
    | operator _ _ _ p1 p2 p3 =>
      dsimp only at e1
      rw [e1] at h2
      obtain ⟨d, ds, h8, h9, h10⟩ := List.forall₂_cons_left_iff.mp h2
      exact ⟨_, ⟨_, pushed p1 p2, .return rfl h10⟩, ⟨h8, h9, h3, h4, by dsimp only; rw [h5], h6, h7⟩⟩
    | mask hm => simp [Mask] at hm
    | callLocal e => cases e
    | callGlobal e => cases e

theorem paired_turns {c : Bool} (hcon : Consistent G L m) {σ σ' τ : State} (h : Paired G L m σ σ') (ht : Turns c σ τ) :
    ∃ τ', Turns c σ' τ' ∧ Paired G L m τ τ' := by
  induction ht with
  | refl => exact ⟨σ', .refl, h⟩
  | tail _ ht ih =>
    obtain ⟨υ', h1, h2⟩ := ih
    obtain ⟨τ', h3, h4⟩ := paired_turn hcon h2 ht
    exact ⟨τ', .tail h1 h3, h4⟩

theorem paired_emit {σ σ' υ τ : State} {o : Operation} (h : Paired G L m σ σ') (hp : Pushes σ υ) (he : Emit υ o τ)
    (hm : Mask o.1 → (τ.stems + 7) / 8 = m) : ∃ υ' τ', Pushes σ' υ' ∧ Emit υ' o τ' ∧ Paired G L m τ τ' := by
  obtain ⟨rest, hc⟩ := emit_code he
  obtain ⟨xs, rfl, hs⟩ := paired_pushes h hp hc
  obtain ⟨h1, h2, h3, h4, h5, h6, h7⟩ := h
  cases he with
  | path k e e1 =>
    obtain ⟨-, rfl⟩ := bytes_unique e
    cases hs with
    | operator _ _ _ p1 p2 p3 =>
      refine ⟨_, _, pushed p1 p2, .path k rfl (by dsimp only; rw [h5]; exact e1), ⟨p3, h2, h3, h4, rfl, h6, ?_⟩⟩
      dsimp only
      rw [h7]
    | mask hm => dsimp only [Mask] at hm; simp only [List.mem_cons, List.not_mem_nil, or_false] at hm; rcases hm with rfl | rfl <;> simp [Path] at k
    | callLocal e => dsimp only at e; subst e; simp [Path] at k
    | callGlobal e => dsimp only at e; subst e; simp [Path] at k
  | stem k e e1 =>
    obtain ⟨-, rfl⟩ := bytes_unique e
    cases hs with
    | operator _ _ _ p1 p2 p3 =>
      refine ⟨_, _, pushed p1 p2, .stem k rfl (by dsimp only; rw [h5]; exact e1), ⟨p3, h2, h3, h4, rfl, ?_, ?_⟩⟩
      · dsimp only
        rw [h5, h6]
      · dsimp only
        rw [h7]
    | mask hm => dsimp only [Mask] at hm; simp only [List.mem_cons, List.not_mem_nil, or_false] at hm; rcases hm with rfl | rfl <;> simp [Stem] at k
    | callLocal e => dsimp only at e; subst e; simp [Stem] at k
    | callGlobal e => dsimp only at e; subst e; simp [Stem] at k
  | mask k e e1 =>
    rw [List.append_assoc] at e
    obtain ⟨-, rfl⟩ := bytes_unique e
    cases hs with
    | operator k' => exact absurd k k'
    | mask _ p0 p1 p2 p3 p4 =>
      have hm := hm k
      dsimp only at hm e1
      rw [hm] at e1
      obtain ⟨rfl, rfl⟩ := List.append_inj p2 (e1.trans p0.symm)
      refine ⟨_, _, pushed p1 p3, .mask k (List.append_assoc _ _ _).symm ?_, ⟨p4, h2, h3, h4, rfl, ?_, ?_⟩⟩
      · dsimp only
        rw [h5, h6, hm, e1]
      · dsimp only
        rw [h5, h6]
      · dsimp only
        rw [h5, h7]
    | callLocal e => dsimp only at e; subst e; simp [Mask] at k
    | callGlobal e => dsimp only at e; subst e; simp [Mask] at k

theorem paired_frames {k : Nat} {main : List UInt8} : ∀ {l l' : List (List UInt8)}, List.Forall₂ (Renumbered G L m) l l' →
    l = List.replicate k [] ++ [main] → ∃ main', l' = List.replicate k [] ++ [main'] ∧ Renumbered G L m main main' := by
  induction k with
  | zero =>
    rintro l l' h rfl
    obtain ⟨d, ds, h1, h2, rfl⟩ := List.forall₂_cons_left_iff.mp h
    cases h2
    exact ⟨d, rfl, h1⟩
  | succ k ih =>
    rintro l l' h rfl
    obtain ⟨d, ds, h1, h2, rfl⟩ := List.forall₂_cons_left_iff.mp h
    obtain ⟨main', rfl, h3⟩ := ih h2 rfl
    obtain rfl := renumbered_nil h1
    exact ⟨main', rfl, h3⟩

theorem paired_end {σ σ' υ τ : State} (h : Paired G L m σ σ') (hp : Pushes σ υ) (he : End υ τ) :
    ∃ υ' τ', Pushes σ' υ' ∧ End υ' τ' ∧ Paired G L m τ τ' := by
  obtain ⟨rest, hc⟩ := end_code he
  obtain ⟨xs, rfl, hs⟩ := paired_pushes h hp hc
  obtain ⟨h1, h2, h3, h4, h5, h6, h7⟩ := h
  cases he with
  | endchar e e1 =>
    obtain ⟨-, rfl⟩ := bytes_unique e
    cases hs with
    | operator _ _ _ p1 p2 p3 =>
      obtain ⟨main', h8, h9⟩ := paired_frames (.cons p3 h2) e1
      refine ⟨_, _, pushed p1 p2, .endchar rfl h8, ⟨h9, .nil, h3, h4, ?_, h6, ?_⟩⟩
      · dsimp only
        rw [h5]
      · dsimp only
        rw [h5, h7]
    | mask hm => simp [Mask] at hm
    | callLocal e => cases e
    | callGlobal e => cases e

theorem paired_empty {σ σ' : State} (h : Paired G L m σ σ') : σ.code = [] ↔ σ'.code = [] :=
  ⟨fun e => renumbered_nil (e ▸ h.code), fun e => renumbered_nil (e ▸ renumbered_undo h.code)⟩

theorem paired_yields {c : Bool} (hcon : Consistent G L m) {σ σ' τ : State} {o : Operation} (h : Paired G L m σ σ')
    (hy : Yields c σ o τ) (hm : Mask o.1 → (τ.stems + 7) / 8 = m) : ∃ τ', Yields c σ' o τ' ∧ Paired G L m τ τ' := by
  obtain ⟨τ1, υ, h1, h2, h3⟩ := hy
  obtain ⟨τ2, h4, h5⟩ := paired_turns hcon h h1
  obtain ⟨υ', τ', h6, h7, h8⟩ := paired_emit h5 h2 h3 hm
  exact ⟨τ', ⟨τ2, υ', h4, h6, h7⟩, h8⟩

theorem paired_ends {c : Bool} (hcon : Consistent G L m) {σ σ' τ : State} (h : Paired G L m σ σ')
    (he : Ends c σ τ) : ∃ τ', Ends c σ' τ' ∧ Paired G L m τ τ' := by
  obtain ⟨τ1, h1, ⟨h2, rfl⟩ | ⟨υ, h2, h3⟩⟩ := he
  · obtain ⟨τ2, h4, h5⟩ := paired_turns hcon h h1
    exact ⟨τ2, ⟨τ2, h4, .inl ⟨(paired_empty h5).mp h2, rfl⟩⟩, h5⟩
  · obtain ⟨τ2, h4, h5⟩ := paired_turns hcon h h1
    obtain ⟨υ', τ', h6, h7, h8⟩ := paired_end h5 h2 h3
    exact ⟨τ', ⟨τ2, h4, .inr ⟨υ', h6, h7⟩⟩, h8⟩

end PS.Type2
