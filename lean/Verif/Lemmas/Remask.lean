import Verif.Spec.Remask
import Verif.Props.Renumber
import Verif.Lemmas.Uncalled
import Verif.Lemmas.Thin
/-!
# Lemmas: code with other masks
-/
namespace PS.Type2.Remask
open PS.Spec hiding Operand Operation
open PS.Type2.Spec

variable {m : Nat}

theorem remasked_undo {a b : List UInt8} (h : Remasked m a b) : Remasked m b a := by
  induction h with
  | same r => exact .same r
  | operand h1 h2 _ ih => exact .operand h2 h1 ih
  | operator h1 _ ih => exact .operator h1 ih
  | mask h1 h2 h3 _ ih => exact .mask h1 h3 h2 ih

theorem remasked_nil {b : List UInt8} (h : Remasked m [] b) : b = [] := by
  have key : ∀ {a b}, Remasked m a b → a = [] → b = [] := by
    intro a b h ha
    cases h with
    | same => exact ha
    | operand h1 => exact absurd (List.append_eq_nil_iff.mp ha).1 (operand_ne_nil h1)
    | operator => exact absurd (List.append_eq_nil_iff.mp ha).1 (bytes_ne_nil _)
    | mask => exact absurd (List.append_eq_nil_iff.mp ha).1 (bytes_ne_nil _)
  exact key h rfl

theorem forall₂_undo {l l' : List (List UInt8)} (h : List.Forall₂ (Remasked m) l l') : List.Forall₂ (Remasked m) l' l := by
  have : List.Forall₂ (fun a b => Remasked m b a) l l' := h.imp fun _ _ => remasked_undo
  exact this.flip

theorem forall₂_get {l l' : List (List UInt8)} (h : List.Forall₂ (Remasked m) l l') :
    ∀ {i : Nat} {b : List UInt8}, l[i]? = some b → ∃ b', l'[i]? = some b' ∧ Remasked m b b' := by
  induction h with
  | nil => simp
  | @cons a a' _ _ h1 _ ih =>
    intro i b hb
    rcases i with _ | i
    · obtain rfl : a = b := by simpa using hb
      exact ⟨a', rfl, h1⟩
    · exact ih (by simpa using hb)

/-- What follows the operands on the one side is what follows them on the other. -/
inductive Split (m : Nat) (xs : List F32) (op : Operator) (rest c' : List UInt8) : Prop
  | operator {bs' r'} : ¬ Mask op ∨ r' = rest → Seq Operand xs bs' → c' = bs' ++ (bytes op ++ r') → Remasked m rest r' →
    Split m xs op rest c'
  | mask {bs' mask mask' r r'} : Mask op → mask.length = m → mask'.length = m → Seq Operand xs bs' → rest = mask ++ r →
    c' = bs' ++ (bytes op ++ (mask' ++ r')) → Remasked m r r' → Split m xs op rest c'

theorem split_cons {x : F32} {b : List UInt8} (hx : Operand x b) {xs : List F32} {op : Operator} {rest c' : List UInt8}
    (h : Split m xs op rest c') : Split m (x :: xs) op rest (b ++ c') := by
  cases h with
  | operator h1 h4 h5 h6 => exact .operator h1 (.cons hx h4) (by rw [h5, List.append_assoc]) h6
  | mask h1 h2 h0 h3 h4 h5 h6 => exact .mask h1 h2 h0 (.cons hx h3) h4 (by rw [h5, List.append_assoc]) h6

theorem remasked_split {c c' : List UInt8} (h : Remasked m c c') :
    ∀ {xs : List F32} {bs rest : List UInt8} {op : Operator}, Seq Operand xs bs → c = bs ++ (bytes op ++ rest) →
      Split m xs op rest c' := by
  induction h with
  | same r =>
    intro xs bs rest op hs he
    exact .operator (.inr rfl) hs he (.same _)
  | operand h1 h2 _ ih =>
    intro xs bs rest op hs he
    obtain ⟨ys, cs, rfl, rfl, h4, h5⟩ := seq_operand h1 hs he
    exact split_cons h2 (ih h4 h5)
  | operator h1 h4 ih =>
    intro xs bs rest op hs he
    obtain ⟨rfl, rfl, rfl, rfl⟩ := seq_bytes hs he
    exact .operator (.inl h1) .nil rfl h4
  | mask h1 h2 h0 h3 ih =>
    intro xs bs rest op hs he
    obtain ⟨rfl, rfl, rfl, rfl⟩ := seq_bytes hs he
    exact .mask h1 h2 h0 .nil rfl rfl h3

/-! ## States -/

/-- States that differ in masks only. -/
structure Alike (m : Nat) (σ σ' : State) : Prop where
  code : Remasked m σ.code σ'.code
  callers : List.Forall₂ (Remasked m) σ.callers σ'.callers
  global : List.Forall₂ (Remasked m) σ.global σ'.global
  «local» : List.Forall₂ (Remasked m) σ.local σ'.local
  stack : σ'.stack = σ.stack
  stems : σ'.stems = σ.stems
  width : σ'.width = σ.width

theorem alike_undo {σ σ' : State} (h : Alike m σ σ') : Alike m σ' σ where
  code := remasked_undo h.code
  callers := forall₂_undo h.callers
  global := forall₂_undo h.global
  «local» := forall₂_undo h.local
  stack := h.stack.symm
  stems := h.stems.symm
  width := h.width.symm

theorem alike_pushes {σ σ' υ : State} (h : Alike m σ σ') (hp : Pushes σ υ) {op : Operator} {rest : List UInt8}
    (hc : υ.code = bytes op ++ rest) : ∃ xs, υ = { σ with code := bytes op ++ rest, stack := σ.stack ++ xs } ∧
      Split m xs op rest σ'.code := by
  obtain ⟨xs, bs, h1, h2, h3⟩ := pushes_iff.mp hp
  rw [hc] at h2 h3
  exact ⟨xs, h3, remasked_split h.code h1 h2⟩

theorem alike_turn {c : Bool} {σ σ' τ : State} (h : Alike m σ σ') (ht : Turn c σ τ) : ∃ τ', Turn c σ' τ' ∧ Alike m τ τ' := by
  obtain ⟨υ, hp, hq⟩ := ht
  obtain ⟨op, rest, hc⟩ := quiet_code hq
  obtain ⟨xs, rfl, hs⟩ := alike_pushes h hp hc
  obtain ⟨h1, h2, h3, h4, h5, h6, h7⟩ := h
  cases hq with
  | stack e k =>
    obtain ⟨rfl, rfl⟩ := bytes_unique e
    cases hs with
    | operator _ p1 p2 p3 =>
      refine ⟨_, ⟨_, pushed p1 p2, .stack rfl ?_⟩, ⟨p3, h2, h3, h4, rfl, h6, h7⟩⟩
      dsimp only
      rw [h5]
      exact k
    | mask hm => exact absurd hm (stackOp_else k).1
  | callLocal e e1 e2 e3 e4 =>
    obtain ⟨rfl, rfl⟩ := bytes_unique e
    cases hs with
    | operator _ p1 p2 p3 =>
      obtain ⟨b', q1, q2⟩ := forall₂_get h4 e4
      exact ⟨_, ⟨_, pushed p1 p2, .callLocal rfl (by dsimp only at e1 ⊢; rw [h5]; exact e1) e2
        (by dsimp only at e3 ⊢; rw [← h4.length_eq]; exact e3) q1⟩, ⟨q2, .cons p3 h2, h3, h4, rfl, h6, h7⟩⟩
    | mask hm => simp [Mask] at hm
  | callGlobal e e1 e2 e3 e4 =>
    obtain ⟨rfl, rfl⟩ := bytes_unique e
    cases hs with
    | operator _ p1 p2 p3 =>
      obtain ⟨b', q1, q2⟩ := forall₂_get h3 e4
      exact ⟨_, ⟨_, pushed p1 p2, .callGlobal rfl (by dsimp only at e1 ⊢; rw [h5]; exact e1) e2
        (by dsimp only at e3 ⊢; rw [← h3.length_eq]; exact e3) q1⟩, ⟨q2, .cons p3 h2, h3, h4, rfl, h6, h7⟩⟩
    | mask hm => simp [Mask] at hm
  | «return» e e1 =>
    obtain ⟨rfl, rfl⟩ := bytes_unique e
    cases hs with
    | operator _ p1 p2 p3 =>
      dsimp only at e1
      rw [e1] at h2
      obtain ⟨d, ds, h8, h9, h10⟩ := List.forall₂_cons_left_iff.mp h2
      exact ⟨_, ⟨_, pushed p1 p2, .return rfl h10⟩, ⟨h8, h9, h3, h4, by dsimp only; rw [h5], h6, h7⟩⟩
    | mask hm => simp [Mask] at hm

theorem alike_turns {c : Bool} {σ σ' τ : State} (h : Alike m σ σ') (ht : Turns c σ τ) : ∃ τ', Turns c σ' τ' ∧ Alike m τ τ' := by
  induction ht with
  | refl => exact ⟨σ', .refl, h⟩
  | tail _ ht ih =>
    obtain ⟨υ', h1, h2⟩ := ih
    obtain ⟨τ', h3, h4⟩ := alike_turn h2 ht
    exact ⟨τ', .tail h1 h3, h4⟩

theorem alike_emit {σ σ' υ τ : State} {o : Operation} (h : Alike m σ σ') (hp : Pushes σ υ) (he : Emit υ o τ)
    (hm : Mask o.1 → (τ.stems + 7) / 8 = m) : ∃ υ' τ', Pushes σ' υ' ∧ Emit υ' o τ' ∧ Alike m τ τ' := by
  obtain ⟨rest, hc⟩ := emit_code he
  obtain ⟨xs, rfl, hs⟩ := alike_pushes h hp hc
  obtain ⟨h1, h2, h3, h4, h5, h6, h7⟩ := h
  cases he with
  | path k e e1 =>
    obtain ⟨-, rfl⟩ := bytes_unique e
    cases hs with
    | operator _ p1 p2 p3 =>
      refine ⟨_, _, pushed p1 p2, .path k rfl (by dsimp only; rw [h5]; exact e1), ⟨p3, h2, h3, h4, rfl, h6, ?_⟩⟩
      dsimp only
      rw [h7]
    | mask hm => dsimp only [Mask] at hm; simp only [List.mem_cons, List.not_mem_nil, or_false] at hm; rcases hm with rfl | rfl <;> simp [Path] at k
  | stem k e e1 =>
    obtain ⟨-, rfl⟩ := bytes_unique e
    cases hs with
    | operator _ p1 p2 p3 =>
      refine ⟨_, _, pushed p1 p2, .stem k rfl (by dsimp only; rw [h5]; exact e1), ⟨p3, h2, h3, h4, rfl, ?_, ?_⟩⟩
      · dsimp only
        rw [h5, h6]
      · dsimp only
        rw [h7]
    | mask hm => dsimp only [Mask] at hm; simp only [List.mem_cons, List.not_mem_nil, or_false] at hm; rcases hm with rfl | rfl <;> simp [Stem] at k
  | @mask _ mask rest' k e e1 =>
    rw [List.append_assoc] at e
    obtain ⟨-, rfl⟩ := bytes_unique e
    cases hs with
    | operator k' p1 p2 p3 =>
      obtain rfl := k'.resolve_left (not_not_intro k)
      refine ⟨_, _, pushed p1 p2, .mask k (List.append_assoc _ _ _).symm ?_, ⟨.same _, h2, h3, h4, rfl, ?_, ?_⟩⟩
      · dsimp only at e1 ⊢
        rw [h5, h6, e1]
      · dsimp only
        rw [h5, h6]
      · dsimp only
        rw [h5, h7]
    | mask _ p0 p0' p1 p2 p3 p4 =>
      have hm := hm k
      dsimp only at hm e1
      rw [hm] at e1
      obtain ⟨rfl, rfl⟩ := List.append_inj p2 (e1.trans p0.symm)
      refine ⟨_, _, pushed p1 p3, .mask k (List.append_assoc _ _ _).symm ?_, ⟨p4, h2, h3, h4, rfl, ?_, ?_⟩⟩
      · dsimp only
        rw [h5, h6, hm, p0']
      · dsimp only
        rw [h5, h6]
      · dsimp only
        rw [h5, h7]

theorem alike_frames {k : Nat} {main : List UInt8} : ∀ {l l' : List (List UInt8)}, List.Forall₂ (Remasked m) l l' →
    l = List.replicate k [] ++ [main] → ∃ main', l' = List.replicate k [] ++ [main'] ∧ Remasked m main main' := by
  induction k with
  | zero =>
    rintro l l' h rfl
    obtain ⟨d, ds, h1, h2, rfl⟩ := List.forall₂_cons_left_iff.mp h
    cases h2
    exact ⟨d, rfl, h1⟩
  | succ k ih =>
    rintro l l' h rfl
    obtain ⟨d, ds, h1, h2, rfl⟩ := List.forall₂_cons_left_iff.mp h
    obtain ⟨main', rfl, h3⟩ := ih h2 rfl
    obtain rfl := remasked_nil h1
    exact ⟨main', rfl, h3⟩

theorem alike_end {σ σ' υ τ : State} (h : Alike m σ σ') (hp : Pushes σ υ) (he : End υ τ) :
    ∃ υ' τ', Pushes σ' υ' ∧ End υ' τ' ∧ Alike m τ τ' := by
  obtain ⟨rest, hc⟩ := end_code he
  obtain ⟨xs, rfl, hs⟩ := alike_pushes h hp hc
  obtain ⟨h1, h2, h3, h4, h5, h6, h7⟩ := h
  cases he with
  | endchar e e1 =>
    obtain ⟨-, rfl⟩ := bytes_unique e
    cases hs with
    | operator _ p1 p2 p3 =>
      obtain ⟨main', h8, h9⟩ := alike_frames (.cons p3 h2) e1
      refine ⟨_, _, pushed p1 p2, .endchar rfl h8, ⟨h9, .nil, h3, h4, ?_, h6, ?_⟩⟩
      · dsimp only
        rw [h5]
      · dsimp only
        rw [h5, h7]
    | mask hm => simp [Mask] at hm

theorem alike_empty {σ σ' : State} (h : Alike m σ σ') : σ.code = [] ↔ σ'.code = [] :=
  ⟨fun e => remasked_nil (e ▸ h.code), fun e => remasked_nil (e ▸ remasked_undo h.code)⟩

theorem alike_yields {c : Bool} {σ σ' τ : State} {o : Operation} (h : Alike m σ σ') (hy : Yields c σ o τ)
    (hm : Mask o.1 → (τ.stems + 7) / 8 = m) : ∃ τ', Yields c σ' o τ' ∧ Alike m τ τ' := by
  obtain ⟨τ1, υ, h1, h2, h3⟩ := hy
  obtain ⟨τ2, h4, h5⟩ := alike_turns h h1
  obtain ⟨υ', τ', h6, h7, h8⟩ := alike_emit h5 h2 h3 hm
  exact ⟨τ', ⟨τ2, υ', h4, h6, h7⟩, h8⟩

theorem alike_ends {c : Bool} {σ σ' τ : State} (h : Alike m σ σ') (he : Ends c σ τ) : ∃ τ', Ends c σ' τ' ∧ Alike m τ τ' := by
  obtain ⟨τ1, h1, ⟨h2, rfl⟩ | ⟨υ, h2, h3⟩⟩ := he
  · obtain ⟨τ2, h4, h5⟩ := alike_turns h h1
    exact ⟨τ2, ⟨τ2, h4, .inl ⟨(alike_empty h5).mp h2, rfl⟩⟩, h5⟩
  · obtain ⟨τ2, h4, h5⟩ := alike_turns h h1
    obtain ⟨υ', τ', h6, h7, h8⟩ := alike_end h5 h2 h3
    exact ⟨τ', ⟨τ2, h4, .inr ⟨υ', h6, h7⟩⟩, h8⟩

/-- Both are at a mask if one is. -/
theorem alike_at_mask {σ σ' υ' : State} (h : Alike m σ σ') (hp : Pushes σ' υ') {op : Operator}
    {rest : List UInt8} (hc : υ'.code = bytes op ++ rest) :
    ∃ υ rest, Pushes σ υ ∧ υ.code = bytes op ++ rest ∧ υ.stack = υ'.stack ∧ υ.stems = υ'.stems := by
  obtain ⟨xs, rfl, hs⟩ := alike_pushes (alike_undo h) hp hc
  cases hs with
  | operator _ p1 p3 => exact ⟨_, _, pushed p1 p3, rfl, by dsimp only; rw [h.stack], h.stems.symm⟩
  | mask _ _ _ p1 _ p3 _ => exact ⟨_, _, pushed p1 p3, rfl, by dsimp only; rw [h.stack], h.stems.symm⟩

theorem alike_executes {c : Bool} {σ' τ' : State} {l : List Observation} (he : Executes c σ' l τ') : ∀ {σ : State}, Alike m σ σ' →
    Masks c σ m → ∃ τ, Executes c σ l τ ∧ Alike m τ τ' := by
  induction he with
  | nil ht =>
    intro σ h _
    obtain ⟨τ, h1, h2⟩ := alike_turns (alike_undo h) ht
    exact ⟨τ, .nil h1, alike_undo h2⟩
  | @cons σ' τ' υ' σ1 σ2 o l ht hp hem _ ih =>
    intro σ h hm
    obtain ⟨τ, h1, h2⟩ := alike_turns (alike_undo h) ht
    obtain ⟨υ, τ1, h3, h4, h5⟩ := alike_emit h2 hp hem fun ho => by
      rw [emit_mask hem ho]
      obtain ⟨rest, hc⟩ := emit_code hem
      obtain ⟨υ, rest, k1, k2, k3, k4⟩ := alike_at_mask (alike_undo h2) hp hc
      rw [← k3, ← k4]
      exact hm [] τ υ _ rest (.nil h1) k1 ho k2
    obtain ⟨τ2, h6, h7⟩ := ih (alike_undo h5) (masks_yields hm ⟨τ, υ, h1, h3, h4⟩).1
    refine ⟨τ2, ?_, h7⟩
    have := Executes.cons h1 h3 h4 h6
    rwa [show τ1.width = σ1.width from h5.width, show τ1.stems = σ1.stems from h5.stems] at this

/-- Masks are as long on the other side. -/
theorem masks_alike {c : Bool} {σ σ' : State} (h : Alike m σ σ') (hm : Masks c σ m) : Masks c σ' m := by
  intro l τ' υ' op rest he hp ho hc
  obtain ⟨τ, h1, h2⟩ := alike_executes he h hm
  obtain ⟨υ, rest, k1, k2, k3, k4⟩ := alike_at_mask h2 hp hc
  rw [← k3, ← k4]
  exact hm l τ υ op rest h1 k1 ho k2

theorem alike_run {cfg : Config} {s : Program} {x : List Observation} {out : Outcome} (hr : Run cfg s x out) :
    ∀ {s' : Program}, Sound s → Sound s' → Alike m (view s) (view s') → Masks cfg.checks (view s) m → Run cfg s' x out := by
  induction hr with
  | @ended s t hn =>
    intro s' hs hs' h hm
    obtain ⟨h1, _⟩ := next_ends hs hn
    obtain ⟨τ', h2, h3⟩ := alike_ends h h1
    obtain ⟨t', h4, h5, _⟩ := ends_next hs' h2
    rw [show t.width = t'.width by rw [show t'.width = τ'.width from congrArg State.width h5, h3.width]; rfl]
    exact .ended h4
  | @failed s r t hn hne =>
    intro s' hs hs' h hm
    have h1 : ∃ s', (∃ e, Next cfg s (.err e) s') ∨ ∃ x, Next cfg s (.panic x) s' := by
      rcases r with o | e | x
      · exact absurd rfl (hne o)
      · exact ⟨t, .inl ⟨e, hn⟩⟩
      · exact ⟨t, .inr ⟨x, hn⟩⟩
    obtain ⟨τ, h2, h3, h4⟩ := (C54_failure_iff hs).mp h1
    obtain ⟨τ', h5, h6⟩ := alike_turns h h2
    have hu := alike_undo h6
    have hm' := masks_alike h6 (masks_turns hm h2)
    obtain ⟨t', ⟨e, h7⟩ | ⟨x, h7⟩⟩ := (C54_failure_iff hs').mpr ⟨τ', h5, fun e => h3 ((alike_empty h6).mpr e), by
      refine fun υ' hp => ⟨fun σ hq => ?_, fun o σ he => ?_, fun σ he => ?_⟩
      · obtain ⟨_, ⟨υ, k1, k2⟩, _⟩ := alike_turn hu ⟨υ', hp, hq⟩
        exact (h4 υ k1).1 _ k2
      · obtain ⟨υ, _, k1, k2, _⟩ := alike_emit hu hp he (masks_yields hm' ⟨τ', υ', .refl, hp, he⟩).2
        exact (h4 υ k1).2.1 _ _ k2
      · obtain ⟨υ, _, k1, k2, _⟩ := alike_end hu hp he
        exact (h4 υ k1).2.2 _ k2⟩
    · exact .failed h7 (by simp)
    · exact .failed h7 (by simp)
  | @more s o t l out hn _ ih =>
    intro s' hs hs' h hm
    obtain ⟨h1, ht⟩ := next_yields hs hn
    obtain ⟨hm1, hm2⟩ := masks_yields hm h1
    obtain ⟨τ', h2, h3⟩ := alike_yields h h1 hm2
    obtain ⟨t', h4, h5, h6⟩ := yields_next hs' h2
    rw [show t.width = t'.width by rw [show t'.width = τ'.width from congrArg State.width h5, h3.width]; rfl,
      show t.stems = t'.stems by rw [show t'.stems = τ'.stems from congrArg State.stems h5, h3.stems]; rfl]
    exact .more h4 (ih ht h6 (h5 ▸ h3) hm1)

theorem alike_new {code code' : List UInt8} {global global' «local» local' : List (List UInt8)} (h : Remasked m code code')
    (hg : List.Forall₂ (Remasked m) global global') (hl : List.Forall₂ (Remasked m) «local» local') :
    Alike m (view (Program.new code global «local»)) (view (Program.new code' global' local')) :=
  ⟨by simpa [view, left, Program.new, Routine.new] using h, .nil, hg, hl, rfl, rfl, rfl⟩

/-! ## Subroutines that are called -/

/-- The tables have the same size, and the subroutines `P` differ in masks only. -/
def Tables (m : Nat) (P : Nat → Prop) (l l' : List (List UInt8)) : Prop :=
  l.length = l'.length ∧ ∀ (i : Nat) b b', P i → l[i]? = some b → l'[i]? = some b' → Remasked m b b'

theorem emptied_remasked {P : Nat → Prop} {l l' : List (List UInt8)} (h : Tables m P l l') :
    List.Forall₂ (Remasked m) (emptied P l) (emptied P l') := by
  refine List.forall₂_iff_get.mpr ⟨by rw [emptied_length, emptied_length]; exact h.1, fun i h1 h2 => ?_⟩
  have k1 : i < l.length := by rwa [emptied_length] at h1
  have k2 : i < l'.length := by rwa [emptied_length] at h2
  have e1 := emptied_getElem? P l i
  have e2 := emptied_getElem? P l' i
  rw [List.getElem?_eq_getElem h1, List.getElem?_eq_getElem k1] at e1
  rw [List.getElem?_eq_getElem h2, List.getElem?_eq_getElem k2] at e2
  simp only [Option.map_some, Option.some.injEq] at e1 e2
  rw [List.get_eq_getElem, List.get_eq_getElem, e1, e2]
  by_cases hP : P i
  · rw [if_pos hP, if_pos hP]
    exact h.2 i _ _ hP (List.getElem?_eq_getElem k1) (List.getElem?_eq_getElem k2)
  · rw [if_neg hP, if_neg hP]
    exact .same _

theorem emptied_mem {P : Nat → Prop} {l : List (List UInt8)} {b : List UInt8} (h : b ∈ emptied P l) : b = [] ∨ b ∈ l := by
  obtain ⟨i, hi⟩ := List.getElem?_of_mem h
  rw [emptied_getElem?] at hi
  obtain ⟨b', h1, h2⟩ := Option.map_eq_some_iff.mp hi
  split at h2
  · subst h2
    exact .inr (List.mem_of_getElem? h1)
  · exact .inl h2.symm

theorem emptied_sound {P Q : Nat → Prop} {code : List UInt8} {global «local» : List (List UInt8)}
    (h : Sound (Program.new code global «local»)) : Sound (Program.new code (emptied P global) (emptied Q «local»)) := by
  have h2 : ∀ c ∈ global ++ «local», c.length < 2 ^ 63 := h.subroutines
  have h3 : global.length ≤ 2 ^ 31 ∧ «local».length ≤ 2 ^ 31 := h.counts
  refine sound_new ?_ (fun c hc => ?_) (by rw [emptied_length, emptied_length]; exact h3)
  · simpa [Program.new, Routine.new] using h.size
  · rcases List.mem_append.mp hc with hc | hc
    · rcases emptied_mem hc with rfl | hc
      · simp
      · exact h2 c (List.mem_append_left _ hc)
    · rcases emptied_mem hc with rfl | hc
      · simp
      · exact h2 c (List.mem_append_right _ hc)

theorem swap_masks {c : Bool} {σ : State} {g l : List (List UInt8)} (h : Agreeing c σ g l) (hm : Masks c σ m) :
    Masks c (σ.swap g l) m := by
  intro x τ υ op rest he hp ho hc
  obtain ⟨τ', h1, rfl⟩ := swap_executes he h rfl
  obtain ⟨υ', h2, rfl⟩ := swap_pushes' hp
  exact hm x τ' υ' op rest h1 h2 ho hc

theorem executes_tables {c : Bool} {σ τ : State} {x : List Observation} (he : Executes c σ x τ) :
    τ.global = σ.global ∧ τ.local = σ.local := by
  have turns : ∀ {σ τ}, Turns c σ τ → τ.global = σ.global ∧ τ.local = σ.local := by
    intro σ τ ht
    induction ht with
    | refl => exact ⟨rfl, rfl⟩
    | tail _ h2 ih => exact ⟨(turn_tables h2).1.trans ih.1, (turn_tables h2).2.trans ih.2⟩
  induction he with
  | nil ht => exact turns ht
  | cons ht hp hem _ ih =>
    have e1 := turns ht
    have e2 := emit_tables hp hem
    exact ⟨ih.1.trans (e2.1.trans e1.1), ih.2.trans (e2.2.trans e1.2)⟩

theorem pushes_tables {σ υ : State} (h : Pushes σ υ) : υ.global = σ.global ∧ υ.local = σ.local := by
  obtain ⟨xs, bs, _, _, _, rfl⟩ := pushes_apart h
  exact ⟨rfl, rfl⟩

/-- What the one calls, the other calls. -/
theorem calls_alike {c : Bool} {σ σ' : State} (h : Alike m σ σ') (hm : Masks c σ m) (i : Nat) :
    (CallsGlobal c σ' i → CallsGlobal c σ i) ∧ (CallsLocal c σ' i → CallsLocal c σ i) := by
  constructor
  · rintro ⟨l, τ', υ', rest, st, x, a, h1, h2, h3, h4, h5, h6⟩
    obtain ⟨τ, k1, k2⟩ := alike_executes h1 h hm
    obtain ⟨υ, rest', k3, k4, k5, -⟩ := alike_at_mask k2 h2 h3
    refine ⟨l, τ, υ, rest', st, x, a, k1, k3, k4, k5.trans h4, h5, ?_⟩
    rw [(pushes_tables k3).1, k2.global.length_eq, ← (pushes_tables h2).1]
    exact h6
  · rintro ⟨l, τ', υ', rest, st, x, a, h1, h2, h3, h4, h5, h6⟩
    obtain ⟨τ, k1, k2⟩ := alike_executes h1 h hm
    obtain ⟨υ, rest', k3, k4, k5, -⟩ := alike_at_mask k2 h2 h3
    refine ⟨l, τ, υ, rest', st, x, a, k1, k3, k4, k5.trans h4, h5, ?_⟩
    rw [(pushes_tables k3).2, k2.local.length_eq, ← (pushes_tables h2).2]
    exact h6

theorem calls_swap {c : Bool} {σ : State} {g l : List (List UInt8)} (h : Agreeing c σ g l) (i : Nat) :
    (CallsGlobal c (σ.swap g l) i → CallsGlobal c σ i) ∧ (CallsLocal c (σ.swap g l) i → CallsLocal c σ i) := by
  constructor
  · rintro ⟨x, τ, υ, rest, st, y, a, h1, h2, h3, h4, h5, h6⟩
    obtain ⟨τ', k1, rfl⟩ := swap_executes h1 h rfl
    obtain ⟨υ', k2, rfl⟩ := swap_pushes' h2
    refine ⟨x, τ', υ', rest, st, y, a, k1, k2, h3, h4, h5, ?_⟩
    rw [(pushes_tables k2).1, (executes_tables k1).1, h.globals]
    exact h6
  · rintro ⟨x, τ, υ, rest, st, y, a, h1, h2, h3, h4, h5, h6⟩
    obtain ⟨τ', k1, rfl⟩ := swap_executes h1 h rfl
    obtain ⟨υ', k2, rfl⟩ := swap_pushes' h2
    refine ⟨x, τ', υ', rest, st, y, a, k1, k2, h3, h4, h5, ?_⟩
    rw [(pushes_tables k2).2, (executes_tables k1).2, h.locals]
    exact h6

theorem called_run {cfg : Config} {code code' : List UInt8} {global global' «local» local' : List (List UInt8)}
    (hs : Sound (Program.new code global «local»)) (hs' : Sound (Program.new code' global' local')) (h : Remasked m code code')
    (hg : Tables m (CallsGlobal cfg.checks (view (Program.new code global «local»))) global global')
    (hl : Tables m (CallsLocal cfg.checks (view (Program.new code global «local»))) «local» local')
    (hm : Masks cfg.checks (view (Program.new code global «local»)) m) (x : List Observation) (out : Outcome) :
    Run cfg (Program.new code global «local») x out ↔ Run cfg (Program.new code' global' local') x out := by
  generalize hP : CallsGlobal cfg.checks (view (Program.new code global «local»)) = P at hg
  generalize hQ : CallsLocal cfg.checks (view (Program.new code global «local»)) = Q at hl
  have A1 : Agreeing cfg.checks (view (Program.new code global «local»)) (emptied P global) (emptied Q «local») :=
    ⟨(emptied_length _ _).symm, (emptied_length _ _).symm, fun i hi => (emptied_keeps (by rwa [hP] at hi)).symm,
      fun i hi => (emptied_keeps (by rwa [hQ] at hi)).symm⟩
  have hm1 := swap_masks A1 hm
  have al : Alike m (view (Program.new code (emptied P global) (emptied Q «local»)))
      (view (Program.new code' (emptied P global') (emptied Q local'))) := alike_new h (emptied_remasked hg) (emptied_remasked hl)
  have A2 : Agreeing cfg.checks (view (Program.new code' (emptied P global') (emptied Q local'))) global' local' := by
    refine ⟨emptied_length _ _, emptied_length _ _, fun i hi => emptied_keeps ?_, fun i hi => emptied_keeps ?_⟩
    · rw [← hP]
      exact (calls_swap A1 i).1 ((calls_alike al hm1 i).1 hi)
    · rw [← hQ]
      exact (calls_swap A1 i).2 ((calls_alike al hm1 i).2 hi)
  have s1 : Sound (Program.new code (emptied P global) (emptied Q «local»)) := emptied_sound hs
  have s2 : Sound (Program.new code' (emptied P global') (emptied Q local')) := emptied_sound hs'
  exact ⟨fun hr => swap_run (alike_run (swap_run hr hs s1 A1 rfl) s1 s2 al hm1) s2 hs' A2 rfl,
    fun hr => swap_run (alike_run (swap_run hr hs' s2 (agreeing_symm A2) rfl) s2 s1 (alike_undo al) (masks_alike al hm1)) s1 hs
      (agreeing_symm A1) rfl⟩

/-! ## Programs that end -/

theorem pushes_unique {σ υ υ' : State} (h : Pushes σ υ) {op op' : Operator} {r r' : List UInt8} (hc : υ.code = bytes op ++ r)
    (h' : Pushes σ υ') (hc' : υ'.code = bytes op' ++ r') : υ = υ' := by
  induction h using Relation.ReflTransGen.head_induction_on with
  | refl =>
    rcases Relation.ReflTransGen.cases_head h' with rfl | ⟨ρ, ⟨x, bs, rest, hx, hb, -⟩, -⟩
    · rfl
    · rw [hc] at hb
      exact absurd hb.symm (operand_bytes hx)
  | head h1 h2 ih =>
    obtain ⟨x, bs, rest, hx, hb, rfl⟩ := h1
    rcases Relation.ReflTransGen.cases_head h' with rfl | ⟨ρ, ⟨y, bs', rest', hy, hb', rfl⟩, h3⟩
    · rw [hb] at hc'
      exact absurd hc' (operand_bytes hx)
    · rw [hb] at hb'
      obtain ⟨rfl, rfl, rfl⟩ := operand_unique hx hy hb'
      exact ih h3

/-- At a mask there is nothing else to be executed. -/
theorem mask_turns {c : Bool} {τ υ τ' : State} {op : Operator} {rest : List UInt8} (hp : Pushes τ υ) (ho : Mask op)
    (hc : υ.code = bytes op ++ rest) (ht : Turns c τ τ') : τ' = τ := by
  rcases Relation.ReflTransGen.cases_head ht with h | ⟨ρ, ⟨υ', hp', hq⟩, -⟩
  · exact h.symm
  · exfalso
    obtain ⟨op', rest', hc'⟩ := quiet_code hq
    obtain rfl := pushes_unique hp hc hp' hc'
    cases hq with
    | stack e k =>
      obtain ⟨rfl, -⟩ := bytes_unique (hc.symm.trans e)
      exact (stackOp_else k).1 ho
    | callLocal e =>
      obtain ⟨rfl, -⟩ := bytes_unique (hc.symm.trans e)
      simp [Mask] at ho
    | callGlobal e =>
      obtain ⟨rfl, -⟩ := bytes_unique (hc.symm.trans e)
      simp [Mask] at ho
    | «return» e =>
      obtain ⟨rfl, -⟩ := bytes_unique (hc.symm.trans e)
      simp [Mask] at ho

/-- The masks of a program that ends are those that it shows. -/
theorem ended_masks {cfg : Config} {s : Program} (hs : Sound s) {x : List Observation} {w : Option F32}
    (hr : Run cfg s x (.ended w)) (hm : ∀ o ∈ x, Mask o.1.1 → (o.2.2 + 7) / 8 = m) : Masks cfg.checks (view s) m := by
  have key : ∀ {σ l τ}, Executes cfg.checks σ l τ → ∀ {s x}, view s = σ → Sound s → Run cfg s x (.ended w) →
      (∀ o ∈ x, Mask o.1.1 → (o.2.2 + 7) / 8 = m) → ∀ {υ op rest}, Pushes τ υ → Mask op → υ.code = bytes op ++ rest →
      (υ.stems + υ.stack.length / 2 + 7) / 8 = m := by
    intro σ l τ he
    induction he with
    | @nil σ τ ht =>
      rintro s x rfl hs hr hm υ op rest hp ho hc
      obtain ⟨s1, rfl, hs1, hn⟩ := turns_steps ht rfl hs
      cases hr with
      | ended h =>
        obtain ⟨⟨τ', h1, h2⟩, -⟩ := next_ends hs1 ((hn _ _).mp h)
        obtain rfl := mask_turns hp ho hc h1
        exfalso
        rcases h2 with ⟨h2, -⟩ | ⟨υ', h2, h3⟩
        · obtain ⟨xs, bs, -, h4, -⟩ := pushes_iff.mp hp
          rw [h2, hc] at h4
          exact bytes_ne_nil op (List.append_eq_nil_iff.mp (List.append_eq_nil_iff.mp h4.symm).2).1
        · obtain ⟨rest', hc'⟩ := end_code h3
          obtain rfl := pushes_unique hp hc h2 hc'
          obtain ⟨rfl, -⟩ := bytes_unique (hc.symm.trans hc')
          simp [Mask] at ho
      | @more _ o t l _ h _ =>
        obtain ⟨⟨τ', υ', h1, h2, h3⟩, -⟩ := next_yields hs1 ((hn _ _).mp h)
        obtain rfl := mask_turns hp ho hc h1
        obtain ⟨rest', hc'⟩ := emit_code h3
        obtain rfl := pushes_unique hp hc h2 hc'
        obtain ⟨rfl, -⟩ := bytes_unique (hc.symm.trans hc')
        rw [← emit_mask h3 ho]
        exact hm _ List.mem_cons_self ho
    | @cons σ τ υ σ1 σ2 o l ht hp he _ ih =>
      rintro s x rfl hs hr hm υ' op rest
      obtain ⟨t, h1, h2, h3⟩ := yields_next hs ⟨τ, υ, ht, hp, he⟩
      cases hr with
      | ended h => have := (next_unique h h1).1; simp at this
      | more h h4 =>
        obtain ⟨-, rfl⟩ := next_unique h h1
        exact ih h2 h3 h4 fun o h => hm o (List.mem_cons_of_mem _ h)
  exact fun l τ υ op rest he hp ho hc => key he rfl hs hr hm hp ho hc

end PS.Type2.Remask
