import Verif.Lemmas.Type2Next
/-!
# Lemmas: what happens to the width, in any state
-/
namespace PS.Type2
open PS.Spec hiding Operand Operation
open PS.Type2.Spec

/-- `m` does not touch the width, whatever it returns. -/
def Fix (m : PM α) : Prop := ∀ cfg s, (m cfg s).2.width = s.width

namespace Fix

theorem pure (a : α) : Fix (PM.pure a) := fun _ _ => rfl
theorem raise (r : Reason) : Fix (PM.raise r : PM α) := fun _ _ => rfl
theorem panic (x : Panic) : Fix (PM.panic x : PM α) := fun _ _ => rfl
theorem get : Fix PM.get := fun _ _ => rfl
theorem cfg : Fix PM.cfg := fun _ _ => rfl
theorem ofRes (r : Res α) : Fix (PM.ofRes r) := fun _ _ => rfl
theorem tape (m : Rd α) : Fix (PM.tape m) := fun _ _ => rfl
theorem modify {f : Program → Program} (h : ∀ s, (f s).width = s.width) : Fix (PM.modify f) := fun _ s => h s

theorem bind {m : PM α} {f : α → PM β} (hm : Fix m) (hf : ∀ a, Fix (f a)) : Fix (m >>= f) := by
  intro cfg s
  have := hm cfg s
  rcases h : m cfg s with ⟨a | e | x, s'⟩ <;> rw [h] at this
  · rw [PM.bind_of_ok h, hf]; exact this
  · rw [PM.bind_of_err h]; exact this
  · rw [PM.bind_of_panic h]; exact this

theorem ite {p : Prop} [Decidable p] {m n : PM α} (hm : Fix m) (hn : Fix n) : Fix (if p then m else n) := by
  split
  · exact hm
  · exact hn

end Fix

theorem fix_push (x : F32) : Fix (push x) := Fix.modify fun _ => rfl

theorem fix_pushBool (x : Bool) : Fix (pushBool x) := fix_push _

theorem fix_pop : Fix pop := by
  refine Fix.bind Fix.get fun s => ?_
  split
  · exact Fix.bind (Fix.modify fun _ => rfl) fun _ => Fix.pure _
  · exact Fix.raise _

theorem fix_popBool : Fix popBool := Fix.bind fix_pop fun _ => Fix.pure _

theorem fix_popInt : Fix popInt := by
  refine Fix.bind Fix.get fun s => ?_
  split
  · exact Fix.bind (Fix.modify fun _ => rfl) fun _ => Fix.ite (Fix.pure _) (Fix.raise _)
  · exact Fix.raise _

theorem fix_readStack (i : Nat) : Fix (readStack i) := by
  refine Fix.bind Fix.get fun s => Fix.ite (Fix.raise _) ?_
  split
  · exact Fix.pure _
  · exact Fix.panic _

theorem fix_takeOperands (fuel : Nat) : Fix (takeOperands fuel) := by
  induction fuel with
  | zero => exact Fix.panic _
  | succ fuel ih =>
    exact Fix.bind (Fix.tape _) fun _ => Fix.ite (Fix.bind (Fix.tape _) fun _ => Fix.bind (fix_push _) fun _ => ih)
      (Fix.pure _)

theorem fix_takeOperator (c : UInt8) : Fix (takeOperator c) :=
  Fix.ite (Fix.bind (Fix.tape _) fun _ => Fix.ofRes _) (Fix.bind (Fix.tape _) fun _ => Fix.ofRes _)

theorem fix_rollUp (n : Nat) : Fix (rollUp n) :=
  Fix.bind fix_pop fun _ => Fix.bind Fix.get fun _ => Fix.ite (Fix.modify fun _ => rfl) (Fix.panic _)

theorem fix_rollDown (n : Nat) : Fix (rollDown n) := by
  refine Fix.bind Fix.get fun s => ?_
  split
  · exact Fix.bind (Fix.modify fun _ => rfl) fun _ => fix_push _
  · exact Fix.panic _

theorem fix_times {m : PM Unit} (hm : Fix m) (n : Nat) : Fix (times n m) := by
  induction n with
  | zero => exact Fix.pure _
  | succ n ih => exact Fix.bind hm fun _ => ih

theorem fix_roll : Fix roll :=
  Fix.bind fix_popInt fun _ => Fix.bind fix_popInt fun _ => Fix.bind Fix.get fun _ =>
    Fix.ite (Fix.raise _) (Fix.ite (Fix.raise _) (Fix.ite (Fix.ite (fix_times (fix_rollUp _) _)
      (Fix.ite (Fix.bind Fix.cfg fun _ => Fix.bind (Fix.ofRes _) fun _ => fix_times (fix_rollDown _) _) (Fix.pure _)))
      (Fix.pure _)))

theorem fix_call (subs : Program → List (List UInt8)) : Fix (call subs) := by
  refine Fix.bind fix_popInt fun _ => Fix.bind Fix.get fun _ => Fix.bind Fix.cfg fun _ => Fix.bind (Fix.ofRes _) fun _ =>
    Fix.ite (Fix.raise _) ?_
  split
  · exact Fix.modify fun _ => rfl
  · exact Fix.panic _

/-- `m` sets the width only where there is none, and only if it makes `next` return a result. -/
def Once (m : PM Flow) : Prop := ∀ cfg s,
  match m cfg s with
  | (.ok (.ret _), s') => ∃ v, s'.width = s.width.or v
  | (_, s') => s'.width = s.width

theorem Fix.once {m : PM Flow} (h : Fix m) : Once m := by
  intro cfg s
  have := h cfg s
  split
  · rename_i s' he
    rw [he] at this
    exact ⟨none, by simpa using this⟩
  · rename_i he
    rw [he] at this
    exact this

theorem Once.bind {m : PM α} {f : α → PM Flow} (hm : Fix m) (hf : ∀ a, Once (f a)) : Once (m >>= f) := by
  intro cfg s
  have := hm cfg s
  rcases h : m cfg s with ⟨a | e | x, s'⟩ <;> rw [h] at this
  · have h2 := hf a cfg s'
    rw [PM.bind_of_ok h]
    rwa [this] at h2
  · rw [PM.bind_of_err h]; exact this
  · rw [PM.bind_of_panic h]; exact this

theorem once_clear (op : Operator) (ps : List (List Pred)) : Once (clear op ps) := by
  intro cfg s
  rcases hm : ps.foldl (fun min p => reduce p min s.stack.length) none with _ | m
  · rw [clear_none hm]
  · unfold clear
    rw [PM.bind_of_ok (a := s) (s' := s) rfl]
    simp only [hm]
    rw [PM.bind_of_ok (a := ()) (s' := { s with stack := [] }) rfl]
    by_cases hc : m > 0 ∧ s.width.isNone = true
    · rw [if_pos hc]
      have hw : s.width = none := by simpa using hc.2
      rcases (s.stack.take m)[m - 1]? with _ | v
      · rw [PM.bind_of_panic (e := .bounds) (s' := { s with stack := [] }) rfl]
      · rw [PM.bind_of_ok (a := ()) (s' := { s with stack := [], width := some v }) rfl]
        exact ⟨some v, by simp [hw]⟩
    · rw [if_neg hc, PM.bind_of_ok (a := ()) (s' := { s with stack := [] }) rfl]
      exact ⟨none, by simp⟩

theorem once_end : Once (dispatch .opEndChar) := by
  intro cfg s
  rcases hu : unwind s.routine s.callers with ⟨res, r, cs⟩
  have h1 : dispatch .opEndChar cfg s = ((do
      PM.ofRes res
      let _ ← (match s.stack.getLast? with
        | some value => PM.modify fun s => { s with width := if s.width.isNone then some value else s.width }
        | none => PM.pure () : PM Unit)
      PM.pure (.ret none) : PM Flow) cfg { s with routine := r, callers := cs }) := by
    refine (PM.bind_of_ok (m := PM.get) (a := s) (s' := s) rfl).trans ?_
    simp only [hu]
    exact PM.bind_of_ok (a := ()) (s' := { s with routine := r, callers := cs }) rfl
  rw [h1]
  rcases res with a | e | x
  · rw [PM.bind_of_ok (a := a) (s' := { s with routine := r, callers := cs }) rfl]
    rcases s.stack.getLast? with _ | v
    · rw [PM.bind_of_ok (a := ()) (s' := { s with routine := r, callers := cs }) rfl]
      exact ⟨none, by simp⟩
    · simp only []
      rw [PM.bind_of_ok (a := ()) rfl]
      refine ⟨some v, ?_⟩
      simp only []
      rcases s.width with _ | w <;> simp
  · rw [PM.bind_of_err (e := e) (s' := { s with routine := r, callers := cs }) rfl]
  · rw [PM.bind_of_panic (e := x) (s' := { s with routine := r, callers := cs }) rfl]

theorem once_dispatch (op : Operator) : Once (dispatch op) := by
  cases op
  case opEndChar => exact once_end
  case opRMoveTo => exact once_clear _ _
  case opHMoveTo => exact once_clear _ _
  case opVMoveTo => exact once_clear _ _
  case opRLineTo => exact once_clear _ _
  case opHLineTo => exact once_clear _ _
  case opVLineTo => exact once_clear _ _
  case opRRCurveTo => exact once_clear _ _
  case opHHCurveTo => exact once_clear _ _
  case opVVCurveTo => exact once_clear _ _
  case opHVCurveTo => exact once_clear _ _
  case opVHCurveTo => exact once_clear _ _
  case opRCurveLine => exact once_clear _ _
  case opRLineCurve => exact once_clear _ _
  case opFlex => exact once_clear _ _
  case opFlex1 => exact once_clear _ _
  case opHFlex => exact once_clear _ _
  case opHFlex1 => exact once_clear _ _
  case opHStem => exact Once.bind (Fix.modify fun _ => rfl) fun _ => once_clear _ _
  case opVStem => exact Once.bind (Fix.modify fun _ => rfl) fun _ => once_clear _ _
  case opHStemHM => exact Once.bind (Fix.modify fun _ => rfl) fun _ => once_clear _ _
  case opVStemHM => exact Once.bind (Fix.modify fun _ => rfl) fun _ => once_clear _ _
  case opHintMask =>
    exact Once.bind (Fix.modify fun _ => rfl) fun _ => Once.bind Fix.get fun _ => Once.bind (Fix.tape _) fun _ => once_clear _ _
  case opCntrMask =>
    exact Once.bind (Fix.modify fun _ => rfl) fun _ => Once.bind Fix.get fun _ => Once.bind (Fix.tape _) fun _ => once_clear _ _
  case opAbs => exact (Fix.bind fix_pop fun _ => Fix.bind (fix_push _) fun _ => Fix.pure _).once
  case opNeg => exact (Fix.bind fix_pop fun _ => Fix.bind (fix_push _) fun _ => Fix.pure _).once
  case opSqrt => exact (Fix.bind fix_pop fun _ => Fix.bind (fix_push _) fun _ => Fix.pure _).once
  case opDrop => exact (Fix.bind fix_pop fun _ => Fix.pure _).once
  case opAdd => exact (Fix.bind fix_pop fun _ => Fix.bind fix_pop fun _ => Fix.bind (fix_push _) fun _ => Fix.pure _).once
  case opSub => exact (Fix.bind fix_pop fun _ => Fix.bind fix_pop fun _ => Fix.bind (fix_push _) fun _ => Fix.pure _).once
  case opMul => exact (Fix.bind fix_pop fun _ => Fix.bind fix_pop fun _ => Fix.bind (fix_push _) fun _ => Fix.pure _).once
  case opDiv => exact (Fix.bind fix_pop fun _ => Fix.bind fix_pop fun _ => Fix.bind (fix_push _) fun _ => Fix.pure _).once
  case opExch =>
    exact (Fix.bind fix_pop fun _ => Fix.bind fix_pop fun _ => Fix.bind (fix_push _) fun _ => Fix.bind (fix_push _) fun _ =>
      Fix.pure _).once
  case opIndex => exact (Fix.bind fix_popInt fun _ => Fix.bind (fix_readStack _) fun _ => Fix.bind (fix_push _) fun _ => Fix.pure _).once
  case opRoll => exact (Fix.bind fix_roll fun _ => Fix.pure _).once
  case opDup => exact (Fix.bind (fix_readStack _) fun _ => Fix.bind (fix_push _) fun _ => Fix.pure _).once
  case opAnd => exact (Fix.bind fix_popBool fun _ => Fix.bind fix_popBool fun _ => Fix.bind (fix_pushBool _) fun _ => Fix.pure _).once
  case opOr => exact (Fix.bind fix_popBool fun _ => Fix.bind fix_popBool fun _ => Fix.bind (fix_pushBool _) fun _ => Fix.pure _).once
  case opNot => exact (Fix.bind fix_popBool fun _ => Fix.bind (fix_pushBool _) fun _ => Fix.pure _).once
  case opEq => exact (Fix.bind fix_pop fun _ => Fix.bind fix_pop fun _ => Fix.bind (fix_pushBool _) fun _ => Fix.pure _).once
  case opIfElse =>
    exact (Fix.bind fix_pop fun _ => Fix.bind fix_pop fun _ => Fix.bind fix_pop fun _ => Fix.bind fix_pop fun _ =>
      Fix.bind (fix_push _) fun _ => Fix.pure _).once
  case opCallSubr => exact (Fix.bind (fix_call _) fun _ => Fix.pure _).once
  case opCallGSubr => exact (Fix.bind (fix_call _) fun _ => Fix.pure _).once
  case opReturn =>
    refine Fix.once (Fix.bind Fix.get fun s => ?_)
    rcases h : s.callers with _ | ⟨c, cs⟩
    · exact Fix.raise _
    · exact Fix.bind (Fix.modify fun _ => rfl) fun _ => Fix.pure _
  all_goals exact (Fix.raise _).once

theorem once_step : Once step := by
  refine Once.bind Fix.get fun s => ?_
  by_cases h : s.routine.done = true
  · rw [if_pos h]; exact (Fix.pure _).once
  · rw [if_neg h]
    exact Once.bind (fix_takeOperands _) fun _ => Once.bind (fix_takeOperator _) fun _ => once_dispatch _

/-- A call of `next` keeps a width that is there, and sets one only if it
succeeds. -/
theorem next_width {cfg : Config} {s s' : Program} {r : Res (Option Operation)} (h : Next cfg s r s') :
    match r with
    | .ok _ => ∃ v, s'.width = s.width.or v
    | _ => s'.width = s.width := by
  refine next_induction (P := fun s => match r with
    | .ok _ => ∃ v, s'.width = s.width.or v
    | _ => s'.width = s.width) ?_ ?_ h
  · intro s s1 hst _ ih
    have := once_step cfg s
    rw [hst] at this
    simp only [] at this
    rwa [this] at ih
  · intro s hl hn
    have h1 := once_step cfg s
    rcases hst : step cfg s with ⟨q, s1⟩
    rw [hst] at h1
    rcases q with (o | _) | e | x
    · obtain ⟨rfl, rfl⟩ := (next_ret hst).mp hn
      exact h1
    · exact absurd hst (hl _)
    · obtain ⟨rfl, rfl⟩ := (next_err hst).mp hn
      exact h1
    · obtain ⟨rfl, rfl⟩ := (next_panic hst).mp hn
      exact h1

theorem pushes_eq {σ υ : State} (h : Pushes σ υ) :
    υ.callers = σ.callers ∧ υ.global = σ.global ∧ υ.local = σ.local ∧ υ.stems = σ.stems ∧ υ.width = σ.width := by
  obtain ⟨xs, bs, _, _, he⟩ := pushes_iff.mp h
  rw [he]
  exact ⟨rfl, rfl, rfl, rfl, rfl⟩

theorem quiet_eq {c : Bool} {σ τ : State} (h : Quiet c σ τ) :
    τ.global = σ.global ∧ τ.local = σ.local ∧ τ.stems = σ.stems ∧ τ.width = σ.width := by
  cases h <;> exact ⟨rfl, rfl, rfl, rfl⟩

theorem turns_eq {c : Bool} {σ τ : State} (h : Turns c σ τ) :
    τ.global = σ.global ∧ τ.local = σ.local ∧ τ.stems = σ.stems ∧ τ.width = σ.width := by
  induction h with
  | refl => exact ⟨rfl, rfl, rfl, rfl⟩
  | tail _ h ih =>
    obtain ⟨υ, hp, hq⟩ := h
    obtain ⟨_, p1, p2, p3, p4⟩ := pushes_eq hp
    obtain ⟨q1, q2, q3, q4⟩ := quiet_eq hq
    obtain ⟨i1, i2, i3, i4⟩ := ih
    exact ⟨by rw [q1, p1, i1], by rw [q2, p2, i2], by rw [q3, p3, i3], by rw [q4, p4, i4]⟩

end PS.Type2
