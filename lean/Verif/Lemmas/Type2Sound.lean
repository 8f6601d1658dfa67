import Verif.Lemmas.Type2Next
/-!
# Lemmas: programs stay in good order, also after errors
-/
namespace PS.Type2
open PS.Spec hiding Operand Operation
open PS.Type2.Spec

/-! ## Readers do not leave the tape -/

/-- From a position on the tape `m` comes to a position on the tape. -/
def Within (m : Rd α) : Prop :=
  ∀ env p, (∀ p n, p ≤ n → env.cfg.eofPos p n ≤ n) → p ≤ env.data.length → (m env p).2 ≤ env.data.length

namespace Within

theorem pure (a : α) : Within (Rd.pure a) := fun _ _ _ h => h
theorem pure' (a : α) : Within (Pure.pure a : Rd α) := fun _ _ _ h => h
theorem raise (r : Reason) : Within (Rd.raise r : Rd α) := fun _ _ _ h => h
theorem panic (x : Panic) : Within (Rd.panic x : Rd α) := fun _ _ _ h => h
theorem cfg : Within Rd.cfg := fun _ _ _ h => h
theorem ofRes (r : Res α) : Within (Rd.ofRes r) := fun _ _ _ h => h
theorem peek (m : Rd α) : Within (Rd.peek m) := fun _ _ _ h => h

theorem bind {m : Rd α} {f : α → Rd β} (hm : Within m) (hf : ∀ a, Within (f a)) : Within (m >>= f) := by
  intro env p he hp
  have h1 := hm env p he hp
  show (Rd.bind m f env p).2 ≤ _
  unfold Rd.bind
  rcases h : m env p with ⟨a | e | x, q⟩ <;> rw [h] at h1
  · exact hf a env q he h1
  · exact h1
  · exact h1

theorem ite {p : Prop} [Decidable p] {m n : Rd α} (hm : Within m) (hn : Within n) : Within (if p then m else n) := by
  split
  · exact hm
  · exact hn

theorem readExact (n : Nat) : Within (Rd.readExact n) := by
  intro env p he hp
  unfold Rd.readExact
  split
  · simp only; omega
  · exact he _ _ hp

theorem u8 : Within Rd.u8 := bind (readExact 1) fun _ => pure' _
theorem u16 : Within Rd.u16 := bind (readExact 2) fun _ => pure' _
theorem u32 : Within Rd.u32 := bind (readExact 4) fun _ => pure' _
theorem i32 (z : Int) : Within (Rd.i32 z) := bind cfg fun _ => ofRes _

theorem readNumber : Within readNumber := by
  refine bind u8 fun b => ite (bind (i32 _) fun _ => pure' _) (ite (bind ?_ fun _ => pure' _) (ite (bind ?_ fun _ => pure' _)
    (ite (bind u16 fun _ => pure' _) (ite (bind u32 fun _ => pure' _) (raise _)))))
  · exact bind (i32 _) fun _ => bind (i32 _) fun _ => bind u8 fun _ => bind (i32 _) fun _ => i32 _
  · exact bind (i32 _) fun _ => bind (i32 _) fun _ => bind (i32 _) fun _ => bind u8 fun _ => bind (i32 _) fun _ => i32 _

end Within

/-! ## Operations keep a program in good order -/

/-- `m` keeps programs in good order, whatever it returns; what it returns without an
error satisfies `P`. -/
def Keeps (P : α → Prop) (m : PM α) : Prop :=
  ∀ cfg s, OnTape cfg → Sound s → Sound (m cfg s).2 ∧ ∀ a, (m cfg s).1 = .ok a → P a

namespace Keeps

theorem pure {P : α → Prop} {a : α} (h : P a) : Keeps P (PM.pure a) :=
  fun _ _ _ hs => ⟨hs, fun b hb => by cases hb; exact h⟩

theorem raise {P : α → Prop} (r : Reason) : Keeps P (PM.raise r : PM α) :=
  fun _ _ _ hs => ⟨hs, fun b hb => by cases hb⟩

theorem panic {P : α → Prop} (x : Panic) : Keeps P (PM.panic x : PM α) :=
  fun _ _ _ hs => ⟨hs, fun b hb => by cases hb⟩

theorem cfg : Keeps (fun _ => True) PM.cfg := fun _ _ _ hs => ⟨hs, fun _ _ => trivial⟩

theorem ofRes (r : Res α) : Keeps (fun _ => True) (PM.ofRes r) := fun _ _ _ hs => ⟨hs, fun _ _ => trivial⟩

theorem modify {f : Program → Program} (h : ∀ s, Sound s → Sound (f s)) : Keeps (fun _ => True) (PM.modify f) :=
  fun _ s _ hs => ⟨h s hs, fun _ _ => trivial⟩

theorem bind {P : α → Prop} {Q : β → Prop} {m : PM α} {f : α → PM β} (hm : Keeps P m) (hf : ∀ a, P a → Keeps Q (f a)) :
    Keeps Q (m >>= f) := by
  intro cfg s he hs
  have h1 := hm cfg s he hs
  rcases h : m cfg s with ⟨a | e | x, s'⟩ <;> rw [h] at h1
  · rw [PM.bind_of_ok h]; exact hf a (h1.2 a rfl) cfg s' he h1.1
  · rw [PM.bind_of_err h]; exact ⟨h1.1, fun b hb => by cases hb⟩
  · rw [PM.bind_of_panic h]; exact ⟨h1.1, fun b hb => by cases hb⟩

theorem get_bind {Q : β → Prop} {f : Program → PM β}
    (h : ∀ cfg s, OnTape cfg → Sound s → Sound (f s cfg s).2 ∧ ∀ a, (f s cfg s).1 = .ok a → Q a) :
    Keeps Q (PM.get >>= f) := fun cfg s he hs => by
  rw [PM.bind_of_ok (m := PM.get) (a := s) (s' := s) rfl]; exact h cfg s he hs

theorem get : Keeps Sound PM.get := fun _ s _ hs => ⟨hs, fun a ha => by cases ha; exact hs⟩

theorem ite {P : α → Prop} {p : Prop} [Decidable p] {m n : PM α} (hm : Keeps P m) (hn : Keeps P n) :
    Keeps P (if p then m else n) := by
  split
  · exact hm
  · exact hn

theorem tape {m : Rd α} (h : Within m) : Keeps (fun _ => True) (PM.tape m) := by
  intro cfg s he hs
  have h1 := h { cfg, data := s.routine.code } s.routine.pos he hs.routine
  refine ⟨⟨h1, hs.callers, ?_, hs.subroutines, hs.counts, hs.stack⟩, fun _ _ => trivial⟩
  intro r hr
  rcases List.mem_cons.mp hr with rfl | hr
  · exact hs.size s.routine (List.mem_cons_self ..)
  · exact hs.size r (List.mem_cons_of_mem _ hr)

end Keeps

abbrev Any (α : Type) : α → Prop := fun _ => True

theorem sound_stack {s : Program} (hs : Sound s) {st : List F32} (hst : ∀ x ∈ st, x.WF) : Sound { s with stack := st } :=
  ⟨hs.routine, hs.callers, hs.size, hs.subroutines, hs.counts, hst⟩

theorem keeps_push {x : F32} (hx : x.WF) : Keeps (Any _) (push x) := Keeps.modify fun s hs =>
  sound_stack hs fun y hy => by
    rcases List.mem_append.mp hy with hy | hy
    · exact hs.stack y hy
    · rw [List.mem_singleton.mp hy]; exact hx

theorem keeps_pushBool (b : Bool) : Keeps (Any _) (pushBool b) := keeps_push (by
  cases b
  · exact wf_zero _
  · exact (round_wf _ Nat.one_pos : (F32.ofInt 1).WF))

theorem keeps_dropLast : Keeps (Any _) (PM.modify fun s => { s with stack := s.stack.dropLast }) :=
  Keeps.modify fun _ hs => sound_stack hs fun y hy => hs.stack y (List.dropLast_subset _ hy)

theorem keeps_pop : Keeps F32.WF pop := by
  refine Keeps.bind Keeps.get fun s hs => ?_
  split
  · rename_i x hx
    exact Keeps.bind keeps_dropLast fun _ _ => Keeps.pure (hs.stack x (List.mem_of_getLast? hx))
  · exact Keeps.raise _

theorem keeps_popBool : Keeps (Any _) popBool := Keeps.bind keeps_pop fun _ _ => Keeps.pure trivial

theorem keeps_popInt : Keeps (Any _) popInt := by
  refine Keeps.bind Keeps.get fun s hs => ?_
  split
  · exact Keeps.bind keeps_dropLast fun _ _ => Keeps.ite (Keeps.pure trivial) (Keeps.raise _)
  · exact Keeps.raise _

theorem keeps_readStack (i : Nat) : Keeps F32.WF (readStack i) := by
  refine Keeps.bind Keeps.get fun s hs => Keeps.ite (Keeps.raise _) ?_
  split
  · rename_i x hx
    exact Keeps.pure (hs.stack x (List.mem_of_getElem? hx))
  · exact Keeps.panic _

theorem keeps_readNumber : Keeps F32.WF (PM.tape readNumber) := by
  intro cfg s he hs
  refine ⟨(Keeps.tape Within.readNumber cfg s he hs).1, fun a ha => ?_⟩
  have h1 : readNumber { cfg, data := s.routine.code } s.routine.pos = (.ok a, _) := Prod.ext ha rfl
  obtain ⟨bs, hb, _⟩ := (exact_readNumber _ _ _ _).mp h1
  exact operand_wf hb

theorem keeps_takeOperands (fuel : Nat) : Keeps (Any _) (takeOperands fuel) := by
  induction fuel with
  | zero => exact Keeps.panic _
  | succ fuel ih =>
    exact Keeps.bind (Keeps.tape (Within.peek _)) fun _ _ =>
      Keeps.ite (Keeps.bind keeps_readNumber fun _ hx => Keeps.bind (keeps_push hx) fun _ _ => ih) (Keeps.pure trivial)

theorem keeps_takeOperator (c : UInt8) : Keeps (Any _) (takeOperator c) :=
  Keeps.ite (Keeps.bind (Keeps.tape Within.u16) fun _ _ => Keeps.ofRes _)
    (Keeps.bind (Keeps.tape Within.u8) fun _ _ => Keeps.ofRes _)

theorem keeps_rollUp (n : Nat) : Keeps (Any _) (rollUp n) := by
  refine Keeps.bind keeps_pop fun x hx => Keeps.bind Keeps.get fun _ _ => Keeps.ite (Keeps.modify fun s hs => ?_) (Keeps.panic _)
  refine sound_stack hs fun y hy => ?_
  rcases List.mem_append.mp hy with hy | hy
  · exact hs.stack y (List.mem_of_mem_take hy)
  · rcases List.mem_cons.mp hy with rfl | hy
    · exact hx
    · exact hs.stack y (List.mem_of_mem_drop hy)

theorem keeps_rollDown (n : Nat) : Keeps (Any _) (rollDown n) := by
  refine Keeps.bind Keeps.get fun s hs => ?_
  split
  · rename_i x hx
    exact Keeps.bind (Keeps.modify fun s hs => sound_stack hs fun y hy => hs.stack y (List.mem_of_mem_eraseIdx hy)) fun _ _ =>
      keeps_push (hs.stack x (List.mem_of_getElem? hx))
  · exact Keeps.panic _

theorem keeps_times {m : PM Unit} (hm : Keeps (Any _) m) (n : Nat) : Keeps (Any _) (times n m) := by
  induction n with
  | zero => exact Keeps.pure trivial
  | succ n ih => exact Keeps.bind hm fun _ _ => ih

theorem keeps_roll : Keeps (Any _) roll :=
  Keeps.bind keeps_popInt fun _ _ => Keeps.bind keeps_popInt fun _ _ => Keeps.bind Keeps.get fun _ _ =>
    Keeps.ite (Keeps.raise _) (Keeps.ite (Keeps.raise _) (Keeps.ite (Keeps.ite (keeps_times (keeps_rollUp _) _)
      (Keeps.ite (Keeps.bind Keeps.cfg fun _ _ => Keeps.bind (Keeps.ofRes _) fun _ _ => keeps_times (keeps_rollDown _) _)
        (Keeps.pure trivial))) (Keeps.pure trivial)))

theorem sound_enter {s : Program} (hs : Sound s) {body : List UInt8} (hb : body ∈ s.global ++ s.local) :
    Sound { s with routine := Routine.new body, callers := s.routine :: s.callers } := by
  refine ⟨by simp [Routine.new], sound_pos hs, ?_, hs.subroutines, hs.counts, hs.stack⟩
  intro r hr
  rcases List.mem_cons.mp hr with rfl | hr
  · exact hs.subroutines body hb
  · exact hs.size r hr

theorem keeps_call {subs : Program → List (List UInt8)} (hsub : ∀ s c, c ∈ subs s → c ∈ s.global ++ s.local) :
    Keeps (Any _) (call subs) := by
  refine Keeps.bind keeps_popInt fun i _ => Keeps.get_bind fun cfg s he hs => ⟨?_, fun _ _ => trivial⟩
  rw [PM.bind_of_ok (m := PM.cfg) (a := cfg) (s' := s) rfl]
  rcases addI32 cfg.checks i (bias (subs s).length) with j | e | x
  · rw [PM.bind_of_ok (m := PM.ofRes _) (a := j) (s' := s) rfl]
    by_cases hj : j < 0 ∨ j.toNat ≥ (subs s).length
    · rw [if_pos hj]; exact hs
    · rw [if_neg hj]
      rcases hb : (subs s)[j.toNat]? with _ | body
      · exact hs
      · exact sound_enter hs (hsub s body (List.mem_of_getElem? hb))
  · rw [PM.bind_of_err (m := PM.ofRes _) (e := e) (s' := s) rfl]; exact hs
  · rw [PM.bind_of_panic (m := PM.ofRes _) (e := x) (s' := s) rfl]; exact hs

theorem keeps_clear (op : Operator) (ps : List (List Pred)) : Keeps (Any _) (clear op ps) := by
  refine Keeps.bind Keeps.get fun s hs => ?_
  dsimp only
  split
  · exact Keeps.raise _
  · refine Keeps.bind (Keeps.modify fun s hs => sound_stack hs (by simp)) fun _ _ =>
      Keeps.bind (P := Any _) (Keeps.ite ?_ (Keeps.pure trivial)) fun _ _ => Keeps.pure trivial
    split
    · exact Keeps.modify fun s hs => sound_with hs hs.stack _ _
    · exact Keeps.panic _

theorem keeps_countStems : Keeps (Any _) countStems := Keeps.modify fun _ hs => sound_with hs hs.stack _ _

theorem unwind_mem (r : Routine) (cs : List Routine) :
    ∀ x ∈ (unwind r cs).2.1 :: (unwind r cs).2.2, x ∈ r :: cs := by
  induction cs generalizing r with
  | nil => simp [unwind]
  | cons c cs ih =>
    unfold unwind
    split
    · intro x hx; exact List.mem_cons_of_mem _ (ih c x hx)
    · simp

theorem keeps_end : Keeps (Any _) (dispatch .opEndChar) := by
  refine Keeps.get_bind fun cfg s he hs => ?_
  have h1 : Sound { s with routine := (unwind s.routine s.callers).2.1, callers := (unwind s.routine s.callers).2.2 } :=
    sound_return hs (unwind_mem _ _) s.width
  dsimp only
  rw [PM.bind_of_ok (m := PM.modify _) (a := ())
    (s' := { s with routine := (unwind s.routine s.callers).2.1, callers := (unwind s.routine s.callers).2.2 }) rfl]
  refine Keeps.bind (P := Any _) (Keeps.ofRes _) (fun _ _ => Keeps.bind (P := Any _) ?_ fun _ _ => Keeps.pure trivial) cfg _ he h1
  split
  · exact Keeps.modify fun s hs => sound_with hs hs.stack _ _
  · exact Keeps.pure trivial

theorem Within.replicate {m : Rd α} (hm : Within m) (n : Nat) : Within (Rd.replicate n m) := by
  induction n with
  | zero => exact Within.pure' _
  | succ n ih => exact Within.bind hm fun _ => Within.bind ih fun _ => Within.pure' _

theorem Within.bytes (n : Nat) : Within (Rd.bytes n) :=
  Within.bind Within.cfg fun _ => Within.ite (Within.panic _) (Within.replicate Within.u8 n)

theorem keeps_dispatch (op : Operator) : Keeps (Any _) (dispatch op) := by
  have again : Keeps (Any Flow) (PM.pure .again) := Keeps.pure trivial
  have stem : ∀ op ps, Keeps (Any Flow) (do countStems; clear op ps) := fun op ps =>
    Keeps.bind keeps_countStems fun _ _ => keeps_clear _ _
  have mask : ∀ op ps, Keeps (Any Flow) (do
      countStems
      let s ← PM.get
      let _ ← PM.tape (Rd.bytes ((s.stems + 7) / 8))
      clear op ps) := fun op ps =>
    Keeps.bind keeps_countStems fun _ _ => Keeps.bind Keeps.get fun _ _ => Keeps.bind (Keeps.tape (Within.bytes _)) fun _ _ =>
      keeps_clear _ _
  have un : ∀ f : F32 → F32, (∀ x, x.WF → (f x).WF) → Keeps (Any Flow) (do let x ← pop; push (f x); PM.pure .again) :=
    fun f hf => Keeps.bind keeps_pop fun x hx => Keeps.bind (keeps_push (hf x hx)) fun _ _ => again
  have bin : ∀ f : F32 → F32 → F32, (∀ x y, (f x y).WF) → Keeps (Any Flow) (do
      let right ← pop
      let left ← pop
      push (f right left)
      PM.pure .again) :=
    fun f hf => Keeps.bind keeps_pop fun x _ => Keeps.bind keeps_pop fun y _ => Keeps.bind (keeps_push (hf x y)) fun _ _ => again
  cases op
  case opEndChar => exact keeps_end
  case opHStem => exact stem _ _
  case opVStem => exact stem _ _
  case opHStemHM => exact stem _ _
  case opVStemHM => exact stem _ _
  case opHintMask => exact mask _ _
  case opCntrMask => exact mask _ _
  case opAbs => exact un _ fun _ => wf_abs
  case opNeg => exact un _ fun _ => wf_neg
  case opSqrt => exact un _ fun x _ => wf_sqrt x
  case opAdd => exact bin _ wf_add
  case opSub => exact bin (fun r l => F32.sub l r) fun x y => wf_add y x.neg
  case opMul => exact bin _ wf_mul
  case opDiv => exact bin (fun r l => F32.div l r) fun x y => wf_div y x
  case opDrop => exact Keeps.bind keeps_pop fun _ _ => again
  case opExch =>
    exact Keeps.bind keeps_pop fun _ hx => Keeps.bind keeps_pop fun _ hy => Keeps.bind (keeps_push hx) fun _ _ =>
      Keeps.bind (keeps_push hy) fun _ _ => again
  case opIndex => exact Keeps.bind keeps_popInt fun _ _ => Keeps.bind (keeps_readStack _) fun _ hx => Keeps.bind (keeps_push hx) fun _ _ => again
  case opRoll => exact Keeps.bind keeps_roll fun _ _ => again
  case opDup => exact Keeps.bind (keeps_readStack _) fun _ hx => Keeps.bind (keeps_push hx) fun _ _ => again
  case opAnd => exact Keeps.bind keeps_popBool fun _ _ => Keeps.bind keeps_popBool fun _ _ => Keeps.bind (keeps_pushBool _) fun _ _ => again
  case opOr => exact Keeps.bind keeps_popBool fun _ _ => Keeps.bind keeps_popBool fun _ _ => Keeps.bind (keeps_pushBool _) fun _ _ => again
  case opNot => exact Keeps.bind keeps_popBool fun _ _ => Keeps.bind (keeps_pushBool _) fun _ _ => again
  case opEq => exact Keeps.bind keeps_pop fun _ _ => Keeps.bind keeps_pop fun _ _ => Keeps.bind (keeps_pushBool _) fun _ _ => again
  case opIfElse =>
    refine Keeps.bind keeps_pop fun _ _ => Keeps.bind keeps_pop fun _ _ => Keeps.bind keeps_pop fun _ h1 => Keeps.bind keeps_pop fun _ h2 =>
      Keeps.bind (keeps_push ?_) fun _ _ => again
    split
    · exact h2
    · exact h1
  case opCallSubr => exact Keeps.bind (keeps_call fun s c h => List.mem_append_right _ h) fun _ _ => again
  case opCallGSubr => exact Keeps.bind (keeps_call fun s c h => List.mem_append_left _ h) fun _ _ => again
  case opReturn =>
    refine Keeps.get_bind fun cfg s he hs => ⟨?_, fun _ _ => trivial⟩
    rcases h : s.callers with _ | ⟨c, cs⟩
    · exact hs
    · exact sound_return hs (fun x hx => by rw [h]; exact List.mem_cons_of_mem _ hx) s.width
  case opPut => exact Keeps.raise _
  case opGet => exact Keeps.raise _
  case opRandom => exact Keeps.raise _
  all_goals exact keeps_clear _ _

theorem keeps_step : Keeps (Any _) step :=
  Keeps.bind Keeps.get fun _ _ => Keeps.ite (Keeps.pure trivial) (Keeps.bind (keeps_takeOperands _) fun _ _ =>
    Keeps.bind (keeps_takeOperator _) fun op _ => keeps_dispatch op)

/-- `next` keeps programs in good order, whatever it returns. -/
theorem next_sound {cfg : Config} (he : OnTape cfg) {s t : Program} {r : Res (Option Operation)} (hs : Sound s)
    (h : Next cfg s r t) : Sound t := by
  revert hs
  refine next_induction (P := fun s => Sound s → Sound t) ?_ ?_ h
  · intro s s1 h1 _ ih hs
    have := (keeps_step cfg s he hs).1
    rw [h1] at this
    exact ih this
  · intro s hl hn hs
    have := (keeps_step cfg s he hs).1
    rcases hst : step cfg s with ⟨(o | _) | e | x, s1⟩ <;> rw [hst] at this
    · rw [((next_ret hst).mp hn).2]; exact this
    · exact absurd hst (hl _)
    · rw [((next_err hst).mp hn).2]; exact this
    · rw [((next_panic hst).mp hn).2]; exact this

theorem history_sound {cfg : Config} (he : OnTape cfg) {s t : Program} (hs : Sound s) (h : History cfg s t) : Sound t := by
  induction h with
  | refl => exact hs
  | tail _ h ih => exact next_sound he ih h.choose_spec

end PS.Type2
