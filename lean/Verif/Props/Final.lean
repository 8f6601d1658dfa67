import Verif.Spec.Final
import Verif.Lemmas.Type2Sound
import Verif.Props.Type2Calls
/-!
# Property C68: failures of `next` and later calls
-/
namespace PS.Type2
open PS.Spec hiding Operand Operation
open PS.Type2.Spec

/-! ## Readers that come to the end -/

/-- If `m` fails for want of bytes it has come to the end of the tape. -/
def Exhausts (m : Rd α) : Prop :=
  ∀ env p, LeavesEnd env.cfg → p ≤ env.data.length → (m env p).1 = .err .eof → (m env p).2 = env.data.length

theorem LeavesEnd.onTape {cfg : Config} (h : LeavesEnd cfg) : OnTape cfg := fun p n _ => by rw [h]

namespace Exhausts

theorem pure' (a : α) : Exhausts (Pure.pure a : Rd α) := fun _ _ _ _ h => by cases h
theorem raise (r : Reason) : Exhausts (Rd.raise r : Rd α) := fun _ _ _ _ h => by cases h
theorem panic (x : Panic) : Exhausts (Rd.panic x : Rd α) := fun _ _ _ _ h => by cases h
theorem cfg : Exhausts Rd.cfg := fun _ _ _ _ h => by cases h

theorem bind {m : Rd α} {f : α → Rd β} (hw : Within m) (hm : Exhausts m) (hf : ∀ a, Exhausts (f a)) : Exhausts (m >>= f) := by
  intro env p he hp
  have h1 := hm env p he hp
  have h2 := hw env p (LeavesEnd.onTape he) hp
  show (Rd.bind m f env p).1 = _ → (Rd.bind m f env p).2 = _
  unfold Rd.bind
  rcases h : m env p with ⟨a | e | x, q⟩ <;> rw [h] at h1 h2
  · exact hf a env q he h2
  · exact fun h => h1 (by cases h; rfl)
  · intro h; cases h

theorem ite {p : Prop} [Decidable p] {m n : Rd α} (hm : Exhausts m) (hn : Exhausts n) : Exhausts (if p then m else n) := by
  split
  · exact hm
  · exact hn

theorem readExact (n : Nat) : Exhausts (Rd.readExact n) := by
  intro env p he hp
  unfold Rd.readExact
  split
  · intro h; cases h
  · intro _; exact he _ _

theorem u8 : Exhausts Rd.u8 := bind (Within.readExact 1) (readExact 1) fun _ => pure' _
theorem u16 : Exhausts Rd.u16 := bind (Within.readExact 2) (readExact 2) fun _ => pure' _
theorem u32 : Exhausts Rd.u32 := bind (Within.readExact 4) (readExact 4) fun _ => pure' _

theorem i32 (z : Int) : Exhausts (Rd.i32 z) := by
  refine bind Within.cfg cfg fun c => ?_
  intro env p _ _ h
  change wrapI32 c.checks z = _ at h
  unfold wrapI32 at h
  split at h
  · cases h
  · split at h <;> cases h

theorem peek : Exhausts (Rd.peek Rd.u8) := by
  intro env p he hp h
  show p = _
  rcases hd : env.data.drop p with _ | ⟨b, l⟩
  · have := List.drop_eq_nil_iff.mp hd; omega
  · have := peek_u8 env p b l hd
    rw [this] at h
    cases h

theorem readNumber : Exhausts readNumber := by
  refine bind Within.u8 u8 fun b => ite (bind (Within.i32 _) (i32 _) fun _ => pure' _)
    (ite (bind ?_ ?_ fun _ => pure' _) (ite (bind ?_ ?_ fun _ => pure' _)
    (ite (bind Within.u16 u16 fun _ => pure' _) (ite (bind Within.u32 u32 fun _ => pure' _) (raise _)))))
  · exact Within.bind (Within.i32 _) fun _ => Within.bind (Within.i32 _) fun _ => Within.bind Within.u8 fun _ =>
      Within.bind (Within.i32 _) fun _ => Within.i32 _
  · exact bind (Within.i32 _) (i32 _) fun _ => bind (Within.i32 _) (i32 _) fun _ => bind Within.u8 u8 fun _ =>
      bind (Within.i32 _) (i32 _) fun _ => i32 _
  · exact Within.bind (Within.i32 _) fun _ => Within.bind (Within.i32 _) fun _ => Within.bind (Within.i32 _) fun _ =>
      Within.bind Within.u8 fun _ => Within.bind (Within.i32 _) fun _ => Within.i32 _
  · exact bind (Within.i32 _) (i32 _) fun _ => bind (Within.i32 _) (i32 _) fun _ => bind (Within.i32 _) (i32 _) fun _ =>
      bind Within.u8 u8 fun _ => bind (Within.i32 _) (i32 _) fun _ => i32 _

theorem replicate {m : Rd α} (hw : Within m) (hm : Exhausts m) (n : Nat) : Exhausts (Rd.replicate n m) := by
  induction n with
  | zero => exact pure' _
  | succ n ih => exact bind hw hm fun _ => bind (Within.replicate hw n) ih fun _ => pure' _

theorem bytes (n : Nat) : Exhausts (Rd.bytes n) :=
  bind Within.cfg cfg fun _ => ite (panic _) (replicate Within.u8 u8 n)

end Exhausts

/-- If `m` fails for want of bytes the current routine is used up. -/
def UsesUp (m : PM α) : Prop := ∀ cfg s, LeavesEnd cfg → Sound s → (m cfg s).1 = .err .eof →
  (m cfg s).2.routine.pos = (m cfg s).2.routine.code.length

namespace UsesUp

theorem bind {P : α → Prop} {m : PM α} {f : α → PM β} (hk : Keeps P m) (hm : UsesUp m)
    (hf : ∀ a, P a → UsesUp (f a)) :
    UsesUp (m >>= f) := by
  intro cfg s he hs
  have h1 := hm cfg s he hs
  have h2 := hk cfg s (LeavesEnd.onTape he) hs
  rcases h : m cfg s with ⟨a | e | x, s'⟩ <;> rw [h] at h1 h2
  · rw [PM.bind_of_ok h]; exact hf a (h2.2 a rfl) cfg s' he h2.1
  · rw [PM.bind_of_err h]; exact fun h => h1 (by cases h; rfl)
  · rw [PM.bind_of_panic h]; intro h; cases h

theorem never {m : PM α} (h : ∀ cfg s, (m cfg s).1 ≠ .err .eof) : UsesUp m := fun cfg s _ _ he => absurd he (h cfg s)

theorem ite {p : Prop} [Decidable p] {m n : PM α} (hm : UsesUp m) (hn : UsesUp n) : UsesUp (if p then m else n) := by
  split
  · exact hm
  · exact hn

theorem tape {m : Rd α} (h : Exhausts m) : UsesUp (PM.tape m) := fun cfg s he hs h' =>
  h { cfg, data := s.routine.code } s.routine.pos he hs.routine h'

theorem takeOperands (fuel : Nat) : UsesUp (takeOperands fuel) := by
  induction fuel with
  | zero => exact never fun _ _ => nofun
  | succ fuel ih =>
    exact bind (Keeps.tape (Within.peek _)) (tape Exhausts.peek) fun _ _ =>
      ite (bind keeps_readNumber (tape Exhausts.readNumber) fun x hx =>
        bind (keeps_push hx) (never fun _ _ => nofun) fun _ _ => ih) (never fun _ _ => nofun)

theorem operator (b : UInt16) : UsesUp (PM.ofRes (Operator.from b)) := never fun cfg s h => by
  change Operator.from b = _ at h
  revert h
  unfold Operator.from
  split <;> nofun

theorem takeOperator (b : UInt8) : UsesUp (takeOperator b) :=
  ite (bind (Keeps.tape Within.u16) (tape Exhausts.u16) fun _ _ => operator _)
    (bind (Keeps.tape Within.u8) (tape Exhausts.u8) fun _ _ => operator _)

theorem clear (op : Operator) (ps : List (List Pred)) : UsesUp (clear op ps) := by
  refine bind Keeps.get (never fun _ _ => nofun) fun s hs => ?_
  dsimp only
  split
  · exact never fun _ _ => nofun
  · refine bind (P := Any _) (Keeps.modify fun s hs => sound_stack hs (by simp)) (never fun _ _ => nofun) fun _ _ =>
      bind (P := Any _) (Keeps.ite ?_ (Keeps.pure trivial)) (ite ?_ (never fun _ _ => nofun)) fun _ _ => never fun _ _ => nofun
    · split
      · exact Keeps.modify fun s hs => sound_with hs hs.stack _ _
      · exact Keeps.panic _
    · split <;> exact never fun _ _ => nofun

theorem dispatch (op : Operator) : UsesUp (dispatch op) := by
  intro cfg s he hs h
  rcases dispatch_cases cfg op hs with ⟨s', h', _⟩ | ⟨o', s', h', _⟩ | ⟨s', h', _⟩ |
    ⟨_, ⟨r, s', h'⟩ | ⟨hma, _⟩ | ⟨_, _, _, s', h'⟩ | ⟨_, _, s', h'⟩⟩
  · rw [h'] at h; cases h
  · rw [h'] at h; cases h
  · rw [h'] at h; cases h
  · rw [h'] at h; cases h
  · have mask : ∀ op ps, UsesUp (do
        countStems
        let s ← PM.get
        let _ ← PM.tape (Rd.bytes ((s.stems + 7) / 8))
        Type2.clear op ps) := fun op ps =>
      bind keeps_countStems (never fun _ _ => nofun) fun _ _ => bind Keeps.get (never fun _ _ => nofun) fun _ _ =>
        bind (Keeps.tape (Within.bytes _)) (tape (Exhausts.bytes _)) fun _ _ => clear _ _
    simp only [Mask, List.mem_cons, List.not_mem_nil, or_false] at hma
    rcases hma with rfl | rfl
    · exact mask _ _ cfg s he hs h
    · exact mask _ _ cfg s he hs h
  · rw [h'] at h; cases h
  · rw [h'] at h; cases h

theorem step : UsesUp step :=
  bind Keeps.get (never fun _ _ => nofun) fun _ _ => ite (never fun _ _ => nofun)
    (bind (keeps_takeOperands _) (takeOperands _) fun _ _ => bind (keeps_takeOperator _) (takeOperator _) fun op _ => dispatch op)

end UsesUp

/-! ## C68 -/

/-- **C68**, the full statement: once `next` has failed, no further call returns an
operation. -/
def C68Statement : Prop := ∀ {cfg : Config} {s t u v : Program} {e : Err} {o : Operation}, Sound s →
  Next cfg s (.err e) t → History cfg t u → ¬ Next cfg u (.ok (some o)) v

/-- A byte that is no operator, then `10 hmoveto`. -/
def unknownFirst : Program := Program.new [0, 149, 22] [] []

/-- **C68** is false: after an unknown operator, and after many other failures, the next
call goes on behind it. -/
theorem C68_false : ¬ C68Statement := by
  intro h
  exact h (cfg := release) (s := unknownFirst) (t := after release unknownFirst) (u := after release unknownFirst)
    (v := after release (after release unknownFirst)) (e := .raised .unknownOperator) (o := (.opHMoveTo, [F32.ofInt 10]))
    (sound_new (by decide) (by decide) (by decide)) ⟨100, by decide +kernel⟩ .refl ⟨100, by decide +kernel⟩

/-- **C68**, in part: if a failed read leaves the position at the end, then after
`UnexpectedEof` all further calls return `None` and change nothing.  So the failure is
reported only once: whoever ignores it takes the program for complete.  Missing:
the other errors, for which it is false. -/
theorem C68_truncated_partial {cfg : Config} (he : LeavesEnd cfg) {s t u : Program} (hs : Sound s)
    (h : Next cfg s (.err .eof) t) (hu : History cfg t u) : u = t ∧ ∀ r v, Next cfg u r v ↔ r = .ok none ∧ v = t := by
  obtain ⟨s1, _, hs1, hn, hl⟩ := next_turns hs h
  have hup := UsesUp.step cfg s1 he hs1
  have ht := next_sound (LeavesEnd.onTape he) hs h
  have hend : left t.routine = [] := by
    rcases hst : step cfg s1 with ⟨(o | _) | e | x, s2⟩ <;> rw [hst] at hup
    · have := (next_ret hst).mp hn; simp at this
    · exact absurd hst (hl _)
    · obtain ⟨h1, rfl⟩ := (next_err hst).mp hn
      cases h1
      have := hup rfl
      simp only at this
      unfold left
      rw [this]
      simp
    · have := (next_panic hst).mp hn; simp at this
  have hn : ∀ r v, Next cfg t r v ↔ r = .ok none ∧ v = t := fun r v => next_ret (step_done ht.routine hend)
  have : u = t := by
    induction hu with
    | refl => rfl
    | tail _ hlast ih =>
      obtain ⟨r, hr⟩ := hlast
      rw [ih] at hr
      exact ((hn r _).mp hr).2
  subst this
  exact ⟨rfl, hn⟩

/-- `10 20` and half of an operand; its second byte alone is `rlineto`. -/
def halfOperand : Program := Program.new [149, 159, 28, 5] [] []

/-- **C68.**  If a failed read leaves the position where it was, even truncation is not
final: the rest of the operand is executed as code. -/
theorem C68_reread : ∃ (cfg : Config) (s t v : Program) (o : Operation), LeavesPlace cfg ∧ Sound s ∧
    Next cfg s (.err .eof) t ∧ Next cfg t (.ok (some o)) v :=
  let old : Config := { release with eofPos := fun p _ => p }
  ⟨old, halfOperand, after old halfOperand, after old (after old halfOperand), (.opRLineTo, [F32.ofInt 10, F32.ofInt 20]),
    fun _ _ => rfl, sound_new (by decide) (by decide) (by decide), ⟨100, by decide +kernel⟩, ⟨100, by decide +kernel⟩⟩

/-- The same program, if a failed read leaves the position at the end. -/
example : let new : Config := { release with eofPos := fun _ n => n }
    LeavesEnd new ∧ Sound halfOperand ∧ ∃ t, Next new halfOperand (.err .eof) t :=
  ⟨fun _ _ => rfl, sound_new (by decide) (by decide) (by decide),
    after { release with eofPos := fun _ n => n } halfOperand, 100, by decide +kernel⟩

end PS.Type2
