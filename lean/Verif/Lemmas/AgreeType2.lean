import Verif.Model.Program
import Verif.Spec.Agree
/-!
# Lemmas: Type 2 programs in two builds
-/
namespace PS.Type2
open PS.Spec

/-- Two builds on the same tapes. -/
def Milder' (c c' : Config) : Prop := Milder c c' ∧ c.eofPos = c'.eofPos

/-- A reader panics in the first build or has the same outcome in both. -/
def MildR (c c' : Config) (m m' : Rd α) : Prop :=
  ∀ data p, (∃ x q, m ⟨c, data⟩ p = (.panic x, q)) ∨ m ⟨c, data⟩ p = m' ⟨c', data⟩ p

namespace MildR
variable {c c' : Config}

theorem pure (a : α) : MildR c c' (Pure.pure a : Rd α) (Pure.pure a) := fun _ _ => .inr rfl
theorem raise (r : Reason) : MildR c c' (Rd.raise r : Rd α) (Rd.raise r) := fun _ _ => .inr rfl

theorem bind {m m' : Rd α} {f f' : α → Rd β} (h : MildR c c' m m') (hf : ∀ a, MildR c c' (f a) (f' a)) :
    MildR c c' (m >>= f) (m' >>= f') := by
  intro data p
  show (∃ x q, Rd.bind m f ⟨c, data⟩ p = (.panic x, q)) ∨ Rd.bind m f ⟨c, data⟩ p = Rd.bind m' f' ⟨c', data⟩ p
  unfold Rd.bind
  rcases h data p with ⟨x, q, h⟩ | h
  · rw [h]; exact .inl ⟨x, q, rfl⟩
  · rw [← h]
    rcases m ⟨c, data⟩ p with ⟨r, q⟩
    rcases r with a | e | x
    · exact hf a data q
    · exact .inr rfl
    · exact .inr rfl

theorem ite {b : Prop} [Decidable b] {m m' n n' : Rd α} (hm : MildR c c' m m') (hn : MildR c c' n n') :
    MildR c c' (if b then m else n) (if b then m' else n') := by
  split
  · exact hm
  · exact hn

theorem readExact (h : Milder' c c') (n : Nat) : MildR c c' (Rd.readExact n) (Rd.readExact n) := by
  intro data p
  refine .inr ?_
  unfold Rd.readExact
  rw [show (Env.mk c data).cfg.eofPos = (Env.mk c' data).cfg.eofPos from h.2]

theorem u8 (h : Milder' c c') : MildR c c' Rd.u8 Rd.u8 := bind (readExact h 1) (fun _ => pure _)
theorem u16 (h : Milder' c c') : MildR c c' Rd.u16 Rd.u16 := bind (readExact h 2) (fun _ => pure _)
theorem u32 (h : Milder' c c') : MildR c c' Rd.u32 Rd.u32 := bind (readExact h 4) (fun _ => pure _)

theorem peek {m m' : Rd α} (h : MildR c c' m m') : MildR c c' (Rd.peek m) (Rd.peek m') := by
  intro data p
  rcases h data p with ⟨x, q, h⟩ | h
  · exact .inl ⟨x, p, by unfold Rd.peek; rw [h]⟩
  · exact .inr (by unfold Rd.peek; rw [h])

theorem i32 (h : Milder' c c') (z : Int) : MildR c c' (Rd.i32 z) (Rd.i32 z) := by
  intro data p
  show (∃ x q, (wrapI32 c.checks z, p) = (.panic x, q)) ∨ (wrapI32 c.checks z, p) = (wrapI32 c'.checks z, p)
  unfold wrapI32
  by_cases h1 : -2 ^ 31 ≤ z ∧ z < 2 ^ 31
  · rw [if_pos h1]
    exact .inr (by rw [if_pos h1])
  · rw [if_neg h1, if_neg h1]
    by_cases h2 : c.checks = true
    · rw [if_pos h2]
      exact .inl ⟨_, _, rfl⟩
    · rw [if_neg h2, if_neg (fun h3 => h2 (h.1.1 h3))]
      exact .inr rfl

theorem replicate {m m' : Rd α} (h : MildR c c' m m') (n : Nat) : MildR c c' (Rd.replicate n m) (Rd.replicate n m') := by
  induction n with
  | zero => exact pure _
  | succ n ih => exact bind h (fun _ => bind ih (fun _ => pure _))

theorem bytes (h : Milder' c c') (n : Nat) : MildR c c' (Rd.bytes n) (Rd.bytes n) := by
  intro data p
  have := replicate (u8 h) n data p
  unfold Rd.bytes Rd.vec
  show (∃ x q, (if c.prealloc = true ∧ n * 1 > 2 ^ 63 - 1 then Rd.panic .capacity else Rd.replicate n Rd.u8) ⟨c, data⟩ p =
      (.panic x, q)) ∨
    (if c.prealloc = true ∧ n * 1 > 2 ^ 63 - 1 then Rd.panic .capacity else Rd.replicate n Rd.u8) ⟨c, data⟩ p =
    (if c'.prealloc = true ∧ n * 1 > 2 ^ 63 - 1 then Rd.panic .capacity else Rd.replicate n Rd.u8) ⟨c', data⟩ p
  by_cases h1 : c.prealloc = true ∧ n * 1 > 2 ^ 63 - 1
  · rw [if_pos h1]
    exact .inl ⟨_, _, rfl⟩
  · rw [if_neg h1, if_neg (fun h2 => h1 ⟨h.1.2.1 h2.1, h2.2⟩)]
    exact this

theorem number (h : Milder' c c') : MildR c c' readNumber readNumber := by
  unfold readNumber Rd.positiveTwoByte Rd.negativeTwoByte
  repeat' first
    | exact pure _
    | exact raise _
    | exact u8 h
    | exact u16 h
    | exact u32 h
    | exact i32 h _
    | refine ite ?_ ?_
    | refine bind ?_ (fun _ => ?_)

end MildR

/-- A computation on a program panics in the first build or does the same in both. -/
def Mild (c c' : Config) (m m' : PM α) : Prop := ∀ s, (∃ x t, m c s = (.panic x, t)) ∨ m c s = m' c' s

namespace Mild
variable {c c' : Config}

theorem pure (a : α) : Mild c c' (PM.pure a) (PM.pure a) := fun _ => .inr rfl
theorem raise (r : Reason) : Mild c c' (PM.raise r : PM α) (PM.raise r) := fun _ => .inr rfl
theorem panic (x : Panic) : Mild c c' (PM.panic x : PM α) (PM.panic x) := fun _ => .inr rfl
theorem get : Mild c c' PM.get PM.get := fun _ => .inr rfl
theorem modify (f : Program → Program) : Mild c c' (PM.modify f) (PM.modify f) := fun _ => .inr rfl
theorem ofRes (r : Res α) : Mild c c' (PM.ofRes r) (PM.ofRes r) := fun _ => .inr rfl

theorem bind {m m' : PM α} {f f' : α → PM β} (h : Mild c c' m m') (hf : ∀ a, Mild c c' (f a) (f' a)) :
    Mild c c' (m >>= f) (m' >>= f') := by
  intro s
  show (∃ x t, PM.bind m f c s = (.panic x, t)) ∨ PM.bind m f c s = PM.bind m' f' c' s
  unfold PM.bind
  rcases h s with ⟨x, q, h⟩ | h
  · rw [h]; exact .inl ⟨x, q, rfl⟩
  · rw [← h]
    rcases m c s with ⟨r, t⟩
    rcases r with a | e | x
    · exact hf a t
    · exact .inr rfl
    · exact .inr rfl

theorem cfg_bind {f f' : Config → PM α} (h : Mild c c' (f c) (f' c')) : Mild c c' (PM.cfg >>= f) (PM.cfg >>= f') := h

theorem ite {b : Prop} [Decidable b] {m m' n n' : PM α} (hm : Mild c c' m m') (hn : Mild c c' n n') :
    Mild c c' (if b then m else n) (if b then m' else n') := by
  split
  · exact hm
  · exact hn

theorem tape {m m' : Rd α} (h : MildR c c' m m') : Mild c c' (PM.tape m) (PM.tape m') := by
  intro s
  unfold PM.tape
  rcases h s.routine.code s.routine.pos with ⟨x, q, h⟩ | h
  · rw [h]; exact .inl ⟨_, _, rfl⟩
  · rw [h]; exact .inr rfl

theorem addI32 (h : Milder' c c') (a b : Int) :
    Mild c c' (PM.ofRes (addI32 c.checks a b)) (PM.ofRes (addI32 c'.checks a b)) := by
  intro s
  unfold PM.ofRes PS.addI32 wrapI32
  by_cases h1 : -2 ^ 31 ≤ a + b ∧ a + b < 2 ^ 31
  · rw [if_pos h1]
    exact .inr (by rw [if_pos h1])
  · rw [if_neg h1, if_neg h1]
    by_cases h2 : c.checks = true
    · rw [if_pos h2]
      exact .inl ⟨_, _, rfl⟩
    · rw [if_neg h2, if_neg (fun h3 => h2 (h.1.1 h3))]
      exact .inr rfl

theorem negI32 (h : Milder' c c') (a : Int) :
    Mild c c' (PM.ofRes (negI32 c.checks a)) (PM.ofRes (negI32 c'.checks a)) := by
  intro s
  unfold PM.ofRes Type2.negI32
  by_cases h1 : a = -2 ^ 31
  · rw [if_pos h1, if_pos h1]
    by_cases h2 : c.checks = true
    · rw [if_pos h2]
      exact .inl ⟨_, _, rfl⟩
    · rw [if_neg h2, if_neg (fun h3 => h2 (h.1.1 h3))]
      exact .inr rfl
  · rw [if_neg h1, if_neg h1]
    exact .inr rfl

theorem push (x : F32) : Mild c c' (push x) (push x) := modify _

theorem pop : Mild c c' pop pop := by
  unfold Type2.pop
  refine bind get (fun s => ?_)
  split
  · exact bind (modify _) (fun _ => pure _)
  · exact raise _

theorem popInt : Mild c c' popInt popInt := by
  unfold Type2.popInt
  refine bind get (fun s => ?_)
  split
  · exact bind (modify _) (fun _ => ite (pure _) (raise _))
  · exact raise _

theorem readStack (i : Nat) : Mild c c' (readStack i) (readStack i) := by
  unfold Type2.readStack
  refine bind get (fun s => ite (raise _) ?_)
  split
  · exact pure _
  · exact panic _

theorem times {m m' : PM Unit} (h : Mild c c' m m') (n : Nat) : Mild c c' (times n m) (times n m') := by
  induction n with
  | zero => exact pure _
  | succ n ih => exact bind h (fun _ => ih)

theorem takeOperands (h : Milder' c c') (fuel : Nat) : Mild c c' (takeOperands fuel) (takeOperands fuel) := by
  induction fuel with
  | zero => exact panic _
  | succ n ih =>
    unfold Type2.takeOperands
    exact bind (tape (MildR.peek (MildR.u8 h))) (fun _ => ite (bind (tape (MildR.number h)) (fun _ => bind (push _) (fun _ => ih)))
      (pure _))

theorem takeOperator (h : Milder' c c') (code : UInt8) : Mild c c' (takeOperator code) (takeOperator code) := by
  unfold Type2.takeOperator
  exact ite (bind (tape (MildR.u16 h)) (fun _ => ofRes _)) (bind (tape (MildR.u8 h)) (fun _ => ofRes _))

theorem clear (op : Operator) (l : List (List Pred)) : Mild c c' (clear op l) (clear op l) := by
  unfold Type2.clear
  refine bind get (fun s => ?_)
  dsimp only
  split
  · exact raise _
  · refine bind (modify _) (fun _ => bind (ite ?_ (pure _)) (fun _ => pure _))
    split
    · exact modify _
    · exact panic _

theorem roll (h : Milder' c c') : Mild c c' roll roll := by
  unfold Type2.roll
  refine bind popInt (fun _ => bind popInt (fun _ => bind get (fun s => ite (raise _) (ite (raise _) (ite (ite (times ?_ _)
    (ite (cfg_bind (bind (negI32 h _) (fun _ => times ?_ _))) (pure _))) (pure _))))))
  · unfold rollUp
    exact bind pop (fun _ => bind get (fun _ => ite (modify _) (panic _)))
  · unfold rollDown
    refine bind get (fun s => ?_)
    split
    · exact bind (modify _) (fun _ => push _)
    · exact panic _

theorem call (h : Milder' c c') (f : Program → List (List UInt8)) : Mild c c' (call f) (call f) := by
  unfold Type2.call
  refine bind popInt (fun _ => bind get (fun s => cfg_bind (bind (addI32 h _ _) (fun _ => ite (raise _) ?_))))
  split
  · exact modify _
  · exact panic _

theorem dispatch (h : Milder' c c') (op : Operator) : Mild c c' (dispatch op) (dispatch op) := by
  cases op <;> unfold Type2.dispatch <;> dsimp only <;>
  repeat' first
    | exact clear _ _
    | exact pure _
    | exact push _
    | exact pop
    | exact popInt
    | exact roll h
    | exact call h _
    | exact readStack _
    | exact raise _
    | exact get
    | exact modify _
    | exact ofRes _
    | exact tape (MildR.bytes h _)
    | refine bind ?_ (fun _ => ?_)
    | split

theorem step (h : Milder' c c') : Mild c c' step step := by
  unfold Type2.step
  exact bind get (fun s => ite (pure _) (bind (takeOperands h _) (fun _ => bind (takeOperator h _) (fun _ => dispatch h _))))

end Mild

theorem nextFuel_mild {c c' : Config} (h : Milder' c c') (fuel : Nat) (s : Program) :
    (∃ x t, nextFuel fuel c s = some (.panic x, t)) ∨ nextFuel fuel c s = nextFuel fuel c' s := by
  induction fuel generalizing s with
  | zero => exact .inr rfl
  | succ n ih =>
    unfold nextFuel
    rcases Mild.step h s with ⟨x, t, h1⟩ | h1
    · rw [h1]; exact .inl ⟨x, t, rfl⟩
    · rw [← h1]
      rcases step c s with ⟨_ | _ | _, t⟩
      · rename_i a
        cases a with
        | ret r => exact .inr rfl
        | again => exact ih t
      · exact .inr rfl
      · exact .inr rfl

end PS.Type2
