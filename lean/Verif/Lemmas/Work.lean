import Verif.Spec.Work
import Verif.Lemmas.Wrap
import Verif.Props.Limits
/-!
# Lemmas: the work of executing programs
-/
namespace PS.Type2
open PS.Spec hiding Operand Operation
open PS.Type2.Spec

namespace Timed
open WM

/-! ## Counting does not change anything -/

/-- Without the count, it is the same. -/
def Erases (w : WM α) (m : PM α) : Prop := ∀ cfg s, (w cfg s).1 = m cfg s

theorem Erases.lift (m : PM α) : Erases (lift m) m := fun _ _ => rfl

theorem Erases.bind {w : WM α} {m : PM α} {f : α → WM β} {g : α → PM β} (h : Erases w m) (hf : ∀ a, Erases (f a) (g a)) :
    Erases (w >>= f) (m >>= g) := fun cfg s => by
  have h1 := h cfg s
  show (WM.bind w f cfg s).1 = PM.bind m g cfg s
  unfold WM.bind PM.bind
  rcases e : w cfg s with ⟨⟨a | x | x, t⟩, n⟩ <;> rw [e] at h1 <;> rw [← h1]
  exact hf a cfg t

theorem Erases.spend (a b : Nat) {f : Unit → WM β} {m : PM β} (h : Erases (f ()) m) : Erases (WM.spend a b >>= f) m :=
  fun cfg s => h cfg s

theorem erases_takeOperands : ∀ fuel, Erases (takeOperands fuel) (Type2.takeOperands fuel)
  | 0 => .lift _
  | fuel + 1 => by
    refine .bind (.lift _) fun code => ?_
    split
    · exact .spend _ _ (.bind (.lift _) fun _ => .bind (.lift _) fun _ => erases_takeOperands fuel)
    · exact .lift _

theorem foldl_fst {f : Option Nat × Nat → Nat → Option Nat × Nat} {g : Option Nat → Nat → Option Nat}
    (h : ∀ q i, (f q i).1 = g q.1 i) (l : List Nat) (q : Option Nat × Nat) : (l.foldl f q).1 = l.foldl g q.1 := by
  induction l generalizing q with
  | nil => rfl
  | cons i l ih => rw [List.foldl_cons, List.foldl_cons, ih, h]

theorem reduce_fst : ∀ (p : List Pred) (q : Option Nat × Nat) (left : Nat), (reduce p q left).1 = Type2.reduce p q.1 left
  | [], (none, n), left => rfl
  | [], (some m, n), left => rfl
  | .equal count :: tail, (min, n), left => by
    unfold reduce Type2.reduce
    split
    · exact reduce_fst tail _ _
    · rfl
  | .maybeEqual count :: tail, (min, n), left => by
    unfold reduce Type2.reduce
    simp only
    split
    · rw [reduce_fst tail, reduce_fst tail]
    · rw [reduce_fst tail]
  | .modulo count :: tail, (min, n), left => by
    unfold reduce Type2.reduce
    exact foldl_fst (g := fun min i => Type2.reduce tail min (left - i * count)) (fun q i => reduce_fst tail q _) _ _
  | .maybeModulo count :: tail, (min, n), left => by
    unfold reduce Type2.reduce
    exact foldl_fst (g := fun min i => Type2.reduce tail min (left - i * count)) (fun q i => reduce_fst tail q _) _ _

theorem alternatives_fst (ps : List (List Pred)) (q : Option Nat × Nat) (length : Nat) :
    (ps.foldl (fun q p => reduce p q length) q).1 = ps.foldl (fun min p => Type2.reduce p min length) q.1 := by
  induction ps generalizing q with
  | nil => rfl
  | cons p ps ih => rw [List.foldl_cons, List.foldl_cons, ih, reduce_fst]

theorem erases_clear (op : Operator) (ps : List (List Pred)) : Erases (clear op ps) (Type2.clear op ps) := by
  refine .bind (.lift _) fun s => ?_
  have h := alternatives_fst ps (none, 0) s.stack.length
  rcases e : ps.foldl (fun q p => reduce p q s.stack.length) (none, 0) with ⟨_ | min, n⟩ <;> rw [e] at h <;>
    simp only at h <;> simp only [e, ← h]
  · exact .spend _ _ (.lift _)
  · exact .spend _ _ (.bind (.lift _) fun _ => .spend _ _ (.bind (.lift _) fun _ => .lift _))

theorem unwind_fst : ∀ (r : Routine) (rs : List Routine), (unwind r rs).1 = Type2.unwind r rs
  | r, [] => rfl
  | r, c :: cs => by
    unfold unwind Type2.unwind
    split
    · exact unwind_fst c cs
    · rfl

theorem erases_times (span : Nat) {m : PM Unit} : ∀ n, Erases (times span n m) (Type2.times n m)
  | 0 => .lift _
  | n + 1 => .spend _ _ (.bind (.lift _) fun _ => erases_times span n)

theorem erases_roll : Erases roll Type2.roll := by
  refine .bind (.lift _) fun shift => .bind (.lift _) fun span => .bind (.lift _) fun s => ?_
  dsimp only
  split
  · exact .lift _
  split
  · exact .lift _
  split
  · split
    · exact erases_times _ _
    · split
      · exact .bind (.lift _) fun _ => .bind (.lift _) fun _ => erases_times _ _
      · exact .lift _
  · exact .lift _

theorem erases_dispatch (op : Operator) : Erases (dispatch op) (Type2.dispatch op) := by
  have hend : Erases (dispatch .opEndChar) (Type2.dispatch .opEndChar) := by
    refine .bind (.lift _) fun s => ?_
    have h := unwind_fst s.routine s.callers
    rcases e : unwind s.routine s.callers with ⟨⟨r, r', cs⟩, n⟩
    rw [e] at h
    simp only at h
    simp only [← h]
    exact .spend _ _ (.bind (.lift _) fun _ => .bind (.lift _) fun _ => .bind (.lift _) fun _ => .lift _)
  cases op <;> first
    | exact .lift _
    | exact erases_clear _ _
    | exact hend
    | exact .bind (.lift _) fun _ => erases_clear _ _
    | exact .bind (.lift _) fun _ => .bind (.lift _) fun _ => .spend _ _ (.bind (.lift _) fun _ => erases_clear _ _)
    | exact .bind erases_roll fun _ => .lift _

theorem erases_step : Erases step Type2.step := by
  refine .spend _ _ (.bind (.lift _) fun s => ?_)
  split
  · exact .lift _
  · exact .bind (erases_takeOperands _) fun _ => .bind (.lift _) fun _ => erases_dispatch _

theorem nextFuel_fst (cfg : Config) : ∀ (fuel : Nat) (s : Program),
    (nextFuel fuel cfg s).map Prod.fst = Type2.nextFuel fuel cfg s
  | 0, s => rfl
  | fuel + 1, s => by
    have h := erases_step cfg s
    unfold nextFuel Type2.nextFuel
    rw [← h]
    rcases step cfg s with ⟨⟨(o | _) | e | x, t⟩, w⟩
    · rfl
    · simp only
      rw [← nextFuel_fst cfg fuel t, Option.map_map]
      rfl
    · rfl
    · rfl

theorem next_iff {cfg : Config} {s t : Program} {r : Res (Option Operation)} :
    (∃ w, Next cfg s r t w) ↔ Type2.Next cfg s r t := by
  constructor
  · rintro ⟨w, fuel, h⟩
    exact ⟨fuel, by rw [← nextFuel_fst, h]; rfl⟩
  · rintro ⟨fuel, h⟩
    rw [← nextFuel_fst, Option.map_eq_some_iff] at h
    obtain ⟨⟨q, w⟩, h1, rfl⟩ := h
    exact ⟨w, fuel, h1⟩

theorem nextFuel_mono {cfg : Config} {fuel : Nat} {s : Program} {q : (Res (Option Operation) × Program) × Effort}
    (h : nextFuel fuel cfg s = some q) (k : Nat) : nextFuel (fuel + k) cfg s = some q := by
  induction fuel generalizing s q with
  | zero => simp [nextFuel] at h
  | succ fuel ih =>
    rw [show fuel + 1 + k = (fuel + k) + 1 by omega, nextFuel]
    rw [nextFuel] at h
    split at h
    · simpa using h
    · obtain ⟨q', h1, rfl⟩ := Option.map_eq_some_iff.mp h
      rw [ih h1]
      rfl
    · simpa using h
    · simpa using h

theorem next_unique {cfg : Config} {s t t' : Program} {r r' : Res (Option Operation)} {w w' : Effort} (h : Next cfg s r t w)
    (h' : Next cfg s r' t' w') : r = r' ∧ t = t' ∧ w = w' := by
  obtain ⟨f, h⟩ := h
  obtain ⟨f', h'⟩ := h'
  have h1 := nextFuel_mono h f'
  have h2 := nextFuel_mono h' f
  rw [Nat.add_comm, h1] at h2
  simp only [Option.some.injEq, Prod.mk.injEq] at h2
  exact ⟨h2.1.1, h2.1.2, h2.2⟩

/-! ## How much it is -/

theorem Effort.zero_add (w : Effort) : Effort.zero + w = w := by
  show Effort.add _ _ = _
  cases w
  simp [Effort.add, Effort.zero]

theorem Effort.add_loops (v w : Effort) : (v + w).loops = v.loops + w.loops := rfl

theorem Effort.add_moves (v w : Effort) : (v + w).moves = v.moves + w.moves := rfl

/-- At most so much work. -/
def Within (w : WM α) (cfg : Config) (s : Program) (n m : Nat) : Prop := (w cfg s).2.loops ≤ n ∧ (w cfg s).2.moves ≤ m

theorem Within.mono {w : WM α} {cfg : Config} {s : Program} {n m n' m' : Nat} (h : Within w cfg s n m) (hn : n ≤ n') (hm : m ≤ m') :
    Within w cfg s n' m' := ⟨Nat.le_trans h.1 hn, Nat.le_trans h.2 hm⟩

theorem Within.lift (m : PM α) {cfg : Config} {s : Program} {n k : Nat} : Within (WM.lift m) cfg s n k :=
  ⟨Nat.zero_le _, Nat.zero_le _⟩

theorem bind_ok {v : WM α} {f : α → WM β} {cfg : Config} {s t : Program} {a : α} {w : Effort} (h : v cfg s = ((.ok a, t), w)) :
    (v >>= f) cfg s = ((f a cfg t).1, w + (f a cfg t).2) := by
  show WM.bind v f cfg s = _
  unfold WM.bind
  rw [h]

theorem bind_err {v : WM α} {f : α → WM β} {cfg : Config} {s t : Program} {e : Err} {w : Effort} (h : v cfg s = ((.err e, t), w)) :
    (v >>= f) cfg s = ((.err e, t), w) := by
  show WM.bind v f cfg s = _
  unfold WM.bind
  rw [h]

theorem bind_panic {v : WM α} {f : α → WM β} {cfg : Config} {s t : Program} {e : Panic} {w : Effort}
    (h : v cfg s = ((.panic e, t), w)) : (v >>= f) cfg s = ((.panic e, t), w) := by
  show WM.bind v f cfg s = _
  unfold WM.bind
  rw [h]

theorem lift_ok {m : PM α} {f : α → WM β} {cfg : Config} {s t : Program} {a : α} (h : m cfg s = (.ok a, t)) :
    (WM.lift m >>= f) cfg s = f a cfg t := by
  rw [bind_ok (a := a) (t := t) (w := .zero) (by rw [← h]; rfl), Effort.zero_add]

theorem Within.bind {v : WM α} {f : α → WM β} {cfg : Config} {s : Program} {n m n' m' : Nat} (h : Within v cfg s n m)
    (hf : ∀ a t, (v cfg s).1 = (.ok a, t) → Within (f a) cfg t n' m') : Within (v >>= f) cfg s (n + n') (m + m') := by
  obtain ⟨h1, h2⟩ := h
  unfold Within
  rcases e : v cfg s with ⟨⟨a | x | x, t⟩, w⟩ <;> rw [e] at h1 h2
  · obtain ⟨h3, h4⟩ := hf a t (by rw [e])
    rw [bind_ok e]
    exact ⟨Nat.add_le_add h1 h3, Nat.add_le_add h2 h4⟩
  · rw [bind_err e]
    exact ⟨Nat.le_trans h1 (Nat.le_add_right _ _), Nat.le_trans h2 (Nat.le_add_right _ _)⟩
  · rw [bind_panic e]
    exact ⟨Nat.le_trans h1 (Nat.le_add_right _ _), Nat.le_trans h2 (Nat.le_add_right _ _)⟩

theorem Within.lift_bind {m : PM α} {f : α → WM β} {cfg : Config} {s : Program} {n k : Nat}
    (hf : ∀ a t, m cfg s = (.ok a, t) → Within (f a) cfg t n k) : Within (WM.lift m >>= f) cfg s n k := by
  have := Within.bind (v := WM.lift m) (cfg := cfg) (s := s) (n := 0) (m := 0) (.lift m) hf
  rwa [Nat.zero_add, Nat.zero_add] at this

theorem Within.spend {a b : Nat} {f : Unit → WM β} {cfg : Config} {s : Program} {n m : Nat} (h : Within (f ()) cfg s n m) :
    Within (WM.spend a b >>= f) cfg s (a + n) (b + m) :=
  ⟨Nat.add_le_add_left h.1 _, Nat.add_le_add_left h.2 _⟩

/-! ### Operands -/

theorem takeOperands_stack (cfg : Config) : ∀ (fuel : Nat) (s : Program), (takeOperands fuel cfg s).2.moves = 0 ∧
    (takeOperands fuel cfg s).2.loops ≤ (left s.routine).length ∧
    ∀ c t, (takeOperands fuel cfg s).1 = (.ok c, t) → (takeOperands fuel cfg s).2.loops + s.stack.length = t.stack.length
  | 0, s => ⟨rfl, Nat.zero_le _, fun c t h => by cases h⟩
  | fuel + 1, s => by
    unfold takeOperands
    rcases hp : PM.tape (Rd.peek Rd.u8) cfg s with ⟨code | e | x, s1⟩
    · rw [lift_ok hp]
      obtain ⟨rfl, l, hl⟩ := Words.peek_ok hp
      have hpos : 1 ≤ (left s1.routine).length := by rw [hl]; simp
      rcases hb : isOperandByte code with _ | _
      · refine ⟨rfl, Nat.zero_le _, fun c t h => ?_⟩
        cases h
        exact Nat.zero_add _
      · simp only [if_true]
        rw [bind_ok (v := WM.spend 1 0) (a := ()) (t := s1) (w := ⟨1, 0⟩) rfl]
        rcases hn : PM.tape readNumber cfg s1 with ⟨x | e | x, s2⟩
        · rw [lift_ok hn]
          obtain ⟨bs, rest, hx, hl', rfl⟩ := Words.tape_ok exact_readNumber hn
          have hne := List.length_pos_of_ne_nil (operand_ne_nil hx)
          have hpush : push x cfg (adv s1 [] bs.length) = (.ok (), adv s1 [x] bs.length) := by simp [push, PM.modify, adv]
          rw [lift_ok hpush]
          obtain ⟨h1, h2, h3⟩ := takeOperands_stack cfg fuel (adv s1 [x] bs.length)
          rw [left_adv hl'] at h2
          have hlen := congrArg List.length hl'
          rw [List.length_append] at hlen
          refine ⟨by simp only [Effort.add_moves, h1], by simp only [Effort.add_loops]; omega, fun c t h => ?_⟩
          have h4 := h3 c t h
          simp only [adv, List.length_append, List.length_cons, List.length_nil, Effort.add_loops] at h4 ⊢
          omega
        · rw [bind_err (v := WM.lift (PM.tape readNumber)) (e := e) (t := s2) (w := .zero) (by rw [← hn]; rfl)]
          exact ⟨rfl, hpos, fun c t h => by cases h⟩
        · rw [bind_panic (v := WM.lift (PM.tape readNumber)) (e := x) (t := s2) (w := .zero) (by rw [← hn]; rfl)]
          exact ⟨rfl, hpos, fun c t h => by cases h⟩
    · rw [bind_err (v := WM.lift (PM.tape (Rd.peek Rd.u8))) (e := e) (t := s1) (w := .zero) (by rw [← hp]; rfl)]
      exact ⟨rfl, Nat.zero_le _, fun c t h => by cases h⟩
    · rw [bind_panic (v := WM.lift (PM.tape (Rd.peek Rd.u8))) (e := x) (t := s1) (w := .zero) (by rw [← hp]; rfl)]
      exact ⟨rfl, Nat.zero_le _, fun c t h => by cases h⟩

/-! ### Operators -/

theorem foldl_snd {f : Option Nat × Nat → Nat → Option Nat × Nat} {k : Nat} (h : ∀ q i, (f q i).2 ≤ q.2 + k) (l : List Nat)
    (q : Option Nat × Nat) : (l.foldl f q).2 ≤ q.2 + k * l.length := by
  induction l generalizing q with
  | nil => simp
  | cons i l ih =>
    have h1 := ih (f q i)
    have h2 := h q i
    rw [List.foldl_cons, List.length_cons, Nat.mul_succ]
    omega

theorem reduce_nil (q : Option Nat × Nat) (left : Nat) : (reduce [] q left).2 ≤ q.2 + 1 := by
  rcases q with ⟨_ | m, n⟩ <;> simp [reduce]

theorem reduce_equal {tail : List Pred} {count left k : Nat} (h : ∀ q left', left' ≤ left → (reduce tail q left').2 ≤ q.2 + k)
    (q : Option Nat × Nat) : (reduce (.equal count :: tail) q left).2 ≤ q.2 + (k + 1) := by
  rcases q with ⟨min, n⟩
  unfold reduce
  split
  · have := h (min, n + 1) (left - count) (by omega)
    simp only at this ⊢
    omega
  · simp only; omega

theorem reduce_maybeEqual {tail : List Pred} {count left k : Nat} (h : ∀ q left', left' ≤ left → (reduce tail q left').2 ≤ q.2 + k)
    (q : Option Nat × Nat) : (reduce (.maybeEqual count :: tail) q left).2 ≤ q.2 + (2 * k + 1) := by
  rcases q with ⟨min, n⟩
  unfold reduce
  have h1 := h (min, n + 1) left (Nat.le_refl _)
  simp only at h1 ⊢
  split
  · have := h (reduce tail (min, n + 1) left) (left - count) (by omega)
    omega
  · omega

theorem reduce_modulo {tail : List Pred} {count left k : Nat} (h : ∀ q left', left' ≤ left → (reduce tail q left').2 ≤ q.2 + k)
    (q : Option Nat × Nat) : (reduce (.modulo count :: tail) q left).2 ≤ q.2 + (k * (left / count) + 1) := by
  rcases q with ⟨min, n⟩
  unfold reduce
  have := foldl_snd (f := fun q i => reduce tail q (left - i * count)) (k := k) (fun q i => h q _ (by omega))
    (List.range' 1 (left / count)) (min, n + 1)
  rw [List.length_range'] at this
  simp only at this ⊢
  omega

theorem reduce_maybeModulo {tail : List Pred} {count left k : Nat} (h : ∀ q left', left' ≤ left → (reduce tail q left').2 ≤ q.2 + k)
    (q : Option Nat × Nat) : (reduce (.maybeModulo count :: tail) q left).2 ≤ q.2 + (k * (left / count + 1) + 1) := by
  rcases q with ⟨min, n⟩
  unfold reduce
  have := foldl_snd (f := fun q i => reduce tail q (left - i * count)) (k := k) (fun q i => h q _ (by omega))
    (List.range' 0 (left / count + 1)) (min, n + 1)
  rw [List.length_range'] at this
  simp only at this ⊢
  omega

/-- The operands are looked at, and collected. -/
theorem clear_within {op : Operator} {ps : List (List Pred)} {cfg : Config} {s : Program}
    (h : (ps.foldl (fun q p => reduce p q s.stack.length) (none, 0)).2 ≤ s.stack.length + 6) :
    Within (clear op ps) cfg s (2 * s.stack.length + 6) 0 := by
  refine .lift_bind fun a t ha => ?_
  cases ha
  rcases e : ps.foldl (fun q p => reduce p q s.stack.length) (none, 0) with ⟨_ | min, n⟩ <;> rw [e] at h <;> simp only [e]
  · exact (Within.spend (.lift _ (n := 0) (k := 0))).mono (by simp only at h; omega) (Nat.le_refl _)
  · refine (Within.spend (n := s.stack.length) (m := 0) (.lift_bind fun _ _ _ => ?_)).mono (by simp only at h; omega) (Nat.le_refl _)
    refine (Within.spend (n := 0) (m := 0) (.lift_bind fun _ _ _ => .lift _)).mono ?_ (Nat.le_refl _)
    simp

theorem unwind_snd : ∀ (r : Routine) (rs : List Routine), (unwind r rs).2 ≤ rs.length
  | r, [] => Nat.le_refl _
  | r, c :: cs => by
    unfold unwind
    have := unwind_snd c cs
    split
    · simp only [List.length_cons]; omega
    · simp

theorem times_within (span : Nat) (m : PM Unit) (cfg : Config) : ∀ (n : Nat) (s : Program), Within (times span n m) cfg s 0 (span * n)
  | 0, s => .lift _
  | n + 1, s => (Within.spend (.lift_bind fun _ t _ => times_within span m cfg n t)).mono (Nat.le_refl _)
    (by rw [Nat.mul_succ]; omega)

/-- A loop that does not fail is executed to its end. -/
theorem times_moves (span : Nat) (m : PM Unit) (cfg : Config) : ∀ (n : Nat) (s : Program) {u : Unit} {t : Program},
    (times span n m cfg s).1 = (.ok u, t) → (times span n m cfg s).2 = ⟨0, span * n⟩
  | 0, s, u, t, _ => rfl
  | n + 1, s, u, t, h => by
    unfold times at h ⊢
    rw [bind_ok (v := WM.spend 0 span) (a := ()) (t := s) (w := ⟨0, span⟩) rfl] at h ⊢
    rcases e : m cfg s with ⟨u | e' | x, s1⟩
    · rw [lift_ok e] at h ⊢
      rw [times_moves span m cfg n s1 h]
      show Effort.mk (0 + 0) (span + span * n) = _
      rw [Nat.mul_succ, Nat.add_comm span]
    · rw [bind_err (v := WM.lift m) (e := e') (t := s1) (w := .zero) (by rw [← e]; rfl)] at h
      simp at h
    · rw [bind_panic (v := WM.lift m) (e := x) (t := s1) (w := .zero) (by rw [← e]; rfl)] at h
      simp at h

theorem popInt_inv {cfg : Config} {s t : Program} {i : Int} (hs : ∀ x ∈ s.stack, x.WF) (h : popInt cfg s = (.ok i, t)) :
    ∃ st x, s.stack = st ++ [x] ∧ IntArg x i ∧ t = { s with stack := st } := by
  rcases List.eq_nil_or_concat s.stack with hst | ⟨st, x, hst⟩
  · rw [popInt_nil hst] at h
    simp at h
  · rw [List.concat_eq_append] at hst
    have hx := hs x (by rw [hst]; simp)
    by_cases hi : ∃ j, IntArg x j
    · obtain ⟨j, hj⟩ := hi
      rw [popInt_ok hst hx hj] at h
      simp only [Prod.mk.injEq, Res.ok.injEq] at h
      obtain ⟨rfl, rfl⟩ := h
      exact ⟨st, x, hst, hj, rfl⟩
    · push Not at hi
      rw [popInt_err hst hx hi] at h
      simp at h

theorem roll_within {cfg : Config} {s : Program} (hs : ∀ x ∈ s.stack, x.WF) : Within roll cfg s 0 (2 ^ 31 * s.stack.length) := by
  refine .lift_bind fun shift t1 h1 => .lift_bind fun span t2 h2 => .lift_bind fun a t3 h3 => ?_
  cases h3
  obtain ⟨st, x, e1, hx, rfl⟩ := popInt_inv hs h1
  obtain ⟨st', y, e2, hy, rfl⟩ := popInt_inv (fun x hx => hs x (by rw [e1]; exact List.mem_append_left _ hx)) h2
  have b1 := intArg_bounds hx
  have e2 : st = st' ++ [y] := e2
  have hlen : st'.length ≤ s.stack.length := by rw [e1, e2]; simp
  have key : ∀ n : Nat, n ≤ 2 ^ 31 → ¬ span.toNat > st'.length → span.toNat * n ≤ 2 ^ 31 * s.stack.length := by
    intro n hn hsp
    rw [Nat.mul_comm (2 ^ 31)]
    exact Nat.mul_le_mul (by omega) hn
  dsimp only
  split
  · exact .lift _
  split
  · exact .lift _
  · next hsp =>
    split
    · split
      · exact (times_within _ _ _ _ _).mono (Nat.le_refl _) (key _ (by omega) hsp)
      · split
        · refine .lift_bind fun c t3 h3 => .lift_bind fun n t4 h4 => ?_
          refine (times_within _ _ _ _ _).mono (Nat.le_refl _) (key _ ?_ hsp)
          have h4 : negI32 c.checks shift = .ok n := congrArg Prod.fst h4
          unfold negI32 at h4
          split at h4
          · split at h4
            · simp at h4
            · simp only [Res.ok.injEq] at h4; omega
          · simp only [Res.ok.injEq] at h4; omega
        · exact .lift _
    · exact .lift _

theorem dispatch_path {op : Operator} (hop : Path op ∨ Stem op) (cfg : Config) (t : Program) :
    Within (dispatch op) cfg t (2 * t.stack.length + 6) 0 := by
  have r0 := reduce_nil
  generalize hl : t.stack.length = l
  have fin : ∀ (ps : List (List Pred)), (∀ l', (ps.foldl (fun q p => reduce p q l') (none, 0)).2 ≤ l' + 6) → ∀ (op : Operator) (t : Program),
      Within (clear op ps) cfg t (2 * t.stack.length + 6) 0 := fun ps h op t => clear_within (h _)
  have one : ∀ (p : List Pred) l' k, (∀ q, (reduce p q l').2 ≤ q.2 + k) → k ≤ l' + 6 →
      ([p].foldl (fun q p => reduce p q l') (none, 0)).2 ≤ l' + 6 := by
    intro p l' k h hk
    have := h (none, 0)
    simp only [List.foldl_cons, List.foldl_nil] at this ⊢
    omega
  have two : ∀ (p p' : List Pred) l' k k', (∀ q, (reduce p q l').2 ≤ q.2 + k) → (∀ q, (reduce p' q l').2 ≤ q.2 + k') → k + k' ≤ l' + 6 →
      ([p, p'].foldl (fun q p => reduce p q l') (none, 0)).2 ≤ l' + 6 := by
    intro p p' l' k k' h h' hk
    have h1 := h (none, 0)
    have h2 := h' (reduce p (none, 0) l')
    simp only [List.foldl_cons, List.foldl_nil] at h1 h2 ⊢
    omega
  have eq1 : ∀ c l', ([[Pred.equal c]].foldl (fun q p => reduce p q l') (none, 0)).2 ≤ l' + 6 := fun c l' =>
    one _ l' _ (reduce_equal fun q l'' _ => r0 q l'') (by omega)
  have mod1 : ∀ c l', ([[Pred.modulo c]].foldl (fun q p => reduce p q l') (none, 0)).2 ≤ l' + 6 := fun c l' =>
    one _ l' _ (reduce_modulo fun q l'' _ => r0 q l'') (by have := Nat.div_le_self l' c; omega)
  have line : ∀ l', ([[Pred.equal 1, .maybeModulo 2], [.modulo 2]].foldl (fun q p => reduce p q l') (none, 0)).2 ≤ l' + 6 := fun l' =>
    two _ _ l' _ _ (reduce_equal (k := 1 * (l' / 2 + 1) + 1) fun q l'' h => by
      have := reduce_maybeModulo (count := 2) (left := l'') (fun q l3 _ => r0 q l3) q
      have := Nat.div_le_div_right (c := 2) h
      omega) (reduce_modulo fun q l'' _ => r0 q l'') (by omega)
  have hh : ∀ l', ([[Pred.maybeEqual 1, .modulo 4]].foldl (fun q p => reduce p q l') (none, 0)).2 ≤ l' + 6 := fun l' =>
    one _ l' _ (reduce_maybeEqual (k := 1 * (l' / 4) + 1) fun q l'' h => by
      have := reduce_modulo (count := 4) (left := l'') (fun q l3 _ => r0 q l3) q
      have := Nat.div_le_div_right (c := 4) h
      omega) (by omega)
  have hv : ∀ l', ([[Pred.equal 4, .maybeModulo 8, .maybeEqual 1], [.modulo 8, .maybeEqual 1]].foldl (fun q p => reduce p q l') (none, 0)).2 ≤
      l' + 6 := fun l' =>
    two _ _ l' _ _ (reduce_equal (k := 3 * (l' / 8 + 1) + 1) fun q l'' h => by
      have := reduce_maybeModulo (count := 8) (left := l'')
        (fun q l3 _ => reduce_maybeEqual (count := 1) (left := l3) (fun q l4 _ => r0 q l4) q) q
      have := Nat.div_le_div_right (c := 8) h
      omega) (reduce_modulo fun q l3 _ => reduce_maybeEqual (count := 1) (left := l3) (fun q l4 _ => r0 q l4) q) (by omega)
  have mode : ∀ c e l', 2 ≤ c → ([[Pred.modulo c, .equal e]].foldl (fun q p => reduce p q l') (none, 0)).2 ≤ l' + 6 := fun c e l' hc =>
    one _ l' _ (reduce_modulo fun q l3 _ => reduce_equal (count := e) (left := l3) (fun q l4 _ => r0 q l4) q) (by
      have := Nat.div_le_div_left hc (a := l') (by decide)
      omega)
  have stem : ∀ l', ([[Pred.equal 2, .maybeModulo 2]].foldl (fun q p => reduce p q l') (none, 0)).2 ≤ l' + 6 := fun l' =>
    one _ l' _ (reduce_equal (k := 1 * (l' / 2 + 1) + 1) fun q l'' h => by
      have := reduce_maybeModulo (count := 2) (left := l'') (fun q l3 _ => r0 q l3) q
      have := Nat.div_le_div_right (c := 2) h
      omega) (by omega)
  subst hl
  rcases hop with hop | hop
  · simp only [Path, List.mem_cons, List.not_mem_nil, or_false] at hop
    rcases hop with rfl | rfl | rfl | rfl | rfl | rfl | rfl | rfl | rfl | rfl | rfl | rfl | rfl | rfl | rfl | rfl | rfl
    · exact fin _ (eq1 2) _ _
    · exact fin _ (eq1 1) _ _
    · exact fin _ (eq1 1) _ _
    · exact fin _ (mod1 2) _ _
    · exact fin _ line _ _
    · exact fin _ line _ _
    · exact fin _ (mod1 6) _ _
    · exact fin _ hh _ _
    · exact fin _ hh _ _
    · exact fin _ hv _ _
    · exact fin _ hv _ _
    · exact fin _ (fun l' => mode 6 2 l' (by decide)) _ _
    · exact fin _ (fun l' => mode 2 6 l' (by decide)) _ _
    · exact fin _ (eq1 13) _ _
    · exact fin _ (eq1 7) _ _
    · exact fin _ (eq1 9) _ _
    · exact fin _ (eq1 11) _ _
  · have key : ∀ op, Within (do WM.lift countStems; clear op [[.equal 2, .maybeModulo 2]]) cfg t (2 * t.stack.length + 6) 0 := by
      intro op
      refine .lift_bind fun a t' h => ?_
      cases h
      exact fin _ stem _ _
    simp only [Stem, List.mem_cons, List.not_mem_nil, or_false] at hop
    rcases hop with rfl | rfl | rfl | rfl <;> exact key _

theorem dispatch_mask {op : Operator} (hop : Mask op) (cfg : Config) (t : Program) :
    Within (dispatch op) cfg t (min (maskLength t) (left t.routine).length + (2 * t.stack.length + 6)) 0 := by
  have key : ∀ op, Within (do
      WM.lift countStems
      let s ← WM.lift PM.get
      WM.spend (min ((s.stems + 7) / 8) (s.routine.code.length - s.routine.pos)) 0
      let _ ← WM.lift (PM.tape (Rd.bytes ((s.stems + 7) / 8)))
      clear op [[.equal 0]]) cfg t (min (maskLength t) (left t.routine).length + (2 * t.stack.length + 6)) 0 := by
    intro op
    refine .lift_bind fun a t1 h => ?_
    cases h
    refine .lift_bind fun a t2 h => ?_
    cases h
    rw [left_length]
    refine Within.spend (n := 2 * t.stack.length + 6) (m := 0) ?_
    refine .lift_bind fun a t2 h => ?_
    have h1 : t2.stack = t.stack := (congrArg (fun q => q.2.stack) h).symm
    have := clear_within (op := op) (ps := [[.equal 0]]) (cfg := cfg) (s := t2) (by
      have := reduce_equal (count := 0) (left := t2.stack.length) (k := 1) (fun q l'' _ => reduce_nil q l'') (none, 0)
      simp only [List.foldl_cons, List.foldl_nil] at this ⊢
      omega)
    rwa [h1] at this
  simp only [Mask, List.mem_cons, List.not_mem_nil, or_false] at hop
  rcases hop with rfl | rfl <;> exact key _

theorem dispatch_end (cfg : Config) (t : Program) : Within (dispatch .opEndChar) cfg t t.callers.length 0 := by
  refine .lift_bind fun a t1 h => ?_
  cases h
  have h := unwind_snd t.routine t.callers
  rcases e : unwind t.routine t.callers with ⟨⟨r, r', cs⟩, n⟩
  rw [e] at h
  simp only
  exact (Within.spend (n := 0) (m := 0) (.lift_bind fun _ _ _ => .lift_bind fun _ _ _ => .lift_bind fun _ _ _ => .lift _)).mono h
    (Nat.le_refl _)

theorem dispatch_roll {cfg : Config} {t : Program} (ht : ∀ x ∈ t.stack, x.WF) :
    Within (dispatch .opRoll) cfg t 0 (2 ^ 31 * t.stack.length) :=
  Within.bind (n' := 0) (m' := 0) (roll_within ht) fun _ _ _ => .lift _

theorem dispatch_other {op : Operator} (h1 : ¬ Path op) (h2 : ¬ Stem op) (h3 : ¬ Mask op) (h4 : op ≠ .opEndChar) (h5 : op ≠ .opRoll)
    (cfg : Config) (t : Program) : Within (dispatch op) cfg t 0 0 := by
  cases op <;> first
    | exact .lift _
    | exact absurd (by decide) h1
    | exact absurd (by decide) h2
    | exact absurd (by decide) h3
    | exact absurd rfl h4
    | exact absurd rfl h5

/-! ### Steps -/

theorem quiet_op {c : Bool} {op : Operator} {t : Program} {τ : State} (h : Quiet c (before op t) τ) :
    ¬ Path op ∧ ¬ Stem op ∧ ¬ Mask op ∧ op ≠ .opEndChar := by
  cases h with
  | stack hc hs =>
    obtain rfl := (before_code hc).1
    generalize (before op t).stack = st at hs
    cases hs <;> decide
  | callLocal hc => obtain rfl := (before_code hc).1; decide
  | callGlobal hc => obtain rfl := (before_code hc).1; decide
  | «return» hc => obtain rfl := (before_code hc).1; decide

/-- What the operands and the operator of an activation are. -/
theorem step_fetch_cases (cfg : Config) {s : Program} (hs : Sound s) :
    ((step cfg s).2.loops ≤ 1 + (left s.routine).length ∧ (step cfg s).2.moves = 0 ∧
      ((∃ e t, Type2.step cfg s = (.err e, t)) ∨ (∃ x t, Type2.step cfg s = (.panic x, t)) ∨ ∃ t, Type2.step cfg s = (.ok (.ret none), t) ∧ s.routine.done = true)) ∨
    ∃ op t, Sound t ∧ Pushes (view s) (before op t) ∧ Type2.step cfg s = Type2.dispatch op cfg t ∧
      (step cfg s).2.loops + s.stack.length = 1 + t.stack.length + (dispatch op cfg t).2.loops ∧
      (step cfg s).2.moves = (dispatch op cfg t).2.moves := by
  rcases hd : s.routine.done with _ | _
  · have e0 : step cfg s = (((do
        let code ← takeOperands (s.routine.code.length + 1)
        let operator ← WM.lift (takeOperator code)
        dispatch operator : WM Flow) cfg s).1, ⟨1, 0⟩ + ((do
        let code ← takeOperands (s.routine.code.length + 1)
        let operator ← WM.lift (takeOperator code)
        dispatch operator : WM Flow) cfg s).2) := by
      unfold step
      rw [bind_ok (v := WM.spend 1 0) (a := ()) (t := s) (w := ⟨1, 0⟩) rfl, lift_ok (m := PM.get) (a := s) (t := s) rfl, hd]
      rfl
    have e1 : Type2.step cfg s = (do
        let code ← Type2.takeOperands (s.routine.code.length + 1)
        let operator ← takeOperator code
        Type2.dispatch operator : PM Flow) cfg s := by
      unfold Type2.step
      rw [PM.bind_of_ok (m := PM.get) (a := s) (s' := s) rfl, hd]
      rfl
    rw [e0, e1]
    obtain ⟨k1, k2, k3⟩ := takeOperands_stack cfg (s.routine.code.length + 1) s
    have k4 := erases_takeOperands (s.routine.code.length + 1) cfg s
    rcases hr : takeOperands (s.routine.code.length + 1) cfg s with ⟨⟨c | e | x, s2⟩, w⟩
    · rw [hr] at k1 k2 k3 k4
      rw [bind_ok hr, PM.bind_of_ok k4.symm]
      obtain ⟨xs, bs, l, h1, h2, rfl⟩ := Words.takeOperands_ok _ k4.symm
      have k5 := k3 _ _ rfl
      rcases ho : takeOperator c cfg (adv s xs bs.length) with ⟨op | e | x, s3⟩
      · right
        rw [lift_ok ho, PM.bind_of_ok ho]
        obtain ⟨rest, h3, rfl⟩ := Words.takeOperator_ok (left_adv h2 xs) ho
        have h4 : left s.routine = bs ++ bytes op ++ rest := by
          rw [left_adv h2] at h3
          rw [h2, h3, List.append_assoc]
        rw [adv_adv, List.append_nil, ← List.length_append]
        obtain ⟨f1, f2⟩ := fetched hs h1 h4
        refine ⟨op, _, f1, ?_, rfl, ?_, ?_⟩
        · rw [f2]
          exact pushes_iff.mpr ⟨xs, bs, h1, by simp [view, h4], rfl⟩
        · simp only [Effort.add_loops, adv] at k5 ⊢
          omega
        · simp only [Effort.add_moves] at k1 ⊢
          omega
      · left
        rw [bind_err (v := WM.lift (takeOperator c)) (e := e) (t := s3) (w := .zero) (by rw [← ho]; rfl), PM.bind_of_err ho]
        refine ⟨?_, ?_, .inl ⟨_, _, rfl⟩⟩
        · simp only [Effort.add_loops, Effort.zero] at k2 ⊢; omega
        · simp only [Effort.add_moves, Effort.zero] at k1 ⊢; omega
      · left
        rw [bind_panic (v := WM.lift (takeOperator c)) (e := x) (t := s3) (w := .zero) (by rw [← ho]; rfl), PM.bind_of_panic ho]
        refine ⟨?_, ?_, .inr (.inl ⟨_, _, rfl⟩)⟩
        · simp only [Effort.add_loops, Effort.zero] at k2 ⊢; omega
        · simp only [Effort.add_moves, Effort.zero] at k1 ⊢; omega
    · left
      rw [hr] at k1 k2 k4
      rw [bind_err hr, PM.bind_of_err k4.symm]
      refine ⟨?_, ?_, .inl ⟨_, _, rfl⟩⟩
      · simp only [Effort.add_loops] at k2 ⊢; omega
      · simp only [Effort.add_moves] at k1 ⊢; omega
    · left
      rw [hr] at k1 k2 k4
      rw [bind_panic hr, PM.bind_of_panic k4.symm]
      refine ⟨?_, ?_, .inr (.inl ⟨_, _, rfl⟩)⟩
      · simp only [Effort.add_loops] at k2 ⊢; omega
      · simp only [Effort.add_moves] at k1 ⊢; omega
  · left
    have e0 : step cfg s = ((.ok (.ret none), s), ⟨1, 0⟩) := by
      unfold step
      rw [bind_ok (v := WM.spend 1 0) (a := ()) (t := s) (w := ⟨1, 0⟩) rfl, lift_ok (m := PM.get) (a := s) (t := s) rfl, hd]
      rfl
    have e1 := erases_step cfg s
    rw [e0] at e1
    rw [e0]
    exact ⟨Nat.le_add_right _ _, rfl, .inr (.inr ⟨_, e1.symm, rfl⟩)⟩

/-- The work of an activation, in all. -/
theorem step_any (cfg : Config) {s : Program} (hs : Sound s) :
    (step cfg s).2.loops ≤ 7 + 2 * s.stack.length + 3 * (left s.routine).length + s.callers.length ∧
    (step cfg s).2.moves ≤ 2 ^ 31 * (s.stack.length + (left s.routine).length) := by
  rcases step_fetch_cases cfg hs with ⟨h1, h2, -⟩ | ⟨op, t, ht, hp, -, h2, h3⟩
  · constructor
    · omega
    · rw [h2]; exact Nat.zero_le _
  · have hlen := pushes_length hp
    have hbyte := List.length_pos_of_ne_nil (bytes_ne_nil op)
    have e1 : (before op t).stack = t.stack := rfl
    have e2 : (before op t).code = bytes op ++ left t.routine := rfl
    have e3 : (view s).stack = s.stack := rfl
    have e4 : (view s).code = left s.routine := rfl
    have e5 : t.callers.length = s.callers.length := by
      have := congrArg List.length (pushes_eq hp).1
      simpa [before, view] using this
    rw [e1, e2, e3, e4, List.length_append] at hlen
    by_cases c1 : Path op ∨ Stem op
    · obtain ⟨k1, k2⟩ := dispatch_path c1 cfg t
      constructor
      · omega
      · omega
    by_cases c2 : Mask op
    · obtain ⟨k1, k2⟩ := dispatch_mask c2 cfg t
      have := Nat.min_le_right (maskLength t) (left t.routine).length
      constructor
      · omega
      · omega
    by_cases c3 : op = .opEndChar
    · subst c3
      obtain ⟨k1, k2⟩ := dispatch_end cfg t
      constructor
      · omega
      · omega
    by_cases c4 : op = .opRoll
    · subst c4
      obtain ⟨k1, k2⟩ := dispatch_roll (cfg := cfg) ht.stack
      constructor
      · omega
      · rw [h3]
        exact Nat.le_trans k2 (Nat.mul_le_mul_left _ (by omega))
    · obtain ⟨k1, k2⟩ := dispatch_other (fun h => c1 (.inl h)) (fun h => c1 (.inr h)) c2 c3 c4 cfg t
      constructor
      · omega
      · omega

/-- The work of an activation that goes on with another one. -/
theorem step_again {cfg : Config} {s t : Program} (hs : Sound s) (h : Type2.step cfg s = (.ok .again, t)) :
    ∃ υ, Pushes (view s) υ ∧ Quiet cfg.checks υ (view t) ∧ (step cfg s).2.loops + s.stack.length ≤ 1 + υ.stack.length := by
  rcases step_fetch_cases cfg hs with ⟨-, -, ⟨e, t', h'⟩ | ⟨x, t', h'⟩ | ⟨t', h', -⟩⟩ | ⟨op, t', ht, hp, h', h2, h3⟩
  · rw [h] at h'; simp at h'
  · rw [h] at h'; simp at h'
  · rw [h] at h'; simp at h'
  · rw [h] at h'
    have hq : Quiet cfg.checks (before op t') (view t) := by
      rcases dispatch_cases cfg op ht with ⟨s', g, hq, -⟩ | ⟨o, s', g, -⟩ | ⟨s', g, -⟩ | ⟨-, g⟩
      · rw [← h'] at g
        simp only [Prod.mk.injEq, true_and] at g
        rwa [g]
      · rw [← h'] at g; simp at g
      · rw [← h'] at g; simp at g
      · rcases g with ⟨_, _, g⟩ | ⟨-, -, _, g⟩ | ⟨-, -, -, _, g⟩ | ⟨-, -, _, g⟩ <;> rw [← h'] at g <;> simp at g
    obtain ⟨c1, c2, c3, c4⟩ := quiet_op hq
    refine ⟨_, hp, hq, ?_⟩
    have e1 : (before op t').stack = t'.stack := rfl
    rw [e1]
    by_cases c5 : op = .opRoll
    · subst c5
      have := (dispatch_roll (cfg := cfg) ht.stack).1
      omega
    · have := (dispatch_other c1 c2 c3 c4 c5 cfg t').1
      omega

/-- The work of an activation that yields an operation. -/
theorem step_some {cfg : Config} {s t : Program} {o : Operation} (hs : Sound s) (h : Type2.step cfg s = (.ok (.ret (some o)), t)) :
    ∃ υ, Pushes (view s) υ ∧ Emit υ o (view t) ∧ Sound t ∧
      (step cfg s).2.loops + s.stack.length + (left t.routine).length ≤ 6 + 3 * υ.stack.length + υ.code.length ∧
      (step cfg s).2.moves = 0 := by
  rcases step_fetch_cases cfg hs with ⟨-, -, ⟨e, t', h'⟩ | ⟨x, t', h'⟩ | ⟨t', h', -⟩⟩ | ⟨op, t', ht, hp, h', h2, h3⟩
  · rw [h] at h'; simp at h'
  · rw [h] at h'; simp at h'
  · rw [h] at h'; simp at h'
  · rw [h] at h'
    obtain ⟨hq, hst⟩ : Emit (before op t') o (view t) ∧ Sound t := by
      rcases dispatch_cases cfg op ht with ⟨s', g, hq, -⟩ | ⟨o, s', g, hq, hst⟩ | ⟨s', g, -⟩ | ⟨-, g⟩
      · rw [← h'] at g; simp at g
      · rw [← h'] at g
        simp only [Prod.mk.injEq, Res.ok.injEq, Flow.ret.injEq, Option.some.injEq] at g
        obtain ⟨rfl, rfl⟩ := g
        exact ⟨hq, hst⟩
      · rw [← h'] at g; simp at g
      · rcases g with ⟨_, _, g⟩ | ⟨-, -, _, g⟩ | ⟨-, -, -, _, g⟩ | ⟨-, -, _, g⟩ <;> rw [← h'] at g <;> simp at g
    refine ⟨_, hp, hq, hst, ?_⟩
    have e1 : (before op t').stack = t'.stack := rfl
    have e2 : (before op t').code = bytes op ++ left t'.routine := rfl
    have e3 : left t.routine = (view t).code := rfl
    have hbyte := List.length_pos_of_ne_nil (bytes_ne_nil op)
    rw [e1, e2, e3, List.length_append]
    generalize view t = τ at hq
    cases hq with
    | path hop hc =>
      obtain ⟨rfl, hr⟩ := before_code hc
      obtain ⟨k1, k2⟩ := dispatch_path (.inl hop) cfg t'
      subst hr
      exact ⟨by simp only; omega, by omega⟩
    | stem hop hc =>
      obtain ⟨rfl, hr⟩ := before_code hc
      obtain ⟨k1, k2⟩ := dispatch_path (.inr hop) cfg t'
      subst hr
      exact ⟨by simp only; omega, by omega⟩
    | mask hop hc hm =>
      rw [List.append_assoc] at hc
      obtain ⟨rfl, hr⟩ := before_code hc
      obtain ⟨k1, k2⟩ := dispatch_mask hop cfg t'
      have hm' : _ = maskLength t' := hm
      have := Nat.min_le_left (maskLength t') (left t'.routine).length
      have hlen := congrArg List.length hr
      rw [List.length_append] at hlen
      exact ⟨by simp only; omega, by omega⟩

/-! ### What work there is -/

theorem pushes_unique {σ υ υ' : State} (h : Pushes σ υ) {op op' : Operator} {r r' : List UInt8} (hc : υ.code = bytes op ++ r)
    (h' : Pushes σ υ') (hc' : υ'.code = bytes op' ++ r') : υ = υ' := by
  induction h using Relation.ReflTransGen.head_induction_on with
  | refl =>
    rcases Relation.ReflTransGen.cases_head h' with rfl | ⟨ρ, ⟨x, bs, rest, hx, hb, -⟩, -⟩
    · rfl
    · rw [hc] at hb
      exact absurd hb.symm (operand_bytes hx)
  | head h1 h2 ih =>
    obtain ⟨x, bs, rest, hx, hb, rfl⟩ := h1
    rcases Relation.ReflTransGen.cases_head h' with rfl | ⟨ρ, ⟨y, bs', rest', hy, hb', rfl⟩, h3⟩
    · rw [hb] at hc'
      exact absurd hc' (operand_bytes hx)
    · rw [hb] at hb'
      obtain ⟨rfl, rfl, rfl⟩ := operand_unique hx hy hb'
      exact ih h3

theorem view_inj_stack {op : Operator} {t : Program} {υ : State} (h : before op t = υ) : t.stack = υ.stack := by
  rw [← h]; rfl

/-- A roll moves its operands, every time. -/
theorem roll_moves {cfg : Config} {s t : Program} {m : Nat} (hs : ∀ x ∈ s.stack, x.WF) (hm : Moves .opRoll s.stack m)
    (hr : (roll cfg s).1 = (.ok (), t)) : (roll cfg s).2.moves = m := by
  have pops : ∀ {st as : List F32} {x y : F32} {n j : Int}, s.stack = st ++ as ++ [x, y] → IntArg x n → IntArg y j →
      popInt cfg s = (.ok j, { s with stack := st ++ as ++ [x] }) ∧
      popInt cfg { s with stack := st ++ as ++ [x] } = (.ok n, { s with stack := st ++ as }) := by
    intro st as x y n j e hx hy
    exact ⟨popInt_ok (by simp [e]) (hs y (by simp [e])) hy, popInt_ok rfl (hs x (by simp [e])) hx⟩
  unfold roll at hr ⊢
  generalize hst : s.stack = st0 at hm
  cases hm with
  | @roll st as x y n j hx hy hn hj =>
    obtain ⟨p1, p2⟩ := pops hst hx hy
    rw [lift_ok p1, lift_ok p2, lift_ok (m := PM.get) (a := { s with stack := st ++ as }) rfl] at hr ⊢
    dsimp only at hr ⊢
    have c2 : ¬ n.toNat > (st ++ as).length := by rw [hn]; simp
    rw [if_neg (by omega : ¬ n < 0), if_neg c2] at hr ⊢
    by_cases h0 : n > 0
    · rw [if_pos h0] at hr ⊢
      have key : n.toNat = as.length := by omega
      by_cases h1 : j > 0
      · rw [if_pos h1] at hr ⊢
        rw [times_moves _ _ _ _ _ hr]
        simp only [key]
        congr 1
        omega
      · rw [if_neg h1] at hr ⊢
        by_cases h2 : j < 0
        · rw [if_pos h2] at hr ⊢
          have hneg : PM.ofRes (negI32 cfg.checks j) cfg { s with stack := st ++ as } = (.ok (-j), { s with stack := st ++ as }) := by
            unfold PM.ofRes negI32
            rw [if_neg hj]
          rw [lift_ok (m := PM.cfg) (a := cfg) (t := { s with stack := st ++ as }) rfl, lift_ok hneg] at hr ⊢
          rw [times_moves _ _ _ _ _ hr]
          simp only [key]
          congr 1
          omega
        · rw [if_neg h2]
          obtain rfl : j = 0 := by omega
          simp [WM.lift, Effort.zero]
    · rw [if_neg h0]
      have : as.length = 0 := by omega
      rw [this, Nat.zero_mul]
      rfl
  | @rollLeast st as x y n hx hy hn =>
    obtain ⟨p1, p2⟩ := pops hst hx hy
    rw [lift_ok p1, lift_ok p2, lift_ok (m := PM.get) (a := { s with stack := st ++ as }) rfl] at hr ⊢
    dsimp only at hr ⊢
    have c2 : ¬ n.toNat > (st ++ as).length := by rw [hn]; simp
    rw [if_neg (by omega : ¬ n < 0), if_neg c2] at hr ⊢
    by_cases h0 : n > 0
    · rw [if_pos h0, if_neg (by norm_num), if_pos (by norm_num)] at hr ⊢
      rw [lift_ok (m := PM.cfg) (a := cfg) (t := { s with stack := st ++ as }) rfl] at hr ⊢
      rcases hc : cfg.checks with _ | _ <;> rw [hc] at hr
      · have hneg : PM.ofRes (negI32 false (-2 ^ 31)) cfg { s with stack := st ++ as } =
            (.ok (-2 ^ 31), { s with stack := st ++ as }) := by
          unfold PM.ofRes negI32
          rw [if_pos rfl]
          rfl
        rw [lift_ok hneg]
        rfl
      · rw [bind_panic (v := WM.lift (PM.ofRes (negI32 true (-2 ^ 31)))) (e := .overflow) (t := { s with stack := st ++ as })
          (w := .zero) (by simp [WM.lift, PM.ofRes, negI32])] at hr
        simp at hr
    · rw [if_neg h0]
      rfl
  | other _ h => exact absurd rfl h

/-- The work of an activation that goes on, exactly. -/
theorem step_exact {cfg : Config} {s t : Program} (hs : Sound s) (h : Type2.step cfg s = (.ok .again, t)) {υ : State}
    (hp : Pushes (view s) υ) {op : Operator} {rest : List UInt8} (hc : υ.code = bytes op ++ rest) {m : Nat} (hm : Moves op υ.stack m) :
    (step cfg s).2 = ⟨1 + (υ.stack.length - s.stack.length), m⟩ := by
  rcases step_fetch_cases cfg hs with ⟨-, -, ⟨e, t', h'⟩ | ⟨x, t', h'⟩ | ⟨t', h', -⟩⟩ | ⟨op', t', ht, hp', h', h2, h3⟩
  · rw [h] at h'; simp at h'
  · rw [h] at h'; simp at h'
  · rw [h] at h'; simp at h'
  · rw [h] at h'
    have hυ := pushes_unique hp' (op := op') (r := left t'.routine) rfl hp hc
    subst hυ
    obtain rfl := (before_code hc).1
    have hq : Quiet cfg.checks (before op' t') (view t) := by
      rcases dispatch_cases cfg op' ht with ⟨s', g, hq, -⟩ | ⟨o, s', g, -⟩ | ⟨s', g, -⟩ | ⟨-, g⟩
      · rw [← h'] at g
        simp only [Prod.mk.injEq, true_and] at g
        rwa [g]
      · rw [← h'] at g; simp at g
      · rw [← h'] at g; simp at g
      · rcases g with ⟨_, _, g⟩ | ⟨-, -, _, g⟩ | ⟨-, -, -, _, g⟩ | ⟨-, -, _, g⟩ <;> rw [← h'] at g <;> simp at g
    obtain ⟨c1, c2, c3, c4⟩ := quiet_op hq
    have e1 : (before op' t').stack = t'.stack := rfl
    rw [e1] at hm ⊢
    have key : (dispatch op' cfg t').2.loops = 0 ∧ (dispatch op' cfg t').2.moves = m := by
      by_cases c5 : op' = .opRoll
      · subst c5
        refine ⟨Nat.le_zero.mp (dispatch_roll (cfg := cfg) ht.stack).1, ?_⟩
        have k := erases_dispatch .opRoll cfg t'
        rw [← h'] at k
        have k1 : (dispatch .opRoll cfg t') = (do roll; WM.lift (PM.pure Flow.again) : WM Flow) cfg t' := rfl
        rw [k1] at k ⊢
        rcases e : roll cfg t' with ⟨⟨a | e' | x, t2⟩, w⟩
        · have := roll_moves ht.stack hm (cfg := cfg) (t := t2) (by rw [e])
          rw [bind_ok e]
          rw [e] at this
          simpa [Effort.add_moves, WM.lift, Effort.zero] using this
        · rw [bind_err e] at k; simp at k
        · rw [bind_panic e] at k; simp at k
      · obtain ⟨k1, k2⟩ := dispatch_other c1 c2 c3 c4 c5 cfg t'
        generalize t'.stack = st at hm
        cases hm with
        | roll => exact absurd rfl c5
        | rollLeast => exact absurd rfl c5
        | other => exact ⟨Nat.le_zero.mp k1, Nat.le_zero.mp k2⟩
    obtain ⟨k1, k2⟩ := key
    rw [k1] at h2
    rw [k2] at h3
    rcases hw : (step cfg s).2 with ⟨a, b⟩
    rw [hw] at h2 h3
    have h4 : s.stack.length ≤ t'.stack.length := by
      obtain ⟨xs, bs, _, _, hυ⟩ := pushes_iff.mp hp
      have : t'.stack = s.stack ++ xs := congrArg State.stack hυ
      rw [this]
      simp
    have h5 : a + s.stack.length = 1 + t'.stack.length + 0 := h2
    have h6 : b = m := h3
    rw [h6, show a = 1 + (t'.stack.length - s.stack.length) by omega]

theorem unwind_exact : ∀ {r : Routine} {rs : List Routine} {q : Routine × List Routine}, Type2.unwind r rs = (.ok (), q) → (unwind r rs).2 = rs.length
  | r, [], _, _ => rfl
  | r, c :: cs, q, h => by
    unfold Type2.unwind at h
    unfold unwind
    split at h
    · rename_i hd
      rw [if_pos hd]
      simp [unwind_exact h]
    · cases h

theorem dispatch_end_exact {cfg : Config} {t t' : Program} (h : Type2.dispatch .opEndChar cfg t = (.ok (.ret none), t')) :
    (dispatch .opEndChar cfg t).2 = ⟨t.callers.length, 0⟩ := by
  have k := erases_dispatch .opEndChar cfg t
  rw [h] at k
  rcases e : unwind t.routine t.callers with ⟨⟨res, r, cs⟩, n⟩
  have hu := unwind_fst t.routine t.callers
  rw [e] at hu
  have e1 : dispatch .opEndChar cfg t = (do
      spend n 0
      WM.lift (PM.modify fun s => { s with routine := r, callers := cs })
      WM.lift (PM.ofRes res)
      let _ ← WM.lift (match t.stack.getLast? with
        | some value => PM.modify fun s => { s with width := if s.width.isNone then some value else s.width }
        | none => PM.pure () : PM Unit)
      WM.lift (PM.pure (.ret none)) : WM Flow) cfg t := by
    refine (lift_ok (m := PM.get) (a := t) (t := t) rfl).trans ?_
    simp only [e]
    rfl
  rw [e1] at k ⊢
  rw [bind_ok (v := WM.spend n 0) (a := ()) (t := t) (w := ⟨n, 0⟩) rfl,
    lift_ok (a := ()) (t := { t with routine := r, callers := cs }) rfl] at k ⊢
  rcases res with a | x | x
  · have hn := unwind_exact hu.symm
    rw [e] at hn
    rw [lift_ok (m := PM.ofRes (.ok a)) (a := a) (t := { t with routine := r, callers := cs }) rfl]
    simp only at hn
    rw [hn]
    cases t.stack.getLast? <;> rfl
  · rw [bind_err (v := WM.lift (PM.ofRes (.err x))) rfl] at k
    simp at k
  · rw [bind_panic (v := WM.lift (PM.ofRes (.panic x))) rfl] at k
    simp at k

/-- The work of an activation that ends the program, exactly. -/
theorem step_end {cfg : Config} {s t : Program} (hs : Sound s) (h : Type2.step cfg s = (.ok (.ret none), t)) {υ : State}
    (hp : Pushes (view s) υ) {rest : List UInt8} (hc : υ.code = bytes .opEndChar ++ rest) :
    (step cfg s).2 = ⟨1 + (υ.stack.length - s.stack.length) + υ.callers.length, 0⟩ := by
  rcases step_fetch_cases cfg hs with ⟨-, -, ⟨e, t', h'⟩ | ⟨x, t', h'⟩ | ⟨t', h', hd⟩⟩ | ⟨op', t', ht, hp', h', h2, h3⟩
  · rw [h] at h'; simp at h'
  · rw [h] at h'; simp at h'
  · exfalso
    obtain ⟨xs, bs, hx, hl, -⟩ := pushes_iff.mp hp
    have hl : left s.routine = bs ++ υ.code := hl
    have : s.routine.done = false := not_done (by rw [hl, hc]; simp [bytes_ne_nil])
    rw [hd] at this
    cases this
  · rw [h] at h'
    have hυ := pushes_unique hp' (op := op') (r := left t'.routine) rfl hp hc
    subst hυ
    obtain rfl := (before_code hc).1
    have key := dispatch_end_exact h'.symm
    rw [key] at h2 h3
    rcases hw : (step cfg s).2 with ⟨a, b⟩
    rw [hw] at h2 h3
    have h4 : s.stack.length ≤ t'.stack.length := by
      obtain ⟨xs, bs, _, _, hυ⟩ := pushes_iff.mp hp
      have : t'.stack = s.stack ++ xs := congrArg State.stack hυ
      rw [this]
      simp
    have e2 : (before .opEndChar t').stack = t'.stack := rfl
    have e3 : (before .opEndChar t').callers.length = t'.callers.length := by simp [before, view]
    rw [e2, e3]
    have h5 : a + s.stack.length = 1 + t'.stack.length + t'.callers.length := h2
    have h6 : b = 0 := h3
    rw [h6, show a = 1 + (t'.stack.length - s.stack.length) + t'.callers.length by omega]

/-- No operands are moved without a roll. -/
theorem step_still {cfg : Config} {s : Program} (hs : Sound s) (h : ¬ [12, 30] <:+: left s.routine) : (step cfg s).2.moves = 0 := by
  rcases step_fetch_cases cfg hs with ⟨-, h2, -⟩ | ⟨op, t, ht, hp, -, -, h3⟩
  · exact h2
  · rw [h3]
    by_cases c1 : Path op ∨ Stem op
    · exact Nat.le_zero.mp (dispatch_path c1 cfg t).2
    by_cases c2 : Mask op
    · exact Nat.le_zero.mp (dispatch_mask c2 cfg t).2
    by_cases c3 : op = .opEndChar
    · subst c3
      exact Nat.le_zero.mp (dispatch_end cfg t).2
    by_cases c4 : op = .opRoll
    · subst c4
      obtain ⟨xs, bs, -, hc, -⟩ := pushes_iff.mp hp
      exact absurd ⟨bs, left t.routine, by rw [List.append_assoc]; exact hc.symm⟩ h
    · exact Nat.le_zero.mp (dispatch_other (fun h => c1 (.inl h)) (fun h => c1 (.inr h)) c2 c3 c4 cfg t).2

/-- The operands of an operation are collected. -/
theorem clear_least {op : Operator} {ps : List (List Pred)} {cfg : Config} {s t : Program} {o : Operation}
    (h : (clear op ps cfg s).1 = (.ok (.ret (some o)), t)) : o.2.length ≤ (clear op ps cfg s).2.loops := by
  unfold clear at h ⊢
  rw [lift_ok (m := PM.get) (a := s) (t := s) rfl] at h ⊢
  dsimp only at h ⊢
  rcases e : ps.foldl (fun q p => reduce p q s.stack.length) (none, 0) with ⟨_ | min, n⟩ <;> rw [e] at h <;> dsimp only at h ⊢
  · cases h
  · rw [bind_ok (v := WM.spend n 0) (a := ()) (t := s) (w := ⟨n, 0⟩) rfl, lift_ok (m := PM.modify _) (a := ()) rfl,
      bind_ok (v := WM.spend (s.stack.drop min).length 0) (a := ()) (w := ⟨(s.stack.drop min).length, 0⟩) rfl] at h ⊢
    generalize hm : (if min > 0 ∧ s.width.isNone then
      match (s.stack.take min)[min - 1]? with
      | some value => PM.modify fun s => { s with width := some value }
      | none => PM.panic .bounds
      else PM.pure () : PM Unit) = m at h ⊢
    have ho : o.2 = s.stack.drop min := by
      rcases e : m cfg { s with stack := [] } with ⟨a | e' | x, t2⟩
      · rw [lift_ok e] at h
        cases h
        rfl
      · rw [bind_err (v := WM.lift m) (e := e') (t := t2) (w := .zero) (by rw [← e]; rfl)] at h
        cases h
      · rw [bind_panic (v := WM.lift m) (e := x) (t := t2) (w := .zero) (by rw [← e]; rfl)] at h
        cases h
    rw [ho]
    simp only [Effort.add_loops]
    omega

/-- An operation takes an activation, and its operands. -/
theorem step_least {cfg : Config} {s t : Program} {o : Operation} (hs : Sound s) (h : Type2.step cfg s = (.ok (.ret (some o)), t)) :
    1 + o.2.length ≤ (step cfg s).2.loops := by
  rcases step_fetch_cases cfg hs with ⟨-, -, ⟨e, t', h'⟩ | ⟨x, t', h'⟩ | ⟨t', h', -⟩⟩ | ⟨op, t', ht, hp, h', h2, h3⟩
  · rw [h] at h'; simp at h'
  · rw [h] at h'; simp at h'
  · rw [h] at h'; simp at h'
  · rw [h] at h'
    have h4 : s.stack.length ≤ t'.stack.length := by
      obtain ⟨xs, bs, _, _, hυ⟩ := pushes_iff.mp hp
      have : t'.stack = s.stack ++ xs := congrArg State.stack hυ
      rw [this]
      simp
    have hem : Emit (before op t') o (view t) := by
      rcases dispatch_cases cfg op ht with ⟨s', g, hq, -⟩ | ⟨o, s', g, hq, hst⟩ | ⟨s', g, -⟩ | ⟨-, g⟩
      · rw [← h'] at g; simp at g
      · rw [← h'] at g
        simp only [Prod.mk.injEq, Res.ok.injEq, Flow.ret.injEq, Option.some.injEq] at g
        obtain ⟨rfl, rfl⟩ := g
        exact hq
      · rw [← h'] at g; simp at g
      · rcases g with ⟨_, _, g⟩ | ⟨-, -, _, g⟩ | ⟨-, -, -, _, g⟩ | ⟨-, -, _, g⟩ <;> rw [← h'] at g <;> simp at g
    have hd := erases_dispatch op cfg t'
    rw [← h'] at hd
    suffices key : o.2.length ≤ (dispatch op cfg t').2.loops by omega
    generalize view t = τ at hem
    cases hem with
    | path hop hc =>
      obtain ⟨rfl, -⟩ := before_code hc
      simp only [Path, List.mem_cons, List.not_mem_nil, or_false] at hop
      rcases hop with rfl | rfl | rfl | rfl | rfl | rfl | rfl | rfl | rfl | rfl | rfl | rfl | rfl | rfl | rfl | rfl | rfl <;>
        exact clear_least hd
    | stem hop hc =>
      obtain ⟨rfl, -⟩ := before_code hc
      have k : ∀ {op : Operator} {o : Operation} {t : Program},
          ((do WM.lift countStems; clear op [[.equal 2, .maybeModulo 2]] : WM Flow) cfg t').1 = (.ok (.ret (some o)), t) →
          o.2.length ≤ ((do WM.lift countStems; clear op [[.equal 2, .maybeModulo 2]] : WM Flow) cfg t').2.loops := by
        intro op o t h
        rw [lift_ok (m := countStems) (a := ()) rfl] at h ⊢
        exact clear_least h
      simp only [Stem, List.mem_cons, List.not_mem_nil, or_false] at hop
      rcases hop with rfl | rfl | rfl | rfl <;> exact k hd
    | mask => exact Nat.zero_le _

/-! ### Calls -/

/-- What is left to be executed. -/
abbrev rest (L D : Nat) (s : Program) : Nat := weight (L + 1) D (left s.routine :: s.callers.map left)

theorem left_rest (L D : Nat) (s : Program) : (left s.routine).length ≤ rest L D s := by
  have := weight_le (B := L + 1) (D := D) (Nat.succ_pos L) (a := []) (b := left s.routine) (n := (left s.routine).length) (by simp)
    (s.callers.map left)
  exact Nat.le_trans (Nat.le_add_right _ _) this

theorem nextFuel_within {cfg : Config} {L D M : Nat} : ∀ (n : Nat) {s t : Program} {r : Res (Option Operation)} {w : Effort}, Sound s →
    (∀ b ∈ s.global ++ s.local, b.length ≤ L) → (∀ τ, Turns cfg.checks (view s) τ → τ.callers.length ≤ D) →
    s.stack.length + rest L D s ≤ M → nextFuel n cfg s = some ((r, t), w) →
    (∀ o, r = .ok (some o) → w.loops + 2 * t.stack.length + 7 * rest L D t ≤ 2 * s.stack.length + 7 * rest L D s ∧
      t.stack.length + rest L D t ≤ M ∧ w.moves + 2 ^ 31 * M * rest L D t ≤ 2 ^ 31 * M * rest L D s) ∧
    w.loops ≤ 2 * s.stack.length + 7 * rest L D s + D + 7 ∧ w.moves ≤ 2 ^ 31 * M * (rest L D s + 1) := by
  intro n
  induction n with
  | zero => intro s t r w _ _ _ _ h; simp [nextFuel] at h
  | succ n ih =>
    intro s t r w hs hL hD hM h
    rw [nextFuel] at h
    have he := erases_step cfg s
    obtain ⟨a1, a2⟩ := step_any cfg hs
    have a3 := left_rest L D s
    have a4 : s.callers.length ≤ D := by have := hD _ .refl; simpa [view] using this
    have a5 : 2 ^ 31 * (s.stack.length + (left s.routine).length) ≤ 2 ^ 31 * M := Nat.mul_le_mul_left _ (by omega)
    have a6 : 2 ^ 31 * M * (rest L D s + 1) = 2 ^ 31 * M * rest L D s + 2 ^ 31 * M := Nat.mul_succ _ _
    rcases hst : step cfg s with ⟨⟨((_ | o) | _) | e | x, s1⟩, w1⟩ <;> rw [hst] at h he a1 a2 <;> simp only at h he a1 a2
    · simp only [Option.some.injEq, Prod.mk.injEq] at h
      obtain ⟨⟨rfl, rfl⟩, rfl⟩ := h
      exact ⟨fun o h => by simp at h, by omega, by omega⟩
    · simp only [Option.some.injEq, Prod.mk.injEq] at h
      obtain ⟨⟨rfl, rfl⟩, rfl⟩ := h
      refine ⟨fun o' _ => ?_, by omega, by omega⟩
      obtain ⟨υ, hp, hem, -, h1, h2⟩ := step_some hs he.symm
      rw [hst] at h1 h2
      simp only at h1 h2
      have g1 := pushes_weight (D := D) (Nat.succ_pos L) hp
      have g2 := weight_le (D := D) (Nat.succ_pos L) (n := υ.code.length - (left s1.routine).length) (a := left s1.routine)
        (b := υ.code) (by have h : (view s1).code.length < _ := (emit_suffix hem).1; have e : (view s1).code = left s1.routine := rfl; rw [e] at h; omega) υ.callers
      have g3 : (left s1.routine).length < υ.code.length := (emit_suffix hem).1
      have g4 : s1.stack = [] := by
        have : (view s1).stack = [] := by generalize view s1 = τ at hem; cases hem <;> rfl
        exact this
      have g5 : υ.callers = s1.callers.map left := (emit_eq hem).1.symm
      have g6 : s.stack.length ≤ υ.stack.length := by
        obtain ⟨xs, bs, _, _, hυ⟩ := pushes_iff.mp hp
        rw [hυ]
        simp [view]
      rw [g5] at g2 g1
      have e1 : (view s).stack = s.stack := rfl
      have e2 : weight (L.succ) D ((view s).code :: (view s).callers) = rest L D s := rfl
      have e3 : weight (L.succ) D (left s1.routine :: s1.callers.map left) = rest L D s1 := rfl
      rw [e1, e2] at g1
      rw [e3] at g2
      rw [g4, List.length_nil]
      refine ⟨by omega, by omega, ?_⟩
      rw [h2, Nat.zero_add]
      exact Nat.mul_le_mul_left _ (by omega)
    · obtain ⟨⟨q, w2⟩, h1, h2⟩ := Option.map_eq_some_iff.mp h
      simp only [Prod.mk.injEq] at h2
      obtain ⟨rfl, rfl⟩ := h2
      obtain ⟨ht, hs1⟩ := step_again_turn hs he.symm
      obtain ⟨υ, hp, hq, h3⟩ := step_again hs he.symm
      rw [hst] at h3
      simp only at h3
      have h4 := turns_eq (Relation.ReflTransGen.single ht)
      have e1 : s1.global = s.global := h4.1
      have e2 : s1.local = s.local := h4.2.1
      obtain ⟨_, f1, f2, -⟩ := pushes_eq hp
      have g1 := pushes_weight (D := D) (Nat.succ_pos L) hp
      have g2 := weight_turn ⟨υ, .refl, hq⟩ (L := L) (D := D) (by rw [f1, f2]; exact hL) (hD _ (.single ht))
      have g3 : (view s1).stack.length ≤ υ.stack.length + 1 := by
        generalize view s1 = τ at hq
        cases hq with
        | stack _ hs => exact stackOp_length hs
        | callLocal _ hst => simp only [hst, List.length_append]; omega
        | callGlobal _ hst => simp only [hst, List.length_append]; omega
        | «return» => simp
      have g6 : s.stack.length ≤ υ.stack.length := by
        obtain ⟨xs, bs, _, _, hυ⟩ := pushes_iff.mp hp
        rw [hυ]
        simp [view]
      have e4 : (view s).stack = s.stack := rfl
      have e5 : weight (L.succ) D ((view s).code :: (view s).callers) = rest L D s := rfl
      have e6 : weight (L + 1) D ((view s1).code :: (view s1).callers) = rest L D s1 := rfl
      have e7 : (view s1).stack = s1.stack := rfl
      have e8 : weight (L.succ) D (υ.code :: υ.callers) = weight (L + 1) D (υ.code :: υ.callers) := rfl
      rw [e4, e5, e8] at g1
      rw [e6] at g2
      rw [e7] at g3
      have hM1 : s1.stack.length + rest L D s1 ≤ M := by omega
      obtain ⟨k1, k2, k3⟩ := ih hs1 (by rw [e1, e2]; exact hL) (fun τ hτ => hD τ (.head ht hτ)) hM1 h1
      have b1 : 2 ^ 31 * M * (rest L D s1 + 1) ≤ 2 ^ 31 * M * rest L D s := Nat.mul_le_mul_left _ (by omega)
      have b2 : 2 ^ 31 * M * (rest L D s1 + 1) = 2 ^ 31 * M * rest L D s1 + 2 ^ 31 * M := Nat.mul_succ _ _
      rw [Effort.add_loops, Effort.add_moves]
      refine ⟨fun o ho => ?_, by omega, by omega⟩
      obtain ⟨k4, k5, k6⟩ := k1 o ho
      exact ⟨by omega, k5, by omega⟩
    · simp only [Option.some.injEq, Prod.mk.injEq] at h
      obtain ⟨⟨rfl, rfl⟩, rfl⟩ := h
      exact ⟨fun o h => by simp at h, by omega, by omega⟩
    · simp only [Option.some.injEq, Prod.mk.injEq] at h
      obtain ⟨⟨rfl, rfl⟩, rfl⟩ := h
      exact ⟨fun o h => by simp at h, by omega, by omega⟩

theorem nextFuel_least {cfg : Config} : ∀ (n : Nat) {s t : Program} {r : Res (Option Operation)} {w : Effort}, Sound s →
    nextFuel n cfg s = some ((r, t), w) → 1 ≤ w.loops ∧ ∀ o, r = .ok (some o) → 1 + o.2.length ≤ w.loops := by
  intro n
  induction n with
  | zero => intro s t r w _ h; simp [nextFuel] at h
  | succ n ih =>
    intro s t r w hs h
    rw [nextFuel] at h
    have he := erases_step cfg s
    have h0 : 1 ≤ (step cfg s).2.loops := by
      have : step cfg s = _ := bind_ok (v := WM.spend 1 0) (a := ()) (t := s) (w := ⟨1, 0⟩) rfl
      rw [this]
      exact Nat.le_add_right _ _
    rcases hst : step cfg s with ⟨⟨((_ | o) | _) | e | x, s1⟩, w1⟩ <;> rw [hst] at h he h0 <;> simp only at h he h0
    · simp only [Option.some.injEq, Prod.mk.injEq] at h
      obtain ⟨⟨rfl, rfl⟩, rfl⟩ := h
      exact ⟨h0, fun o h => by simp at h⟩
    · simp only [Option.some.injEq, Prod.mk.injEq] at h
      obtain ⟨⟨rfl, rfl⟩, rfl⟩ := h
      refine ⟨h0, fun o' ho => ?_⟩
      simp only [Res.ok.injEq, Option.some.injEq] at ho
      subst ho
      have := step_least hs he.symm
      rwa [hst] at this
    · obtain ⟨⟨q, w2⟩, h1, h2⟩ := Option.map_eq_some_iff.mp h
      simp only [Prod.mk.injEq] at h2
      obtain ⟨rfl, rfl⟩ := h2
      obtain ⟨k1, k2⟩ := ih (step_again_turn hs he.symm).2 h1
      rw [Effort.add_loops]
      exact ⟨by omega, fun o ho => Nat.le_trans (k2 o ho) (Nat.le_add_left _ _)⟩
    · simp only [Option.some.injEq, Prod.mk.injEq] at h
      obtain ⟨⟨rfl, rfl⟩, rfl⟩ := h
      exact ⟨h0, fun o h => by simp at h⟩
    · simp only [Option.some.injEq, Prod.mk.injEq] at h
      obtain ⟨⟨rfl, rfl⟩, rfl⟩ := h
      exact ⟨h0, fun o h => by simp at h⟩

/-- There is no roll. -/
def Still (σ : State) : Prop := ∀ b ∈ σ.code :: σ.callers ++ (σ.global ++ σ.local), ¬ [12, 30] <:+: b

theorem Still.code {σ : State} (h : Still σ) {rest bs : List UInt8} (hc : σ.code = bs ++ rest) : ¬ [12, 30] <:+: rest :=
  fun hr => h σ.code (by simp) (hr.trans ⟨bs, [], by rw [hc, List.append_nil]⟩)

theorem still_pushes {σ υ : State} (h : Still σ) (hp : Pushes σ υ) : Still υ := by
  obtain ⟨xs, bs, _, hc, hυ⟩ := pushes_iff.mp hp
  have h1 := h.code hc
  rw [hυ]
  intro b hb
  simp only [List.cons_append, List.mem_cons] at hb
  rcases hb with rfl | hb
  · exact h1
  · exact h b (by simp only [List.cons_append, List.mem_cons]; exact .inr hb)

theorem still_quiet {c : Bool} {υ τ : State} (h : Still υ) (hq : Quiet c υ τ) : Still τ := by
  cases hq with
  | stack hc =>
    intro b hb
    simp only [List.cons_append, List.mem_cons] at hb
    rcases hb with rfl | hb
    · exact h.code hc
    · exact h b (by simp only [List.cons_append, List.mem_cons]; exact .inr hb)
  | callLocal hc _ _ _ hi =>
    intro b hb
    simp only [List.cons_append, List.mem_cons] at hb
    rcases hb with rfl | rfl | hb
    · exact h _ (by simp [List.mem_of_getElem? hi])
    · exact h.code hc
    · exact h b (by simp only [List.cons_append, List.mem_cons]; exact .inr hb)
  | callGlobal hc _ _ _ hi =>
    intro b hb
    simp only [List.cons_append, List.mem_cons] at hb
    rcases hb with rfl | rfl | hb
    · exact h _ (by simp [List.mem_of_getElem? hi])
    · exact h.code hc
    · exact h b (by simp only [List.cons_append, List.mem_cons]; exact .inr hb)
  | «return» hc hcs =>
    intro b hb
    refine h b ?_
    rw [hcs]
    simp only [List.cons_append, List.mem_cons] at hb ⊢
    exact .inr hb

theorem still_emit {υ τ : State} {o : Operation} (h : Still υ) (hem : Emit υ o τ) : Still τ := by
  cases hem with
  | path _ hc =>
    intro b hb
    simp only [List.cons_append, List.mem_cons] at hb
    rcases hb with rfl | hb
    · exact h.code hc
    · exact h b (by simp only [List.cons_append, List.mem_cons]; exact .inr hb)
  | stem _ hc =>
    intro b hb
    simp only [List.cons_append, List.mem_cons] at hb
    rcases hb with rfl | hb
    · exact h.code hc
    · exact h b (by simp only [List.cons_append, List.mem_cons]; exact .inr hb)
  | mask _ hc =>
    intro b hb
    simp only [List.cons_append, List.mem_cons] at hb
    rcases hb with rfl | hb
    · exact h.code hc
    · exact h b (by simp only [List.cons_append, List.mem_cons]; exact .inr hb)

theorem nextFuel_still {cfg : Config} : ∀ (n : Nat) {s t : Program} {r : Res (Option Operation)} {w : Effort}, Sound s →
    Still (view s) → nextFuel n cfg s = some ((r, t), w) → w.moves = 0 := by
  intro n
  induction n with
  | zero => intro s t r w _ _ h; simp [nextFuel] at h
  | succ n ih =>
    intro s t r w hs hI h
    rw [nextFuel] at h
    have he := erases_step cfg s
    have h0 := step_still (cfg := cfg) hs (hI _ (by simp [view]))
    rcases hst : step cfg s with ⟨⟨(o | _) | e | x, s1⟩, w1⟩ <;> rw [hst] at h he h0 <;> simp only at h he h0
    · simp only [Option.some.injEq, Prod.mk.injEq] at h
      obtain ⟨⟨rfl, rfl⟩, rfl⟩ := h
      exact h0
    · obtain ⟨⟨q, w2⟩, h1, h2⟩ := Option.map_eq_some_iff.mp h
      simp only [Prod.mk.injEq] at h2
      obtain ⟨rfl, rfl⟩ := h2
      obtain ⟨⟨υ, hp, hq⟩, hs1⟩ := step_again_turn hs he.symm
      rw [Effort.add_moves, h0, ih hs1 (still_quiet (still_pushes hI hp) hq) h1]
    · simp only [Option.some.injEq, Prod.mk.injEq] at h
      obtain ⟨⟨rfl, rfl⟩, rfl⟩ := h
      exact h0
    · simp only [Option.some.injEq, Prod.mk.injEq] at h
      obtain ⟨⟨rfl, rfl⟩, rfl⟩ := h
      exact h0

end Timed

/-! ### Runs -/

/-- Counting does not change what a program shows. -/
theorem spends_run {cfg : Config} {s : Program} {l : List Observation} {out : Outcome} :
    (∃ w, Spends cfg s l out w) ↔ Run cfg s l out := by
  constructor
  · rintro ⟨w, h⟩
    induction h with
    | ended h => exact .ended (Timed.next_iff.mp ⟨_, h⟩)
    | failed h hr => exact .failed (Timed.next_iff.mp ⟨_, h⟩) hr
    | more h _ ih => exact .more (Timed.next_iff.mp ⟨_, h⟩) ih
  · intro h
    induction h with
    | ended h =>
      obtain ⟨w, h⟩ := Timed.next_iff.mpr h
      exact ⟨w, .ended h⟩
    | failed h hr =>
      obtain ⟨w, h⟩ := Timed.next_iff.mpr h
      exact ⟨w, .failed h hr⟩
    | more h _ ih =>
      obtain ⟨w, h⟩ := Timed.next_iff.mpr h
      obtain ⟨w', ih⟩ := ih
      exact ⟨_, .more h ih⟩

theorem spends_unique {cfg : Config} {s : Program} {l l' : List Observation} {out out' : Outcome} {w w' : Effort}
    (h : Spends cfg s l out w) (h' : Spends cfg s l' out' w') : w = w' := by
  induction h generalizing l' w' with
  | ended h =>
    cases h' with
    | ended h' => exact (Timed.next_unique h h').2.2
    | failed h' hr => exact absurd (Timed.next_unique h h').1.symm (hr _)
    | more h' _ => exact absurd (Timed.next_unique h h').1 (by simp)
  | failed h hr =>
    cases h' with
    | ended h' => exact absurd (Timed.next_unique h h').1 (hr _)
    | failed h' hr => exact (Timed.next_unique h h').2.2
    | more h' _ => exact absurd (Timed.next_unique h h').1 (hr _)
  | more h _ ih =>
    cases h' with
    | ended h' => exact absurd (Timed.next_unique h h').1 (by simp)
    | failed h' hr => exact absurd (Timed.next_unique h h').1.symm (hr _)
    | more h' h2 =>
      obtain ⟨-, rfl, rfl⟩ := Timed.next_unique h h'
      rw [ih h2]

theorem spends_within {cfg : Config} {L D M : Nat} {s : Program} {l : List Observation} {out : Outcome} {w : Effort}
    (h : Spends cfg s l out w) : Sound s → (∀ b ∈ s.global ++ s.local, b.length ≤ L) →
    (∀ l τ, Executes cfg.checks (view s) l τ → τ.callers.length ≤ D) → s.stack.length + Timed.rest L D s ≤ M →
    w.loops ≤ 2 * s.stack.length + 7 * Timed.rest L D s + D + 7 ∧ w.moves ≤ 2 ^ 31 * M * (Timed.rest L D s + 1) := by
  induction h with
  | ended h =>
    obtain ⟨n, h⟩ := h
    exact fun hs hL hD hM => (Timed.nextFuel_within n hs hL (fun τ hτ => hD [] τ (.nil hτ)) hM h).2
  | failed h hr =>
    obtain ⟨n, h⟩ := h
    exact fun hs hL hD hM => (Timed.nextFuel_within n hs hL (fun τ hτ => hD [] τ (.nil hτ)) hM h).2
  | @more s o t w l out w' h h2 ih =>
    intro hs hL hD hM
    obtain ⟨⟨ρ, υ, g1, g2, g3⟩, ht⟩ := next_yields hs (Timed.next_iff.mp ⟨_, h⟩)
    obtain ⟨n, h⟩ := h
    obtain ⟨k1, k2, k3⟩ := (Timed.nextFuel_within n hs hL (fun τ hτ => hD [] τ (.nil hτ)) hM h).1 o rfl
    obtain ⟨f1, f2, f3, -⟩ := turns_eq g1
    obtain ⟨_, f4, f5, f6, -⟩ := pushes_eq g2
    obtain ⟨_, f7, f8⟩ := emit_eq g3
    have e1 : t.global = s.global := f7.trans (f4.trans f1)
    have e2 : t.local = s.local := f8.trans (f5.trans f2)
    obtain ⟨k4, k5⟩ := ih ht (by rw [e1, e2]; exact hL) (fun l τ h => hD _ τ (.cons g1 g2 g3 h)) k2
    have b2 : 2 ^ 31 * M * (Timed.rest L D t + 1) = 2 ^ 31 * M * Timed.rest L D t + 2 ^ 31 * M := Nat.mul_succ _ _
    have b3 : 2 ^ 31 * M * (Timed.rest L D s + 1) = 2 ^ 31 * M * Timed.rest L D s + 2 ^ 31 * M := Nat.mul_succ _ _
    rw [Timed.Effort.add_loops, Timed.Effort.add_moves]
    constructor <;> omega

theorem spends_least {cfg : Config} {s : Program} {l : List Observation} {out : Outcome} {w : Effort}
    (h : Spends cfg s l out w) : Sound s → output l + 1 ≤ w.loops := by
  induction h with
  | ended h =>
    obtain ⟨n, h⟩ := h
    exact fun hs => (Timed.nextFuel_least n hs h).1
  | failed h hr =>
    obtain ⟨n, h⟩ := h
    exact fun hs => (Timed.nextFuel_least n hs h).1
  | @more s o t w l out w' h h2 ih =>
    intro hs
    have ht := (next_yields hs (Timed.next_iff.mp ⟨_, h⟩)).2
    obtain ⟨n, h⟩ := h
    have k1 := (Timed.nextFuel_least n hs h).2 o rfl
    have k2 := ih ht
    have e : output ((o, t.width, t.stems) :: l) = 1 + o.2.length + output l := by simp [output]
    rw [Timed.Effort.add_loops, e]
    omega

theorem turns_still {c : Bool} {σ τ : State} (h : Timed.Still σ) (ht : Turns c σ τ) : Timed.Still τ := by
  induction ht with
  | refl => exact h
  | tail _ ht ih =>
    obtain ⟨υ, hp, hq⟩ := ht
    exact Timed.still_quiet (Timed.still_pushes ih hp) hq

theorem spends_still {cfg : Config} {s : Program} {l : List Observation} {out : Outcome} {w : Effort}
    (h : Spends cfg s l out w) : Sound s → Timed.Still (view s) → w.moves = 0 := by
  induction h with
  | ended h =>
    obtain ⟨n, h⟩ := h
    exact fun hs hI => Timed.nextFuel_still n hs hI h
  | failed h hr =>
    obtain ⟨n, h⟩ := h
    exact fun hs hI => Timed.nextFuel_still n hs hI h
  | @more s o t w l out w' h h2 ih =>
    intro hs hI
    obtain ⟨⟨ρ, υ, g1, g2, g3⟩, ht⟩ := next_yields hs (Timed.next_iff.mp ⟨_, h⟩)
    obtain ⟨n, h⟩ := h
    rw [Timed.Effort.add_moves, Timed.nextFuel_still n hs hI h,
      ih ht (Timed.still_emit (Timed.still_pushes (turns_still hI g1) g2) g3)]

end PS.Type2
