import Verif.Props.Type2Halt
/-!
# Property C61: the depth of recursion

`Program::next` calls itself after every operator that yields nothing; `nextFuel n` is
the function limited to `n` activations.
-/
namespace PS.Type2
open PS.Spec hiding Operand Operation
open PS.Type2.Spec

/-- **C61**, the full statement: one call of `next`, if it returns, has at most one
activation more than there are bytes in the program and its subroutines. -/
def C61Statement : Prop := ∀ {cfg : Config} {code : List UInt8} {global «local» : List (List UInt8)},
  Sound (Program.new code global «local») → (∃ r t, Next cfg (Program.new code global «local») r t) →
  ∃ q, nextFuel (size code global «local» + 1) cfg (Program.new code global «local») = some q

theorem turnsIn_append {c : Bool} {m n : Nat} {σ υ τ : State} (h : TurnsIn c m σ υ) (h' : TurnsIn c n υ τ) :
    TurnsIn c (m + n) σ τ := by
  induction h with
  | nil => rwa [Nat.zero_add]
  | cons ht _ ih => rw [Nat.add_right_comm]; exact .cons ht (ih h')

theorem turns_of_turnsIn {c : Bool} {n : Nat} {σ τ : State} (h : TurnsIn c n σ τ) : Turns c σ τ := by
  induction h with
  | nil => exact .refl
  | cons ht _ ih => exact .head ht ih

theorem turnsIn_cut {c : Bool} {m k : Nat} {σ τ : State} (h : TurnsIn c (m + k) σ τ) : ∃ υ, TurnsIn c m σ υ := by
  induction m generalizing σ with
  | zero => exact ⟨_, .nil⟩
  | succ m ih =>
    rw [Nat.add_right_comm] at h
    cases h with
    | cons ht h => obtain ⟨υ, hυ⟩ := ih h; exact ⟨υ, .cons ht hυ⟩

/-- **C61.**  The depth of recursion of a call is the number of operators executed
without result before the one that returns, and one more: more than `n` activations are
needed if and only if `n` operators in a row are executed without result. -/
theorem C61_depth {cfg : Config} : ∀ (n : Nat) {s : Program}, Sound s →
    (nextFuel n cfg s = none ↔ ∃ τ, TurnsIn cfg.checks n (view s) τ) := by
  intro n
  induction n with
  | zero => intro s _; exact ⟨fun _ => ⟨_, .nil⟩, fun _ => rfl⟩
  | succ n ih =>
    intro s hs
    constructor
    · intro h
      rw [nextFuel] at h
      rcases hst : step cfg s with ⟨(o | _) | e | x, s1⟩ <;> rw [hst] at h <;> simp only [reduceCtorEq] at h
      obtain ⟨ht, hs1⟩ := step_again_turn hs hst
      obtain ⟨τ, hτ⟩ := (ih hs1).mp h
      exact ⟨τ, .cons ht hτ⟩
    · rintro ⟨τ, hτ⟩
      cases hτ with
      | cons ht hτ =>
        obtain ⟨s1, h1, rfl, hs1⟩ := step_of_turn cfg hs ht
        rw [nextFuel, h1]
        exact (ih hs1).mpr ⟨τ, hτ⟩

/-- **C61.**  What is left of it: if subroutines are nested at most `D` deep and have at
most `L` bytes, then there are at most `|code| (L + 1)^D + 1` activations; without
subroutines, at most one more than there are bytes (see also C49). -/
theorem C61_depth_partial {cfg : Config} {code : List UInt8} {global «local» : List (List UInt8)} {L D : Nat}
    (hs : Sound (Program.new code global «local»)) (hL : ∀ b ∈ global ++ «local», b.length ≤ L)
    (hD : ∀ τ, Turns cfg.checks (view (Program.new code global «local»)) τ → τ.callers.length ≤ D) :
    ∃ q, nextFuel (code.length * (L + 1) ^ D + 1) cfg (Program.new code global «local») = some q := by
  refine next_of_weight (cfg := cfg) (D := D) _ hs hL hD ?_
  simp [weight, Program.new, left, Routine.new]

example : ∃ q, nextFuel 7 release (Program.new [139, 140, 12, 10, 22, 14] [] []) = some q :=
  C61_depth_partial (code := [139, 140, 12, 10, 22, 14]) (global := []) («local» := []) (L := 0) (D := 0) (sound_new (by decide) (by decide) (by decide)) (by simp) fun τ hτ => by simp [turns_flat hτ]

/-! ## Subroutines that call the next one twice -/

/-- `n` subroutines, each of which calls the next one twice, and one that returns. -/
def doubling (n : Nat) : List (List UInt8) :=
  (List.range n).map (fun i => [UInt8.ofNat (33 + i), 10, UInt8.ofNat (33 + i), 10, 11]) ++ [[11]]

/-- How many operators the last but `k` of them executes. -/
def doublingTurns : Nat → Nat
  | 0 => 1
  | k + 1 => (1 + doublingTurns k) + (1 + doublingTurns k) + 1

theorem doublingTurns_ge (k : Nat) : 2 ^ k ≤ doublingTurns k := by
  induction k with
  | zero => decide
  | succ k ih => rw [pow_succ, doublingTurns]; omega

theorem doubling_length (n : Nat) : (doubling n).length = n + 1 := by simp [doubling]

theorem doubling_get {n i : Nat} (h : i < n) :
    (doubling n)[i]? = some [UInt8.ofNat (33 + i), 10, UInt8.ofNat (33 + i), 10, 11] := by
  rw [doubling, List.getElem?_append_left (by simpa), List.getElem?_map, List.getElem?_range h]
  rfl

theorem doubling_last (n : Nat) : (doubling n)[n]? = some [11] := by simp [doubling]

theorem byte_isInt : ∀ b : Fin 215, F32.WF (F32.ofInt ((b.val : Int) - 107)) ∧
    F32.beq (F32.ofInt (F32.ofInt ((b.val : Int) - 107)).toI32) (F32.ofInt ((b.val : Int) - 107)) = true ∧
    (F32.ofInt ((b.val : Int) - 107)).toI32 = (b.val : Int) - 107 := by decide +kernel

/-- A call of the subroutine `i`. -/
theorem doubling_call {c : Bool} {n i : Nat} (hn : n ≤ 214) (hi : i ≤ n) {σ : State} {rest body : List UInt8}
    (hl : σ.local = doubling n) (hc : σ.code = UInt8.ofNat (32 + i) :: 10 :: rest) (hb : (doubling n)[i]? = some body) :
    Turn c σ { σ with code := body, callers := rest :: σ.callers } := by
  have hbyte : (UInt8.ofNat (32 + i)).toNat = 32 + i := by simp; omega
  have hop := operand_byte (UInt8.ofNat (32 + i)) (by omega) (by omega)
  rw [hbyte] at hop
  have hv : (((32 + i : Nat) : Int) - 139) = (i : Int) - 107 := by omega
  rw [hv] at hop
  obtain ⟨w, e⟩ := byte_isInt ⟨i, by omega⟩
  refine ⟨{ σ with code := 10 :: rest, stack := σ.stack ++ [F32.ofInt ((i : Int) - 107)] },
    .single ⟨_, _, _, hop, hc, rfl⟩, ?_⟩
  exact .callLocal (rest := rest) (st := σ.stack) (x := F32.ofInt ((i : Int) - 107)) (a := (i : Int) - 107) (i := i) (body := body)
    rfl rfl (.inl ⟨isInt_of w e (by omega), by omega, by omega⟩)
    (by simp only [hl, doubling_length, callBias]; rw [if_pos (by omega)]; omega) (by rw [← hb, ← hl])

theorem doubling_run {c : Bool} {n : Nat} (hn : n ≤ 214) : ∀ (k : Nat), k ≤ n → ∀ {σ : State} {body caller : List UInt8}
    {callers : List (List UInt8)}, σ.local = doubling n → (doubling n)[n - k]? = some body → σ.code = body →
    σ.callers = caller :: callers → TurnsIn c (doublingTurns k) σ { σ with code := caller, callers := callers } := by
  intro k
  have ret : ∀ {σ : State} {caller : List UInt8} {callers : List (List UInt8)}, σ.code = [11] → σ.callers = caller :: callers →
      Turn c σ { σ with code := caller, callers := callers } := fun h1 h2 => ⟨_, .refl, .return (rest := []) h1 h2⟩
  induction k with
  | zero =>
    intro _ σ body caller callers hl hb hc hcs
    rw [Nat.sub_zero, doubling_last] at hb
    injection hb with hb
    subst hb
    exact .cons (ret hc hcs) .nil
  | succ k ih =>
    intro hk σ body caller callers hl hb hc hcs
    rw [doubling_get (by omega)] at hb
    injection hb with hb
    rw [← hb] at hc
    rw [show 33 + (n - (k + 1)) = 32 + (n - k) by omega] at hc
    obtain ⟨body', hb'⟩ : ∃ b, (doubling n)[n - k]? = some b :=
      ⟨_, List.getElem?_eq_getElem (by rw [doubling_length]; omega)⟩
    have once : ∀ {υ : State} {rest : List UInt8}, υ.local = doubling n → υ.code = UInt8.ofNat (32 + (n - k)) :: 10 :: rest →
        TurnsIn c (1 + doublingTurns k) υ { υ with code := rest } := by
      intro υ rest hl' hc'
      rw [Nat.add_comm]
      exact .cons (doubling_call hn (by omega) hl' hc' hb') (ih (by omega) hl' hb' rfl rfl)
    have h1 := once hl hc
    have h2 := once (υ := { σ with code := [UInt8.ofNat (32 + (n - k)), 10, 11] }) hl rfl
    rw [doublingTurns]
    exact turnsIn_append (turnsIn_append h1 h2) (.cons (ret rfl hcs) .nil)

/-- **C61.**  A program that calls the first of the subroutines takes more than `2^n`
activations, though it is but a few bytes long, and returns. -/
theorem C61_exponential (cfg : Config) {n : Nat} (hn : n ≤ 214) :
    size [32, 10, 14] [] (doubling n) = 5 * n + 4 ∧ nextFuel (2 ^ n) cfg (Program.new [32, 10, 14] [] (doubling n)) = none ∧
    ∃ t, Next cfg (Program.new [32, 10, 14] [] (doubling n)) (.ok none) t := by
  have hsum : ((doubling n).map List.length).sum = 5 * n + 1 := by
    simp [doubling, Function.comp_def]; omega
  have hs : Sound (Program.new [32, 10, 14] [] (doubling n)) := by
    refine sound_new (by decide) ?_ ⟨by simp, by rw [doubling_length]; omega⟩
    intro b hb
    have := List.le_sum_of_mem (List.mem_map_of_mem (f := List.length) (show b ∈ doubling n by simpa using hb))
    omega
  obtain ⟨body, hb⟩ : ∃ b, (doubling n)[n - n]? = some b := ⟨_, List.getElem?_eq_getElem (by rw [doubling_length]; omega)⟩
  have hrun : TurnsIn cfg.checks (1 + doublingTurns n) (view (Program.new [32, 10, 14] [] (doubling n)))
      { view (Program.new [32, 10, 14] [] (doubling n)) with code := [14] } := by
    rw [Nat.add_comm]
    exact .cons (doubling_call (i := 0) (rest := [14]) hn (by omega) rfl rfl (by rw [← hb, Nat.sub_self]))
      (doubling_run hn n (Nat.le_refl _) rfl hb rfl rfl)
  refine ⟨by simp [size, hsum]; omega, ?_, ?_⟩
  · have hge := doublingTurns_ge n
    rw [C61_depth _ hs]
    obtain ⟨k, hk⟩ : ∃ k, 1 + doublingTurns n = 2 ^ n + k := ⟨1 + doublingTurns n - 2 ^ n, by omega⟩
    rw [hk] at hrun
    exact turnsIn_cut hrun
  · have he : Ends cfg.checks (view (Program.new [32, 10, 14] [] (doubling n)))
        { view (Program.new [32, 10, 14] [] (doubling n)) with code := [] } :=
      ⟨_, turns_of_turnsIn hrun, .inr ⟨_, .refl, .endchar (rest := []) (main := []) (k := 0) rfl rfl⟩⟩
    obtain ⟨t, ht, -⟩ := (C54_end_iff hs _).mpr he
    exact ⟨t, ht⟩

/-- **C61** is false. -/
theorem C61_false : ¬ C61Statement := by
  intro h
  obtain ⟨h1, h2, t, h3⟩ := C61_exponential release (n := 10) (by omega)
  have hs : Sound (Program.new [32, 10, 14] [] (doubling 10)) := sound_new (by decide) (by decide) (by decide)
  obtain ⟨q, hq⟩ := h (cfg := release) hs ⟨_, t, h3⟩
  obtain ⟨τ, hτ⟩ := (C61_depth _ hs).mp h2
  rw [h1, (C61_depth _ hs).mpr (turnsIn_cut (k := 969) hτ)] at hq
  cases hq

end PS.Type2
