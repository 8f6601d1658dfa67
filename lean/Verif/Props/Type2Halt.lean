import Verif.Props.Type2Calls
import Verif.Lemmas.Type2Sound
/-!
# Properties C49 and C50: termination and panics
-/
namespace PS.Type2
open PS.Spec hiding Operand Operation
open PS.Type2.Spec

/-! ## C49 -/

/-- **C49**, the full statement: `next` returns. -/
def C49Statement : Prop := ∀ {cfg : Config} {s : Program}, Sound s → ∃ r t, Next cfg s r t

/-- The bytes of each routine being executed (the innermost first), weighted such
that one byte of a caller counts for more than everything that a callee can have. -/
def weight (B D : Nat) : List (List UInt8) → Nat
  | [] => 0
  | f :: fs => f.length * B ^ (D - fs.length) + weight B D fs

theorem weight_lt {B D : Nat} (hB : 0 < B) {a b : List UInt8} (h : a.length < b.length) (fs : List (List UInt8)) :
    weight B D (a :: fs) < weight B D (b :: fs) := by
  unfold weight
  have := Nat.mul_lt_mul_of_pos_right h (Nat.pow_pos (n := D - fs.length) hB)
  omega

/-- A turn takes away from the weight, unless it calls too deep. -/
theorem weight_turn {c : Bool} {σ τ : State} (h : Turn c σ τ) {L D : Nat} (hL : ∀ b ∈ σ.global ++ σ.local, b.length ≤ L)
    (hD : τ.callers.length ≤ D) :
    weight (L + 1) D (τ.code :: τ.callers) < weight (L + 1) D (σ.code :: σ.callers) := by
  obtain ⟨υ, hp, hq⟩ := h
  obtain ⟨xs, bs, _, hc, _⟩ := pushes_iff.mp hp
  have hlen := congrArg List.length hc
  obtain ⟨e1, e2, e3, _⟩ := pushes_eq hp
  have call : ∀ {rest body op}, υ.code = bytes op ++ rest → body ∈ σ.global ++ σ.local → (rest :: υ.callers).length ≤ D →
      weight (L + 1) D (body :: rest :: υ.callers) < weight (L + 1) D (σ.code :: σ.callers) := by
    intro rest body op hc' hb hd
    have h1 := congrArg List.length hc'
    have h2 := List.length_pos_of_ne_nil (bytes_ne_nil op)
    have h3 := hL body hb
    simp only [List.length_append, List.length_cons] at hlen h1 hd
    rw [e1] at hd ⊢
    simp only [weight, List.length_cons]
    obtain ⟨k, hk⟩ : ∃ k, D - σ.callers.length = k + 1 := ⟨D - σ.callers.length - 1, by omega⟩
    rw [show D - (σ.callers.length + 1) = k by omega, hk]
    have h4 : body.length * (L + 1) ^ k < (L + 1) ^ (k + 1) := by
      rw [pow_succ, Nat.mul_comm]
      exact Nat.mul_lt_mul_of_pos_left (by omega) (Nat.pow_pos (by omega))
    have h5 : (rest.length + 1) * (L + 1) ^ (k + 1) ≤ σ.code.length * (L + 1) ^ (k + 1) :=
      Nat.mul_le_mul_right _ (by omega)
    rw [Nat.add_mul, Nat.one_mul] at h5
    omega
  cases hq with
  | @stack op rest st hc' _ =>
    have h1 := congrArg List.length hc'
    have h2 := List.length_pos_of_ne_nil (bytes_ne_nil op)
    simp only [List.length_append] at hlen h1
    simp only [e1]
    exact weight_lt (by omega) (by omega) _
  | callLocal hc' _ _ _ hb => exact call hc' (List.mem_append_right _ (by rw [← e3]; exact List.mem_of_getElem? hb)) hD
  | callGlobal hc' _ _ _ hb => exact call hc' (List.mem_append_left _ (by rw [← e2]; exact List.mem_of_getElem? hb)) hD
  | @«return» rest caller callers hc' hcs =>
    have h1 := congrArg List.length hc'
    have h2 := List.length_pos_of_ne_nil (bytes_ne_nil .opReturn)
    simp only [List.length_append] at hlen h1
    rw [e1] at hcs
    simp only [hcs]
    have h3 : 1 * 1 ≤ σ.code.length * (L + 1) ^ (D - (caller :: callers).length) :=
      Nat.mul_le_mul (by omega) (Nat.one_le_iff_ne_zero.mpr (by positivity))
    conv_rhs => unfold weight
    omega

theorem next_of_weight {cfg : Config} {L D : Nat} : ∀ (n : Nat) {s : Program}, Sound s →
    (∀ b ∈ s.global ++ s.local, b.length ≤ L) → (∀ τ, Turns cfg.checks (view s) τ → τ.callers.length ≤ D) →
    weight (L + 1) D (left s.routine :: s.callers.map left) < n → ∃ q, nextFuel n cfg s = some q := by
  intro n
  induction n with
  | zero => intro s _ _ _ h; omega
  | succ n ih =>
    intro s hs hL hD hw
    rcases hst : step cfg s with ⟨(o | _) | e | x, s1⟩
    · exact ⟨_, by rw [nextFuel, hst]⟩
    · obtain ⟨ht, hs1⟩ := step_again_turn hs hst
      have h1 := weight_turn ht (L := L) (D := D) hL (hD _ (.single ht))
      have h2 := turns_eq (Relation.ReflTransGen.single ht)
      have e1 : s1.global = s.global := h2.1
      have e2 : s1.local = s.local := h2.2.1
      obtain ⟨q, hq⟩ := ih hs1 (by rw [e1, e2]; exact hL) (fun τ hτ => hD τ (.head ht hτ))
        (lt_of_lt_of_le (b := weight (L + 1) D (left s.routine :: s.callers.map left)) h1 (by omega))
      exact ⟨q, by rw [nextFuel, hst]; exact hq⟩
    · exact ⟨_, by rw [nextFuel, hst]⟩
    · exact ⟨_, by rw [nextFuel, hst]⟩

theorem turns_depth {cfg : Config} : ∀ (n : Nat) {s : Program} {q : Res (Option Operation) × Program}, Sound s →
    nextFuel n cfg s = some q → ∀ τ, Turns cfg.checks (view s) τ → τ.callers.length ≤ s.callers.length + n := by
  intro n
  induction n with
  | zero => intro s q _ h; simp [nextFuel] at h
  | succ n ih =>
    intro s q hs h τ hτ
    rcases Relation.ReflTransGen.cases_head hτ with rfl | ⟨υ, h1, h2⟩
    · simp only [view, List.length_map]; omega
    · obtain ⟨s1, h3, rfl, hs1⟩ := step_of_turn cfg hs h1
      rw [nextFuel, h3] at h
      have h4 := ih hs1 h τ h2
      have h5 : s1.callers.length ≤ s.callers.length + 1 := by
        obtain ⟨υ, hp, hq⟩ := h1
        have e := (pushes_eq hp).1
        have e' : υ.callers.length = s.callers.length := by rw [e]; simp [view]
        have : (view s1).callers.length ≤ υ.callers.length + 1 := by
          generalize view s1 = τ' at hq
          cases hq with
          | stack => simp
          | callLocal => simp
          | callGlobal => simp
          | «return» _ hcs => rw [hcs]; simp; omega
        simpa [view, e'] using this
      omega

/-- **C49.**  `next` does not return if and only if the depth of calls grows beyond
every bound: nothing else can keep it from returning. -/
theorem C49_diverges_iff {cfg : Config} {s : Program} (hs : Sound s) :
    (¬ ∃ r t, Next cfg s r t) ↔ ∀ D, ∃ τ, Turns cfg.checks (view s) τ ∧ D < τ.callers.length := by
  constructor
  · intro h D
    by_contra hD
    push Not at hD
    have hL : ∀ b ∈ s.global ++ s.local, b.length ≤ ((s.global ++ s.local).map List.length).sum := fun b hb =>
      List.le_sum_of_mem (List.mem_map.mpr ⟨b, hb, rfl⟩)
    obtain ⟨⟨r, t⟩, hq⟩ := next_of_weight (cfg := cfg) _ hs hL hD (Nat.lt_succ_self _)
    exact h ⟨r, t, _, hq⟩
  · rintro h ⟨r, t, n, hq⟩
    obtain ⟨τ, h1, h2⟩ := h (s.callers.length + n)
    have := turns_depth n hs hq τ h1
    omega

/-- **C49.**  A call of `next` that does not enter a subroutine executes at most as
many operators as there are bytes left of the routine; it takes at most as many
activations and another one. -/
theorem C49_bytes {cfg : Config} {s : Program} (hs : Sound s) (hc : s.callers = [])
    (h : ∀ τ, Turns cfg.checks (view s) τ → τ.callers = []) :
    ∃ q, nextFuel ((left s.routine).length + 1) cfg s = some q := by
  have hL : ∀ b ∈ s.global ++ s.local, b.length ≤ ((s.global ++ s.local).map List.length).sum := fun b hb =>
    List.le_sum_of_mem (List.mem_map.mpr ⟨b, hb, rfl⟩)
  refine next_of_weight (cfg := cfg) (D := 0) _ hs hL (fun τ hτ => by rw [h τ hτ]; simp) ?_
  simp [hc, weight]

theorem turns_flat {c : Bool} {code : List UInt8} {τ : State} (hτ : Turns c (view (Program.new code [] [])) τ) :
    τ.callers = [] := by
  induction hτ with
  | refl => rfl
  | tail h1 h2 ih =>
    obtain ⟨υ, hp, hq⟩ := h2
    obtain ⟨e1, e2, e3, _⟩ := pushes_eq hp
    obtain ⟨f1, f2, _⟩ := turns_eq h1
    cases hq with
    | stack => exact e1.trans ih
    | callLocal _ _ _ _ hb => rw [e3, f2] at hb; simp [view, Program.new] at hb
    | callGlobal _ _ _ _ hb => rw [e2, f1] at hb; simp [view, Program.new] at hb
    | «return» _ hc => rw [e1, ih] at hc; simp at hc

/-- What every step keeps holds of every state that is come to. -/
theorem executes_invariant {c : Bool} {σ τ : State} {x : List Observation} (he : Executes c σ x τ) (I : State → Prop) (h : I σ)
    (hq : ∀ σ υ τ, I σ → Pushes σ υ → Quiet c υ τ → I τ) (hem : ∀ σ υ o τ, I σ → Pushes σ υ → Emit υ o τ → I τ) : I τ := by
  have turns : ∀ {σ τ}, I σ → Turns c σ τ → I τ := by
    intro σ τ hi ht
    induction ht with
    | refl => exact hi
    | tail _ h2 ih =>
      obtain ⟨υ, h3, h4⟩ := h2
      exact hq _ _ _ ih h3 h4
  induction he with
  | nil ht => exact turns h ht
  | cons ht hp he _ ih => exact ih (hem _ _ _ _ (turns h ht) hp he)

theorem executes_flat {c : Bool} {code : List UInt8} {l : List Observation} {τ : State}
    (h : Executes c (view (Program.new code [] [])) l τ) : τ.callers = [] := by
  refine (executes_invariant h (fun σ => σ.callers = [] ∧ σ.global = [] ∧ σ.local = []) ⟨rfl, rfl, rfl⟩ ?_ ?_).1
  · rintro σ υ τ ⟨h1, h2, h3⟩ hp hq
    obtain ⟨e1, e2, e3, -⟩ := pushes_eq hp
    rw [h1] at e1; rw [h2] at e2; rw [h3] at e3
    cases hq with
    | stack => exact ⟨e1, e2, e3⟩
    | callLocal _ _ _ _ hi => simp [e3] at hi
    | callGlobal _ _ _ _ hi => simp [e2] at hi
    | «return» _ hc => simp [e1] at hc
  · rintro σ υ o τ ⟨h1, h2, h3⟩ hp hem
    obtain ⟨e1, e2, e3, -⟩ := pushes_eq hp
    obtain ⟨f1, f2, f3⟩ := emit_eq hem
    exact ⟨by rw [f1, e1, h1], by rw [f2, e2, h2], by rw [f3, e3, h3]⟩

/-- **C49.**  Without subroutines `next` returns. -/
theorem C49_no_subroutines {cfg : Config} {code : List UInt8} (h : code.length < 2 ^ 63) :
    ∃ q, nextFuel (code.length + 1) cfg (Program.new code [] []) = some q :=
  C49_bytes (sound_new h (by simp) (by simp)) rfl fun _ hτ => turns_flat hτ

/-- A call to a subroutine that is missing fails without calling. -/
example (cfg : Config) : ∃ q, nextFuel 4 cfg (Program.new [139, 10, 14] [] []) = some q :=
  C49_bytes (s := Program.new [139, 10, 14] [] []) (sound_new (by decide) (by decide) (by decide)) rfl fun _ h => turns_flat h

theorem step_emit {cfg : Config} {s s1 : Program} {o : Operation} (hs : Sound s)
    (h : step cfg s = (.ok (.ret (some o)), s1)) :
    ∃ υ, Pushes (view s) υ ∧ Emit υ o (view s1) ∧ Sound s1 := by
  rcases step_cases cfg hs with ⟨_, he⟩ | ⟨op, t, ht, hp, he⟩ | ⟨_, _, s', he⟩ | ⟨_, s', he⟩
  · rw [he] at h; simp at h
  · rw [he] at h
    rcases dispatch_cases cfg op ht with ⟨s', h', _⟩ | ⟨o', s', h', hq, hs'⟩ | ⟨s', h', _⟩ |
      ⟨_, ⟨r, s', h'⟩ | ⟨_, _, s', h'⟩ | ⟨_, _, _, s', h'⟩ | ⟨_, _, s', h'⟩⟩ <;> rw [h'] at h <;> simp at h
    obtain ⟨rfl, rfl⟩ := h
    exact ⟨_, hp, hq, hs'⟩
  · rw [he] at h; simp at h
  · rw [he] at h; simp at h

/-- `Operators cfg s n t`: from `s` to `t` there have been executed `n` operators, in any
number of calls of `next`, none of which was a call of a subroutine. -/
inductive Operators (cfg : Config) : Program → Nat → Program → Prop
  | nil (s) : Operators cfg s 0 s
  | quiet {s s1 n t} : step cfg s = (.ok .again, s1) → s1.callers.length ≤ s.callers.length →
    Operators cfg s1 n t → Operators cfg s (n + 1) t
  | operation {s s1 n t o} : step cfg s = (.ok (.ret (some o)), s1) → Operators cfg s1 n t → Operators cfg s (n + 1) t

/-- **C49.**  Without calls of subroutines there are executed at most as many operators
as there are bytes, in all calls of `next` together. -/
theorem C49_operators {cfg : Config} {s t : Program} {n : Nat} (hs : Sound s) (h : Operators cfg s n t) :
    n + ((t.routine :: t.callers).map fun r => (left r).length).sum ≤
      ((s.routine :: s.callers).map fun r => (left r).length).sum := by
  have total : ∀ s : Program, ((s.routine :: s.callers).map fun r => (left r).length).sum =
      (view s).code.length + ((view s).callers.map List.length).sum := by
    intro s
    simp only [List.map_cons, List.sum_cons, view, List.map_map]
    rfl
  simp only [total]
  induction h with
  | nil s => simp
  | @quiet s s1 n t h1 h2 _ ih =>
    obtain ⟨⟨υ, hp, hq⟩, hs1⟩ := step_again_turn hs h1
    have ih := ih hs1
    obtain ⟨xs, bs, _, hc, _⟩ := pushes_iff.mp hp
    have hlen := congrArg List.length hc
    have e := (pushes_eq hp).1
    refine le_trans (Nat.le_of_eq (Nat.add_right_comm _ _ _)) (le_trans (Nat.add_le_add_right ih 1) ?_)
    replace h2 : (view s1).callers.length ≤ (view s).callers.length := by simpa [view] using h2
    rw [← e] at h2 ⊢
    clear ih
    generalize view s1 = τ at hq h2
    have pos : ∀ op, 1 ≤ (bytes op).length := fun op => List.length_pos_of_ne_nil (bytes_ne_nil op)
    cases hq with
    | @stack op rest st hc' _ =>
      have h3 := congrArg List.length hc'
      have := pos op
      simp only [List.length_append] at hlen h3 ⊢
      omega
    | callLocal => simp at h2
    | callGlobal => simp at h2
    | @«return» rest caller callers hc' hcs =>
      have h3 := congrArg List.length hc'
      have := pos .opReturn
      rw [hcs]
      simp only [List.length_append, List.map_cons, List.sum_cons] at hlen h3 ⊢
      omega
  | @operation s s1 n t o h1 _ ih =>
    obtain ⟨υ, hp, hem, hs1⟩ := step_emit hs h1
    have ih := ih hs1
    obtain ⟨xs, bs, _, hc, _⟩ := pushes_iff.mp hp
    have hlen := congrArg List.length hc
    have e := (pushes_eq hp).1
    refine le_trans (Nat.le_of_eq (Nat.add_right_comm _ _ _)) (le_trans (Nat.add_le_add_right ih 1) ?_)
    have e2 := (emit_eq hem).1
    rw [e2, e]
    have : (view s1).code.length + 1 ≤ υ.code.length := by
      have pos := List.length_pos_of_ne_nil (bytes_ne_nil o.1)
      generalize view s1 = τ at hem
      cases hem with
      | path _ hc' _ => rw [hc', List.length_append]; simp only at pos ⊢; omega
      | stem _ hc' _ => rw [hc', List.length_append]; simp only at pos ⊢; omega
      | mask _ hc' _ => rw [hc', List.length_append, List.length_append]; simp only at pos ⊢; omega
    simp only [List.length_append] at hlen
    omega

/-- `0 1 drop dup`: two operators in six bytes. -/
example : ∃ t, Operators release (Program.new [139, 140, 12, 18, 12, 27, 14] [] []) 2 t := by
  refine ⟨(step release (step release (Program.new [139, 140, 12, 18, 12, 27, 14] [] [])).2).2, ?_⟩
  exact .quiet (s1 := (step release (Program.new [139, 140, 12, 18, 12, 27, 14] [] [])).2) (by decide +kernel) (by decide +kernel)
    (.quiet (by decide +kernel) (by decide +kernel) (.nil _))

/-- `-107 callsubr`, where the subroutine is the same. -/
def selfCall : Program := Program.new [32, 10] [] [[32, 10]]

/-- **C49** is false: a subroutine that calls itself makes `next` call deeper and deeper. -/
theorem C49_false : ¬ C49Statement := by
  intro h
  have hs : Sound selfCall := sound_new (by decide) (by decide) (by decide)
  refine (C49_diverges_iff (cfg := release) hs).mpr ?_ (h hs)
  have hcall : Operand (F32.ofInt (-107)) [32] := operand_byte 32 (by decide) (by decide)
  have key : ∀ D, ∃ cs : List (List UInt8), cs.length = D ∧
      Turns release.checks (view selfCall) { view selfCall with callers := cs } := by
    intro D
    induction D with
    | zero => exact ⟨[], rfl, .refl⟩
    | succ D ih =>
      obtain ⟨cs, h1, h2⟩ := ih
      refine ⟨[] :: cs, by simp [h1], .tail h2 ⟨{ view selfCall with code := [10], stack := [F32.ofInt (-107)], callers := cs },
        .single ⟨_, _, _, hcall, rfl, rfl⟩, ?_⟩⟩
      exact .callLocal (rest := []) (st := []) (x := F32.ofInt (-107)) (a := -107) (i := 0) (body := [32, 10]) rfl rfl
        (.inl ⟨isInt_of (by decide +kernel) (by decide +kernel) (by decide), by decide, by decide⟩) rfl rfl
  intro D
  obtain ⟨cs, h1, h2⟩ := key (D + 1)
  exact ⟨_, h2, by simp [h1]⟩

/-! ## C50 -/

/-- **C50**, the full statement: `next` does not panic. -/
def C50Statement : Prop := ∀ {cfg : Config} {s t u : Program} {r : Res (Option Operation)}, OnTape cfg → Sound s →
  History cfg s t → Next cfg t r u → ∀ x, r ≠ .panic x

/-- **C50** is false with overflow checks: `1 2 3  3 -2^31 roll` and the call of the
subroutine `2^31 - 1` panic. -/
theorem C50_false : ¬ C50Statement := by
  intro h
  have := h (cfg := checked) (s := farCall) (t := farCall) (u := after checked farCall) (r := .panic .overflow)
    (fun p n _ => Nat.zero_le n) (sound_new (by decide) (by decide) (by decide)) .refl ⟨100, by decide +kernel⟩
  exact this .overflow rfl

/-- **C50**, in part: after any history of calls, errors included, `next` panics only
with overflow checks at a `roll` by `-2^31` or a call beyond `2^31`, or if memory is
reserved first for a mask of `2^63` bytes (`2^66` stem hints) or more. -/
theorem C50_causes_partial {cfg : Config} (he : OnTape cfg) {s t u : Program} (hs : Sound s) (hh : History cfg s t)
    {x : Panic} (h : Next cfg t (.panic x) u) :
    (x = .overflow ∧ cfg.checks = true ∧ ∃ τ υ rest, Turns cfg.checks (view t) τ ∧ Pushes τ υ ∧
      ((υ.code = bytes .opRoll ++ rest ∧ ∃ st as x y, υ.stack = st ++ as ++ [x, y] ∧ IntArg x as.length ∧ IntArg y (-2 ^ 31)) ∨
       (υ.code = bytes .opCallSubr ++ rest ∧ ∃ st x a, υ.stack = st ++ [x] ∧ IntArg x a ∧ 2 ^ 31 ≤ a + callBias υ.local.length) ∨
       (υ.code = bytes .opCallGSubr ++ rest ∧ ∃ st x a, υ.stack = st ++ [x] ∧ IntArg x a ∧ 2 ^ 31 ≤ a + callBias υ.global.length))) ∨
    (x = .capacity ∧ cfg.prealloc = true ∧ ∃ τ υ, Turns cfg.checks (view t) τ ∧ Pushes τ υ ∧
      2 ^ 63 ≤ (υ.stems + υ.stack.length / 2 + 7) / 8) := by
  have ht := history_sound he hs hh
  obtain ⟨s1, hts, hs1, hn, hl⟩ := next_turns ht h
  rcases step_cases cfg hs1 with ⟨_, he⟩ | ⟨op, t', hst, hp, he⟩ | ⟨_, _, s2, he⟩ | ⟨_, s2, he⟩
  · have := (next_ret he).mp hn; simp at this
  · rcases dispatch_cases cfg op hst with ⟨s2, h', _⟩ | ⟨o', s2, h', _⟩ | ⟨s2, h', _⟩ |
      ⟨_, ⟨r, s2, h'⟩ | ⟨_, _, s2, h'⟩ | ⟨hma, hbig, hpre, s2, h'⟩ | ⟨hc, hck, s2, h'⟩⟩ <;> rw [← he] at h'
    · exact absurd h' (hl _)
    · have := (next_ret h').mp hn; simp at this
    · have := (next_ret h').mp hn; simp at this
    · have := (next_err h').mp hn; simp at this
    · have := (next_err h').mp hn; simp at this
    · obtain ⟨h1, _⟩ := (next_panic h').mp hn
      simp only [Res.panic.injEq] at h1
      refine .inr ⟨h1, hpre, _, _, hts, hp, ?_⟩
      have : maskLength t' = (t'.stems + t'.stack.length / 2 + 7) / 8 := rfl
      rw [this] at hbig
      show _ ≤ (t'.stems + t'.stack.length / 2 + 7) / 8
      omega
    · obtain ⟨h1, _⟩ := (next_panic h').mp hn
      simp only [Res.panic.injEq] at h1
      refine .inl ⟨h1, hck, _, _, left t'.routine, hts, hp, ?_⟩
      rcases hc with ⟨rfl, st, as, x, y, n, g1, g2, g3, rfl, _⟩ | ⟨rfl, st, x, a, g1, g2, g3⟩ | ⟨rfl, st, x, a, g1, g2, g3⟩
      · exact .inl ⟨rfl, st, as, x, y, g1, g2, g3⟩
      · exact .inr (.inl ⟨rfl, st, x, a, g1, g2, g3⟩)
      · exact .inr (.inr ⟨rfl, st, x, a, g1, g2, g3⟩)
  · have := (next_err he).mp hn; simp at this
  · have := (next_err he).mp hn; simp at this

/-- **C50**, in part: a release build never panics. -/
theorem C50_release_partial {cfg : Config} (he : OnTape cfg) (hc : cfg.checks = false) (hp : cfg.prealloc = false)
    {s t u : Program} (hs : Sound s) (hh : History cfg s t) {r : Res (Option Operation)} (h : Next cfg t r u) :
    ∀ x, r ≠ .panic x := by
  rintro x rfl
  rcases C50_causes_partial he hs hh h with ⟨_, h1, _⟩ | ⟨_, h1, _⟩
  · rw [hc] at h1; simp at h1
  · rw [hp] at h1; simp at h1

/-- The hypotheses hold for the configurations of the examples. -/
example : OnTape release ∧ release.checks = false ∧ release.prealloc = false ∧ OnTape checked :=
  ⟨fun _ n _ => Nat.zero_le n, rfl, rfl, fun _ n _ => Nat.zero_le n⟩

end PS.Type2
