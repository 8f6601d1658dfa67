import Verif.Spec.Outline
import Verif.Lemmas.Renumber
/-!
# Lemmas: fragments of code that become subroutines
-/
namespace PS.Type2.Outline
open PS.Spec hiding Operand Operation
open PS.Type2.Spec

variable {G L : Outlining} {m : Nat}

theorem outlined_nil {p : Place} {a b : List UInt8} (h : Outlined G L m p a b) : a = [] ↔ b = [] := by
  cases h with
  | nil => simp
  | operand h1 h2 => simp [operand_ne_nil h1, operand_ne_nil h2]
  | operator => simp [bytes_ne_nil]
  | mask => simp [bytes_ne_nil]
  | «return» => simp [bytes_ne_nil]
  | endchar => simp [bytes_ne_nil]
  | call => simp [bytes_ne_nil]
  | fragment _ _ _ h => simp [bytes_ne_nil, h]
  | tail _ _ _ h => simp [bytes_ne_nil, h]

/-- What is left to be executed on both sides.  `true` if `endchar` may come here. -/
inductive Frames (G L : Outlining) (m : Nat) : Bool → List UInt8 → List (List UInt8) → List UInt8 → List (List UInt8) → Prop
  | main {c c'} : Outlined G L m .routine c c' → Frames G L m true c [] c' []
  | routine {c c' r cs r' cs'} : Outlined G L m .routine c c' → Frames G L m true r cs r' cs' →
    Frames G L m true c (r :: cs) c' (r' :: cs')
  | quiet {e c c' r cs r' cs'} : Outlined G L m .quiet c c' → Frames G L m e r cs r' cs' →
    Frames G L m false c (r :: cs) c' (r' :: cs')
  | fragment {e a a' r cs r' cs' junk} : Outlined G L m .fragment a a' → r ≠ [] → Frames G L m e r cs r' cs' →
    Frames G L m false (a ++ r) cs (a' ++ (bytes .opReturn ++ junk)) (r' :: cs')
  | tail {e a a' cs cs'} : Outlined G L m .tail a a' → Frames G L m true [] cs [] cs' → (e = true → a = []) →
    Frames G L m e a cs a' ([] :: cs')

/-- What a piece of code in the place `p` is followed by. -/
inductive Under (G L : Outlining) (m : Nat) : Place → List UInt8 → List (List UInt8) → List UInt8 → List (List UInt8) → Prop
  | main : Under G L m .routine [] [] [] []
  | routine {r cs r' cs'} : Frames G L m true r cs r' cs' → Under G L m .routine [] (r :: cs) [] (r' :: cs')
  | quiet {e r cs r' cs'} : Frames G L m e r cs r' cs' → Under G L m .quiet [] (r :: cs) [] (r' :: cs')
  | fragment {e r cs r' cs' junk} : r ≠ [] → Frames G L m e r cs r' cs' →
    Under G L m .fragment r cs (bytes .opReturn ++ junk) (r' :: cs')
  | tail {cs cs'} : Frames G L m true [] cs [] cs' → Under G L m .tail [] cs [] ([] :: cs')

theorem frames_of {p : Place} {a a' R R' : List UInt8} {cs cs' : List (List UInt8)} (h : Outlined G L m p a a')
    (hu : Under G L m p R cs R' cs') :
    ∃ e, Frames G L m e (a ++ R) cs (a' ++ R') cs' ∧ (p = .routine ∨ (p = .tail ∧ a = []) → e = true) := by
  cases hu with
  | main => exact ⟨true, by simpa using .main h, fun _ => rfl⟩
  | routine hf => exact ⟨true, by simpa using .routine h hf, fun _ => rfl⟩
  | quiet hf => exact ⟨false, by simpa using .quiet h hf, by simp⟩
  | fragment hr hf => exact ⟨false, .fragment h hr hf, by simp⟩
  | tail hf => exact ⟨decide (a = []), by simpa using .tail h hf (by simp), by simp⟩

theorem of_frames {e : Bool} {c c' : List UInt8} {cs cs' : List (List UInt8)} (h : Frames G L m e c cs c' cs') :
    ∃ p a a' R R', c = a ++ R ∧ c' = a' ++ R' ∧ Outlined G L m p a a' ∧ Under G L m p R cs R' cs' := by
  cases h with
  | main h => exact ⟨_, _, _, [], [], by simp, by simp, h, .main⟩
  | routine h hf => exact ⟨_, _, _, [], [], by simp, by simp, h, .routine hf⟩
  | quiet h hf => exact ⟨_, _, _, [], [], by simp, by simp, h, .quiet hf⟩
  | fragment h hr hf => exact ⟨_, _, _, _, _, rfl, rfl, h, .fragment hr hf⟩
  | tail h hf => exact ⟨_, _, _, [], [], by simp, by simp, h, .tail hf⟩

theorem frames_empty {e : Bool} {c c' : List UInt8} {cs cs' : List (List UInt8)} (h : Frames G L m e c cs c' cs') (hc : c = []) :
    c' = [] := by
  cases h with
  | main h => exact (outlined_nil h).mp hc
  | routine h => exact (outlined_nil h).mp hc
  | quiet h => exact (outlined_nil h).mp hc
  | fragment h hr => exact absurd (List.append_eq_nil_iff.mp hc).2 hr
  | tail h => exact (outlined_nil h).mp hc

theorem frames_depth {e : Bool} {c c' : List UInt8} {cs cs' : List (List UInt8)} (h : Frames G L m e c cs c' cs') :
    cs.length ≤ cs'.length := by
  induction h <;> simp_all <;> omega

/-- In the subroutines being executed there is no code left on the one side if so on the other. -/
theorem frames_end {e : Bool} {c c' : List UInt8} {cs cs' : List (List UInt8)} (h : Frames G L m e c cs c' cs') (he : e = true) :
    (∃ k main, c :: cs = List.replicate k [] ++ [main]) ↔ ∃ k main, c' :: cs' = List.replicate k [] ++ [main] := by
  have cons : ∀ (c r : List UInt8) cs, (∃ k main, c :: r :: cs = List.replicate k [] ++ [main]) ↔
      c = [] ∧ ∃ k main, r :: cs = List.replicate k [] ++ [main] := by
    intro c r cs
    constructor
    · rintro ⟨k, main, h⟩
      rcases k with _ | k
      · simp at h
      · rw [List.replicate_succ, List.cons_append] at h
        injection h with h1 h2
        exact ⟨h1, k, main, h2⟩
    · rintro ⟨rfl, k, main, h⟩
      exact ⟨k + 1, main, by rw [h]; rfl⟩
  induction h with
  | main => exact ⟨fun _ => ⟨0, _, rfl⟩, fun _ => ⟨0, _, rfl⟩⟩
  | routine h _ ih =>
    exact (cons _ _ _).trans ((and_congr (outlined_nil h) (ih rfl)).trans (cons _ _ _).symm)
  | quiet => cases he
  | fragment => cases he
  | tail h _ ha ih =>
    obtain rfl := ha he
    obtain rfl := (outlined_nil h).mp rfl
    exact (ih rfl).trans ⟨fun h => (cons _ _ _).mpr ⟨rfl, h⟩, fun h => ((cons _ _ _).mp h).2⟩

/-! ## The next token -/

/-- Both sides are at the same token. -/
inductive Head (G L : Outlining) (m : Nat) (p : Place) : List UInt8 → List UInt8 → Prop
  | operand {x b b' r r'} : Operand x b → Operand x b' → Outlined G L m p r r' → Head G L m p (b ++ r) (b' ++ r')
  | operator {op r r'} : ¬ Mask op → op ∉ [.opCallSubr, .opCallGSubr, .opReturn, .opEndChar] → Outlined G L m p r r' →
    Head G L m p (bytes op ++ r) (bytes op ++ r')
  | mask {op mask r r'} : Mask op → mask.length = m → Outlined G L m p r r' →
    Head G L m p (bytes op ++ (mask ++ r)) (bytes op ++ (mask ++ r'))
  | return {r r'} : p = .routine ∨ p = .quiet → Outlined G L m p r r' →
    Head G L m p (bytes .opReturn ++ r) (bytes .opReturn ++ r')
  | endchar {r r'} : p = .routine ∨ (p = .tail ∧ r = []) → Outlined G L m p r r' →
    Head G L m p (bytes .opEndChar ++ r) (bytes .opEndChar ++ r')
  | call {op R b b' i j r r'} : called G L op = some R → CallNumber b R.before.length i → CallNumber b' R.after.length j →
    R.becomes i j → (R.quiet i ∨ p = .routine ∨ (p = .tail ∧ r = [])) → Outlined G L m p r r' →
    Head G L m p (b ++ (bytes op ++ r)) (b' ++ (bytes op ++ r'))

/-- A call on the other side. -/
theorem turn_call {c : Bool} {op : Operator} {R : Outlining} (hop : called G L op = some R) {b body rest : List UInt8} {j : Nat}
    (hb : CallNumber b R.after.length j) (hj : R.after[j]? = some body) {σ : State} (hg : σ.global = G.after)
    (hl : σ.local = L.after) (hc : σ.code = b ++ (bytes op ++ rest)) :
    Turn c σ { σ with code := body, callers := rest :: σ.callers } := by
  obtain ⟨x, n, hx, hn, hi⟩ := hb
  refine ⟨{ σ with code := bytes op ++ rest, stack := σ.stack ++ [x] }, .single ⟨x, b, _, hx, hc, rfl⟩, ?_⟩
  unfold called at hop
  split at hop
  · obtain rfl := Option.some.inj hop
    exact .callLocal (σ := { σ with code := bytes .opCallSubr ++ rest, stack := σ.stack ++ [x] }) (i := j) (body := body) rfl rfl hn
      (by dsimp only; rw [hl]; exact hi) (by dsimp only; rw [hl]; exact hj)
  · obtain rfl := Option.some.inj hop
    exact .callGlobal (σ := { σ with code := bytes .opCallGSubr ++ rest, stack := σ.stack ++ [x] }) (i := j) (body := body) rfl rfl hn
      (by dsimp only; rw [hg]; exact hi) (by dsimp only; rw [hg]; exact hj)
  · cases hop

theorem under_rest {p : Place} {R R' : List UInt8} {cs cs' : List (List UInt8)} (hu : Under G L m p R cs R' cs')
    (hp : p = .fragment) : R ≠ [] := by
  cases hu <;> simp_all

theorem under_none {p : Place} {R R' : List UInt8} {cs cs' : List (List UInt8)} (hu : Under G L m p R cs R' cs')
    (hp : p = .routine ∨ p = .tail) : R = [] ∧ R' = [] := by
  cases hu <;> simp_all

theorem descend (c : Bool) {p : Place} {a a' : List UInt8} (h : Outlined G L m p a a') : a ≠ [] →
    ∀ {R cs R' cs'}, Under G L m p R cs R' cs' → ∀ {σ : State}, σ.global = G.after → σ.local = L.after → σ.code = a' ++ R' →
      σ.callers = cs' → ∃ p2 a2 a2' R2 R2' cs2', Turns c σ { σ with code := a2' ++ R2', callers := cs2' } ∧ a ++ R = a2 ++ R2 ∧
        Under G L m p2 R2 cs R2' cs2' ∧ Head G L m p2 a2 a2' := by
  induction h with
  | nil => exact fun h => absurd rfl h
  | operand h1 h2 h3 =>
    rintro - R cs R' cs' hu σ - - hc rfl
    exact ⟨_, _, _, R, R', _, by rw [← hc], rfl, hu, .operand h1 h2 h3⟩
  | operator h1 h2 h3 =>
    rintro - R cs R' cs' hu σ - - hc rfl
    exact ⟨_, _, _, R, R', _, by rw [← hc], rfl, hu, .operator h1 h2 h3⟩
  | mask h1 h2 h3 =>
    rintro - R cs R' cs' hu σ - - hc rfl
    exact ⟨_, _, _, R, R', _, by rw [← hc], rfl, hu, .mask h1 h2 h3⟩
  | «return» h1 h2 =>
    rintro - R cs R' cs' hu σ - - hc rfl
    exact ⟨_, _, _, R, R', _, by rw [← hc], rfl, hu, .return h1 h2⟩
  | endchar h1 h2 =>
    rintro - R cs R' cs' hu σ - - hc rfl
    exact ⟨_, _, _, R, R', _, by rw [← hc], rfl, hu, .endchar h1 h2⟩
  | call h1 h2 h3 h4 h5 h6 =>
    rintro - R cs R' cs' hu σ - - hc rfl
    exact ⟨_, _, _, R, R', _, by rw [← hc], rfl, hu, .call h1 h2 h3 h4 h5 h6⟩
  | @fragment p op T b j f f' junk r r' h1 h2 h3 h4 h5 h6 h7 ih1 ih2 =>
    rintro - R cs R' cs' hu σ hg hl hc rfl
    obtain ⟨e, hf, -⟩ := frames_of h7 hu
    have hne : r ++ R ≠ [] := by
      rcases h6 with h6 | h6
      · simp [under_rest hu h6]
      · simp [h6]
    have ht := turn_call (c := c) h1 h2 h3 hg hl (σ := σ) (rest := r' ++ R') (by rw [hc]; simp)
    obtain ⟨p2, a2, a2', R2, R2', cs2', k1, k2, k3, k4⟩ := ih1 h4 (.fragment (junk := junk) hne hf)
      (σ := { σ with code := f' ++ (bytes .opReturn ++ junk), callers := (r' ++ R') :: σ.callers }) hg hl rfl rfl
    exact ⟨p2, a2, a2', R2, R2', cs2', .head ht k1, by rw [List.append_assoc, k2], k3, k4⟩
  | @tail p op T b j f f' h1 h2 h3 h4 h5 h6 ih =>
    rintro - R cs R' cs' hu σ hg hl hc rfl
    obtain ⟨rfl, rfl⟩ := under_none hu h5
    obtain ⟨e, hf, he⟩ := frames_of (.nil (p := p)) hu
    obtain rfl := he (h5.imp id fun h => ⟨h, rfl⟩)
    have ht := turn_call (c := c) h1 h2 h3 hg hl (σ := σ) (rest := []) (by rw [hc]; simp)
    obtain ⟨p2, a2, a2', R2, R2', cs2', k1, k2, k3, k4⟩ := ih h4 (.tail (by simpa using hf))
      (σ := { σ with code := f', callers := [] :: σ.callers }) hg hl (by simp) rfl
    exact ⟨p2, a2, a2', R2, R2', cs2', .head ht k1, k2, k3, k4⟩

theorem ascend (c : Bool) {e : Bool} {k k' : List UInt8} {cs cs' : List (List UInt8)} (h : Frames G L m e k cs k' cs') : k ≠ [] →
    ∀ {σ : State}, σ.global = G.after → σ.local = L.after → σ.code = k' → σ.callers = cs' →
      ∃ p2 a2 a2' R2 R2' cs2', Turns c σ { σ with code := a2' ++ R2', callers := cs2' } ∧ k = a2 ++ R2 ∧
        Under G L m p2 R2 cs R2' cs2' ∧ Head G L m p2 a2 a2' := by
  induction h with
  | main h =>
    intro hk σ hg hl h1 h2
    simpa using descend c h hk .main hg hl (by simpa using h1) h2
  | routine h hf =>
    intro hk σ hg hl h1 h2
    simpa using descend c h hk (.routine hf) hg hl (by simpa using h1) h2
  | quiet h hf =>
    intro hk σ hg hl h1 h2
    simpa using descend c h hk (.quiet hf) hg hl (by simpa using h1) h2
  | tail h hf =>
    intro hk σ hg hl h1 h2
    simpa using descend c h hk (.tail hf) hg hl (by simpa using h1) h2
  | @fragment e a a' r cs r' cs' junk h hr hf ih =>
    intro hk σ hg hl h1 h2
    by_cases ha : a = []
    · subst ha
      obtain rfl := (outlined_nil h).mp rfl
      obtain ⟨p2, a2, a2', R2, R2', cs2', k1, k2, k3, k4⟩ := ih hr (σ := { σ with code := r', callers := cs' }) hg hl rfl rfl
      exact ⟨p2, a2, a2', R2, R2', cs2', .head ⟨σ, .refl, .return (by simpa using h1) h2⟩ k1, by simpa using k2, k3, k4⟩
    · exact descend c h ha (.fragment hr hf) hg hl h1 h2

/-! ## States -/

/-- The rest of two states is the same. -/
structure Same (G L : Outlining) (σ σ' : State) : Prop where
  global : σ.global = G.before ∧ σ'.global = G.after
  «local» : σ.local = L.before ∧ σ'.local = L.after
  stems : σ'.stems = σ.stems
  width : σ'.width = σ.width

/-- States that differ in fragments and numbers of subroutines only. -/
structure Linked (G L : Outlining) (m : Nat) (σ σ' : State) : Prop where
  frames : ∃ e, Frames G L m e σ.code σ.callers σ'.code σ'.callers
  same : Same G L σ σ'
  stack : σ'.stack = σ.stack

/-- States in which the number of a subroutine that is to be called has been pushed. -/
structure Mid (G L : Outlining) (m : Nat) (σ σ' : State) : Prop where
  call : ∃ p op T x x' n n' i j st r r' R R', called G L op = some T ∧ σ.code = bytes op ++ (r ++ R) ∧
    σ'.code = bytes op ++ (r' ++ R') ∧ σ.stack = st ++ [x] ∧ σ'.stack = st ++ [x'] ∧ x.WF ∧ IntArg x n ∧
    n + callBias T.before.length = (i : Nat) ∧ IntArg x' n' ∧ n' + callBias T.after.length = (j : Nat) ∧ T.becomes i j ∧
    (T.quiet i ∨ p = .routine ∨ (p = .tail ∧ r = [])) ∧ Outlined G L m p r r' ∧ Under G L m p R σ.callers R' σ'.callers
  same : Same G L σ σ'

/-- One of these. -/
def Rel (G L : Outlining) (m : Nat) (σ σ' : State) : Prop := Linked G L m σ σ' ∨ Mid G L m σ σ'

/-- Both are at the same token, the other side after some calls and returns. -/
structure Aligned (G L : Outlining) (m : Nat) (σ σ' : State) : Prop where
  head : ∃ p a a' R R', σ.code = a ++ R ∧ σ'.code = a' ++ R' ∧ Under G L m p R σ.callers R' σ'.callers ∧ Head G L m p a a'
  same : Same G L σ σ'
  stack : σ'.stack = σ.stack

theorem align (c : Bool) {σ σ' : State} (h : Linked G L m σ σ') (hc : σ.code ≠ []) :
    ∃ σ'', Turns c σ' σ'' ∧ Aligned G L m σ σ'' := by
  obtain ⟨⟨e, hf⟩, hs, hst⟩ := h
  obtain ⟨p2, a2, a2', R2, R2', cs2', k1, k2, k3, k4⟩ := ascend c hf hc hs.global.2 hs.local.2 rfl rfl
  exact ⟨_, k1, ⟨p2, a2, a2', R2, R2', k2, rfl, k3, k4⟩, ⟨hs.global, hs.local, hs.stems, hs.width⟩, hst⟩

theorem pushes_turns {c : Bool} {a b d : State} (h1 : Pushes a b) (h2 : Turns c b d) : ∃ e, Turns c a e ∧ Pushes e d := by
  rcases Relation.ReflTransGen.cases_head h2 with rfl | ⟨x, ⟨υ, hp, hq⟩, ht⟩
  · exact ⟨a, .refl, h1⟩
  · exact ⟨d, .head ⟨υ, h1.trans hp, hq⟩ ht, .refl⟩

theorem called_mem {op : Operator} {R : Outlining} (h : called G L op = some R) : R ∈ [G, L] := by
  unfold called at h
  split at h <;> simp_all

/-- A call on the one side. -/
theorem mid_quiet {c : Bool} (hcon : Coherent G L m) {σ σ' : State} (h : Mid G L m σ σ') :
    ∃ τ τ', Quiet c σ τ ∧ Quiet c σ' τ' ∧ Linked G L m τ τ' := by
  obtain ⟨⟨p, op, T, x, x', n, n', i, j, st, r, r', R, R', hop, hc, hc', hst, hst', hw, hn, hi, hn', hj, hij, hq, ho, hu⟩, hg, hl, hs, hw'⟩ := h
  obtain ⟨b, b', q1, q2, q3, q4⟩ := hcon T (called_mem hop) i j hij
  have hf : ∃ e, Frames G L m e b ((r ++ R) :: σ.callers) b' ((r' ++ R') :: σ'.callers) := by
    obtain ⟨e, hf, he⟩ := frames_of ho hu
    rcases hq with hq | hq
    · exact ⟨false, .quiet (q4 hq) hf⟩
    · obtain rfl := he hq
      exact ⟨true, .routine q3 hf⟩
  refine ⟨{ σ with code := b, callers := (r ++ R) :: σ.callers, stack := st },
    { σ' with code := b', callers := (r' ++ R') :: σ'.callers, stack := st }, ?_, ?_, hf, ⟨hg, hl, hs, hw'⟩, rfl⟩
  · unfold called at hop
    split at hop
    · obtain rfl := Option.some.inj hop
      exact .callLocal hc hst hn (by rw [hl.1]; exact hi) (by rw [hl.1]; exact q1)
    · obtain rfl := Option.some.inj hop
      exact .callGlobal hc hst hn (by rw [hg.1]; exact hi) (by rw [hg.1]; exact q1)
    · cases hop
  · unfold called at hop
    split at hop
    · obtain rfl := Option.some.inj hop
      exact .callLocal hc' hst' hn' (by rw [hl.2]; exact hj) (by rw [hl.2]; exact q2)
    · obtain rfl := Option.some.inj hop
      exact .callGlobal hc' hst' hn' (by rw [hg.2]; exact hj) (by rw [hg.2]; exact q2)
    · cases hop

theorem aligned_push {σ σ' τ : State} (h : Aligned G L m σ σ') (hp : Push σ τ) :
    ∃ τ', Push σ' τ' ∧ Rel G L m τ τ' := by
  obtain ⟨⟨p, a, a', R, R', hc, hc', hu, hh⟩, ⟨hg, hl, hs, hw⟩, hst⟩ := h
  obtain ⟨x, bs, rest, hx, hb, rfl⟩ := hp
  rw [hb] at hc
  cases hh with
  | operand h1 h2 h3 =>
    rw [List.append_assoc] at hc hc'
    obtain ⟨rfl, rfl, rfl⟩ := operand_unique hx h1 hc
    obtain ⟨e, hf, -⟩ := frames_of h3 hu
    exact ⟨_, ⟨_, _, _, h2, hc', rfl⟩, .inl ⟨⟨e, hf⟩, ⟨hg, hl, hs, hw⟩, by dsimp only; rw [hst]⟩⟩
  | operator => exact absurd (hc.trans (List.append_assoc _ _ _)) (operand_bytes hx)
  | mask => exact absurd (hc.trans (List.append_assoc _ _ _)) (operand_bytes hx)
  | «return» => exact absurd (hc.trans (List.append_assoc _ _ _)) (operand_bytes hx)
  | endchar => exact absurd (hc.trans (List.append_assoc _ _ _)) (operand_bytes hx)
  | call h1 h2 h3 h4 h5 h6 =>
    obtain ⟨y, n, k1, k2, k3⟩ := h2
    obtain ⟨y', n', k1', k2', k3'⟩ := h3
    simp only [List.append_assoc] at hc hc'
    obtain ⟨rfl, rfl, rfl⟩ := operand_unique hx k1 hc
    refine ⟨_, ⟨_, _, _, k1', hc', rfl⟩, .inr ⟨?_, ⟨hg, hl, hs, hw⟩⟩⟩
    exact ⟨p, _, _, x, y', n, n', _, _, _, _, _, R, R', h1, rfl, rfl, rfl, by dsimp only; rw [hst], operand_wf hx, k2, k3, k2', k3', h4, h5, h6, hu⟩

theorem mid_push {σ σ' τ : State} (h : Mid G L m σ σ') (hp : Push σ τ) : False := by
  obtain ⟨⟨p, op, T, x, x', n, n', i, j, st, r, r', R, R', hop, hc, -⟩, -⟩ := h
  obtain ⟨y, bs, rest, hy, hb, -⟩ := hp
  exact operand_bytes hy (hb.symm.trans hc)

theorem push_ne {σ τ : State} (h : Push σ τ) : σ.code ≠ [] := by
  obtain ⟨y, bs, rest, hy, hb, -⟩ := h
  rw [hb]
  simp [operand_ne_nil hy]

theorem rel_push (c : Bool) {σ σ' τ : State} (h : Rel G L m σ σ') (hp : Push σ τ) :
    ∃ υ τ', Turns c σ' υ ∧ Push υ τ' ∧ Rel G L m τ τ' := by
  rcases h with h | h
  · obtain ⟨υ, h1, h2⟩ := align c h (push_ne hp)
    obtain ⟨τ', h3, h4⟩ := aligned_push h2 hp
    exact ⟨υ, τ', h1, h3, h4⟩
  · exact (mid_push h hp).elim

theorem rel_pushes (c : Bool) {σ σ' υ : State} (h : Rel G L m σ σ') (hp : Relation.TransGen Push σ υ) :
    ∃ τ υ', Turns c σ' τ ∧ Relation.TransGen Push τ υ' ∧ Rel G L m υ υ' := by
  induction hp with
  | single hp =>
    obtain ⟨τ, υ', h1, h2, h3⟩ := rel_push c h hp
    exact ⟨τ, υ', h1, .single h2, h3⟩
  | tail _ hp ih =>
    obtain ⟨τ, υ', h1, h2, h3⟩ := ih
    obtain ⟨ρ, ρ', h4, h5, h6⟩ := rel_push c h3 hp
    obtain ⟨ε, h7, h8⟩ := pushes_turns h2.to_reflTransGen h4
    exact ⟨ε, ρ', h1.trans h7, .tail' h8 h5, h6⟩

theorem rel_pushes' (c : Bool) {σ σ' υ : State} (h : Rel G L m σ σ') (hp : Pushes σ υ) :
    ∃ τ υ', Turns c σ' τ ∧ Pushes τ υ' ∧ Rel G L m υ υ' := by
  rcases Relation.reflTransGen_iff_eq_or_transGen.mp hp with rfl | hp
  · exact ⟨σ', σ', .refl, .refl, h⟩
  · obtain ⟨τ, υ', h1, h2, h3⟩ := rel_pushes c h hp
    exact ⟨τ, υ', h1, h2.to_reflTransGen, h3⟩

theorem stackOp_plain {c : Bool} {op : Operator} {st st' : List F32} (h : StackOp c op st st') :
    ¬ Mask op ∧ op ∉ [Operator.opCallSubr, .opCallGSubr, .opReturn, .opEndChar] := by
  cases h <;> decide

theorem frames_return {p : Place} (hp : p = .routine ∨ p = .quiet) {R R' : List UInt8} {cs cs' : List (List UInt8)}
    (hu : Under G L m p R cs R' cs') : (cs = [] ∧ cs' = []) ∨
      ∃ e r cs0 r' cs0', cs = r :: cs0 ∧ cs' = r' :: cs0' ∧ Frames G L m e r cs0 r' cs0' := by
  cases hu with
  | main => exact .inl ⟨rfl, rfl⟩
  | routine hf => exact .inr ⟨_, _, _, _, _, rfl, rfl, hf⟩
  | quiet hf => exact .inr ⟨_, _, _, _, _, rfl, rfl, hf⟩
  | fragment => simp at hp
  | tail => simp at hp

theorem called_or {op : Operator} {R : Outlining} (h : called G L op = some R) : op = .opCallSubr ∨ op = .opCallGSubr := by
  unfold called at h
  split at h <;> simp_all

theorem aligned_quiet {c : Bool} {σ σ' τ : State} (h : Aligned G L m σ σ') (hq : Quiet c σ τ) :
    ∃ τ', Quiet c σ' τ' ∧ Linked G L m τ τ' := by
  obtain ⟨⟨p, a, a', R, R', hc, hc', hu, hh⟩, ⟨hg, hl, hs, hw⟩, hst⟩ := h
  cases hh with
  | operand h1 =>
    obtain ⟨op, rest, hb⟩ := quiet_code hq
    rw [List.append_assoc] at hc
    exact absurd (hc.symm.trans hb) (operand_bytes h1)
  | call _ h1 =>
    obtain ⟨op, rest, hb⟩ := quiet_code hq
    obtain ⟨y, n, k1, _⟩ := h1
    rw [List.append_assoc] at hc
    exact absurd (hc.symm.trans hb) (operand_bytes k1)
  | operator h1 h2 h3 =>
    rw [List.append_assoc] at hc hc'
    obtain ⟨e, hf, -⟩ := frames_of h3 hu
    cases hq with
    | stack hb k =>
      obtain ⟨rfl, rfl⟩ := bytes_unique (hb.symm.trans hc)
      exact ⟨_, .stack hc' (by rw [hst]; exact k), ⟨e, hf⟩, ⟨hg, hl, hs, hw⟩, rfl⟩
    | callLocal hb => obtain ⟨rfl, -⟩ := bytes_unique (hb.symm.trans hc); simp at h2
    | callGlobal hb => obtain ⟨rfl, -⟩ := bytes_unique (hb.symm.trans hc); simp at h2
    | «return» hb => obtain ⟨rfl, -⟩ := bytes_unique (hb.symm.trans hc); simp at h2
  | mask h1 h2 h3 =>
    rw [List.append_assoc] at hc
    cases hq with
    | stack hb k => obtain ⟨rfl, -⟩ := bytes_unique (hb.symm.trans hc); exact absurd h1 (stackOp_plain k).1
    | callLocal hb => obtain ⟨rfl, -⟩ := bytes_unique (hb.symm.trans hc); simp [Mask] at h1
    | callGlobal hb => obtain ⟨rfl, -⟩ := bytes_unique (hb.symm.trans hc); simp [Mask] at h1
    | «return» hb => obtain ⟨rfl, -⟩ := bytes_unique (hb.symm.trans hc); simp [Mask] at h1
  | «return» h1 h2 =>
    rw [List.append_assoc] at hc hc'
    cases hq with
    | stack hb k => obtain ⟨rfl, -⟩ := bytes_unique (hb.symm.trans hc); have := (stackOp_plain k).2; simp at this
    | callLocal hb => obtain ⟨h, -⟩ := bytes_unique (hb.symm.trans hc); cases h
    | callGlobal hb => obtain ⟨h, -⟩ := bytes_unique (hb.symm.trans hc); cases h
    | «return» hb k =>
      rcases frames_return h1 hu with ⟨e, -⟩ | ⟨e, r, cs0, r', cs0', e1, e2, hf⟩
      · rw [e] at k; cases k
      · rw [e1] at k
        injection k with k1 k2
        subst k1 k2
        exact ⟨_, .return hc' e2, ⟨e, hf⟩, ⟨hg, hl, hs, hw⟩, hst⟩
  | endchar h1 h2 =>
    rw [List.append_assoc] at hc
    cases hq with
    | stack hb k => obtain ⟨rfl, -⟩ := bytes_unique (hb.symm.trans hc); have := (stackOp_plain k).2; simp at this
    | callLocal hb => obtain ⟨h, -⟩ := bytes_unique (hb.symm.trans hc); cases h
    | callGlobal hb => obtain ⟨h, -⟩ := bytes_unique (hb.symm.trans hc); cases h
    | «return» hb => obtain ⟨h, -⟩ := bytes_unique (hb.symm.trans hc); cases h

theorem bytes_code {σ : State} {op : Operator} {rest : List UInt8} (h : σ.code = bytes op ++ rest) : σ.code ≠ [] := by
  rw [h]
  simp [bytes_ne_nil]

theorem mid_code {σ σ' : State} (h : Mid G L m σ σ') : ∃ op rest, σ.code = bytes op ++ rest ∧ (op = .opCallSubr ∨ op = .opCallGSubr) := by
  obtain ⟨⟨p, op, T, x, x', n, n', i, j, st, r, r', R, R', hop, hc, -⟩, -⟩ := h
  exact ⟨_, _, hc, called_or hop⟩

theorem mid_top {σ σ' : State} (h : Mid G L m σ σ') : ∀ x st, σ.stack = st ++ [x] → x.WF := by
  obtain ⟨⟨p, op, T, x, x', n, n', i, j, st, r, r', R, R', hop, hc, hc', hst, hst', hw, -⟩, -⟩ := h
  intro y st' hy
  obtain ⟨-, rfl⟩ := snoc_inj (hst.symm.trans hy)
  exact hw

theorem call_unique {c : Bool} {σ τ τ' : State} (hs : ∀ x st, σ.stack = st ++ [x] → x.WF) {op : Operator} {rest : List UInt8} (hc : σ.code = bytes op ++ rest)
    (hop : op = .opCallSubr ∨ op = .opCallGSubr) (h : Quiet c σ τ) (h' : Quiet c σ τ') : τ = τ' := by
  rcases hop with rfl | rfl
  · cases h with
    | stack hb k => obtain ⟨rfl, -⟩ := bytes_unique (hb.symm.trans hc); have := (stackOp_plain k).2; simp at this
    | callGlobal hb => obtain ⟨h, -⟩ := bytes_unique (hb.symm.trans hc); cases h
    | «return» hb => obtain ⟨h, -⟩ := bytes_unique (hb.symm.trans hc); cases h
    | callLocal hb h1 h2 h3 h4 =>
      cases h' with
      | stack hb k => obtain ⟨rfl, -⟩ := bytes_unique (hb.symm.trans hc); have := (stackOp_plain k).2; simp at this
      | callGlobal hb => obtain ⟨h, -⟩ := bytes_unique (hb.symm.trans hc); cases h
      | «return» hb => obtain ⟨h, -⟩ := bytes_unique (hb.symm.trans hc); cases h
      | callLocal hb' h1' h2' h3' h4' =>
        obtain ⟨-, rfl⟩ := bytes_unique (hb.symm.trans hb')
        obtain ⟨rfl, rfl⟩ := snoc_inj (h1.symm.trans h1')
        obtain rfl := intArg_unique (hs _ _ h1') h2 h2'
        obtain rfl : _ = _ := Int.ofNat_inj.mp (h3.symm.trans h3')
        obtain rfl := Option.some.inj (h4.symm.trans h4')
        rfl
  · cases h with
    | stack hb k => obtain ⟨rfl, -⟩ := bytes_unique (hb.symm.trans hc); have := (stackOp_plain k).2; simp at this
    | callLocal hb => obtain ⟨h, -⟩ := bytes_unique (hb.symm.trans hc); cases h
    | «return» hb => obtain ⟨h, -⟩ := bytes_unique (hb.symm.trans hc); cases h
    | callGlobal hb h1 h2 h3 h4 =>
      cases h' with
      | stack hb k => obtain ⟨rfl, -⟩ := bytes_unique (hb.symm.trans hc); have := (stackOp_plain k).2; simp at this
      | callLocal hb => obtain ⟨h, -⟩ := bytes_unique (hb.symm.trans hc); cases h
      | «return» hb => obtain ⟨h, -⟩ := bytes_unique (hb.symm.trans hc); cases h
      | callGlobal hb' h1' h2' h3' h4' =>
        obtain ⟨-, rfl⟩ := bytes_unique (hb.symm.trans hb')
        obtain ⟨rfl, rfl⟩ := snoc_inj (h1.symm.trans h1')
        obtain rfl := intArg_unique (hs _ _ h1') h2 h2'
        obtain rfl : _ = _ := Int.ofNat_inj.mp (h3.symm.trans h3')
        obtain rfl := Option.some.inj (h4.symm.trans h4')
        rfl

theorem path_plain {op : Operator} (h : Path op ∨ Stem op) : ¬ Mask op ∧ op ∉ [Operator.opCallSubr, .opCallGSubr, .opReturn, .opEndChar] := by
  cases op <;> simp_all [Path, Stem, Mask]

theorem mask_plain {op : Operator} (h : Mask op) : ¬ Path op ∧ ¬ Stem op ∧ op ∉ [Operator.opCallSubr, .opCallGSubr, .opReturn, .opEndChar] := by
  cases op <;> simp_all [Path, Stem, Mask]

theorem aligned_emit {σ σ' τ : State} {o : Operation} (h : Aligned G L m σ σ') (he : Emit σ o τ)
    (hm : Mask o.1 → (τ.stems + 7) / 8 = m) : ∃ τ', Emit σ' o τ' ∧ Linked G L m τ τ' := by
  obtain ⟨⟨p, a, a', R, R', hc, hc', hu, hh⟩, ⟨hg, hl, hs, hw⟩, hst⟩ := h
  cases hh with
  | operand h1 =>
    obtain ⟨rest, hb⟩ := emit_code he
    rw [List.append_assoc] at hc
    exact absurd (hc.symm.trans hb) (operand_bytes h1)
  | call _ h1 =>
    obtain ⟨rest, hb⟩ := emit_code he
    obtain ⟨y, n, k1, _⟩ := h1
    rw [List.append_assoc] at hc
    exact absurd (hc.symm.trans hb) (operand_bytes k1)
  | operator h1 h2 h3 =>
    rw [List.append_assoc] at hc hc'
    obtain ⟨e, hf, -⟩ := frames_of h3 hu
    cases he with
    | path k hb k1 =>
      obtain ⟨rfl, rfl⟩ := bytes_unique (hb.symm.trans hc)
      exact ⟨_, .path k hc' (by rw [hst]; exact k1), ⟨e, hf⟩, ⟨hg, hl, hs, by dsimp only; rw [hw]⟩, rfl⟩
    | stem k hb k1 =>
      obtain ⟨rfl, rfl⟩ := bytes_unique (hb.symm.trans hc)
      exact ⟨_, .stem k hc' (by rw [hst]; exact k1), ⟨e, hf⟩, ⟨hg, hl, by dsimp only; rw [hs, hst], by dsimp only; rw [hw]⟩, rfl⟩
    | mask k hb k1 =>
      rw [List.append_assoc] at hb
      obtain ⟨rfl, -⟩ := bytes_unique (hb.symm.trans hc)
      exact absurd k h1
  | mask h1 h2 h3 =>
    simp only [List.append_assoc] at hc hc'
    obtain ⟨e, hf, -⟩ := frames_of h3 hu
    cases he with
    | path k hb k1 => obtain ⟨rfl, rfl⟩ := bytes_unique (hb.symm.trans hc); exact absurd k (mask_plain h1).1
    | stem k hb k1 => obtain ⟨rfl, rfl⟩ := bytes_unique (hb.symm.trans hc); exact absurd k (mask_plain h1).2.1
    | mask k hb k1 =>
      rw [List.append_assoc] at hb
      obtain ⟨rfl, hb⟩ := bytes_unique (hb.symm.trans hc)
      have hm := hm k
      dsimp only at hm
      obtain ⟨rfl, rfl⟩ := List.append_inj hb ((k1.trans hm).trans h2.symm)
      exact ⟨_, .mask k (by rw [hc', List.append_assoc]) (by rw [hst, hs]; exact k1), ⟨e, hf⟩,
        ⟨hg, hl, by dsimp only; rw [hs, hst], by dsimp only; rw [hw, hst]⟩, rfl⟩
  | «return» h1 h2 =>
    rw [List.append_assoc] at hc
    cases he with
    | path k hb => obtain ⟨rfl, -⟩ := bytes_unique (hb.symm.trans hc); simp [Path] at k
    | stem k hb => obtain ⟨rfl, -⟩ := bytes_unique (hb.symm.trans hc); simp [Stem] at k
    | mask k hb => rw [List.append_assoc] at hb; obtain ⟨rfl, -⟩ := bytes_unique (hb.symm.trans hc); simp [Mask] at k
  | endchar h1 h2 =>
    rw [List.append_assoc] at hc
    cases he with
    | path k hb => obtain ⟨rfl, -⟩ := bytes_unique (hb.symm.trans hc); simp [Path] at k
    | stem k hb => obtain ⟨rfl, -⟩ := bytes_unique (hb.symm.trans hc); simp [Stem] at k
    | mask k hb => rw [List.append_assoc] at hb; obtain ⟨rfl, -⟩ := bytes_unique (hb.symm.trans hc); simp [Mask] at k

theorem aligned_end {σ σ' τ : State} (h : Aligned G L m σ σ') (he : End σ τ) :
    ∃ τ', End σ' τ' ∧ τ'.width = τ.width := by
  obtain ⟨⟨p, a, a', R, R', hc, hc', hu, hh⟩, ⟨hg, hl, hs, hw⟩, hst⟩ := h
  obtain ⟨hb, hk⟩ := he
  cases hh with
  | operand h1 =>
    rw [List.append_assoc] at hc
    exact absurd (hc.symm.trans hb) (operand_bytes h1)
  | call _ h1 =>
    obtain ⟨y, n, k1, _⟩ := h1
    rw [List.append_assoc] at hc
    exact absurd (hc.symm.trans hb) (operand_bytes k1)
  | operator h1 h2 h3 =>
    rw [List.append_assoc] at hc
    obtain ⟨rfl, -⟩ := bytes_unique (hb.symm.trans hc)
    simp at h2
  | mask h1 h2 h3 =>
    simp only [List.append_assoc] at hc
    obtain ⟨rfl, -⟩ := bytes_unique (hb.symm.trans hc)
    simp [Mask] at h1
  | «return» h1 h2 =>
    rw [List.append_assoc] at hc
    obtain ⟨h, -⟩ := bytes_unique (hb.symm.trans hc)
    cases h
  | endchar h1 h2 =>
    rw [List.append_assoc] at hc hc'
    obtain ⟨-, rfl⟩ := bytes_unique (hb.symm.trans hc)
    obtain ⟨e, hf, he⟩ := frames_of h2 hu
    obtain rfl := he h1
    obtain ⟨k', main', h3⟩ := (frames_end hf rfl).mp ⟨_, _, hk⟩
    exact ⟨_, .endchar hc' h3, by dsimp only; rw [hw, hst]⟩

/-- The other way round. -/
theorem aligned_stuck {c : Bool} {σ σ' : State} (h : Aligned G L m σ σ') (hm : ∀ op rest, Mask op → σ.code = bytes op ++ rest →
      (σ.stems + σ.stack.length / 2 + 7) / 8 = m) (hp : ∀ τ, ¬ Push σ τ)
    (hs : (∀ τ, ¬ Quiet c σ τ) ∧ (∀ o τ, ¬ Emit σ o τ) ∧ ∀ τ, ¬ End σ τ) :
    (∀ τ, ¬ Push σ' τ) ∧ (∀ τ, ¬ Quiet c σ' τ) ∧ (∀ o τ, ¬ Emit σ' o τ) ∧ ∀ τ, ¬ End σ' τ := by
  obtain ⟨⟨p, a, a', R, R', hc, hc', hu, hh⟩, ⟨hg, hl, hs', hw⟩, hst⟩ := h
  obtain ⟨hq, he, hd⟩ := hs
  cases hh with
  | operand h1 =>
    rw [List.append_assoc] at hc
    exact absurd ⟨_, _, _, h1, hc, rfl⟩ (hp _)
  | call _ h1 =>
    obtain ⟨y, n, k1, _⟩ := h1
    rw [List.append_assoc] at hc
    exact absurd ⟨_, _, _, k1, hc, rfl⟩ (hp _)
  | operator h1 h2 h3 =>
    rw [List.append_assoc] at hc hc'
    refine ⟨fun τ k => ?_, fun τ k => ?_, fun o τ k => ?_, fun τ k => ?_⟩
    · obtain ⟨y, bs, rest, hy, hb, -⟩ := k
      exact operand_bytes hy (hb.symm.trans hc')
    · cases k with
      | stack hb k => obtain ⟨rfl, rfl⟩ := bytes_unique (hb.symm.trans hc'); exact hq _ (.stack hc (by rw [← hst]; exact k))
      | callLocal hb => obtain ⟨rfl, -⟩ := bytes_unique (hb.symm.trans hc'); simp at h2
      | callGlobal hb => obtain ⟨rfl, -⟩ := bytes_unique (hb.symm.trans hc'); simp at h2
      | «return» hb => obtain ⟨rfl, -⟩ := bytes_unique (hb.symm.trans hc'); simp at h2
    · cases k with
      | path k hb k1 => obtain ⟨rfl, rfl⟩ := bytes_unique (hb.symm.trans hc'); exact he _ _ (.path k hc (by rw [← hst]; exact k1))
      | stem k hb k1 => obtain ⟨rfl, rfl⟩ := bytes_unique (hb.symm.trans hc'); exact he _ _ (.stem k hc (by rw [← hst]; exact k1))
      | mask k hb k1 =>
        rw [List.append_assoc] at hb
        obtain ⟨rfl, -⟩ := bytes_unique (hb.symm.trans hc')
        exact h1 k
    · obtain ⟨hb, hk⟩ := k
      obtain ⟨rfl, -⟩ := bytes_unique (hb.symm.trans hc')
      simp at h2
  | mask h1 h2 h3 =>
    simp only [List.append_assoc] at hc
    exact absurd (.mask h1 (hc.trans (List.append_assoc _ _ _).symm) (h2.trans (hm _ _ h1 hc).symm)) (he _ _)
  | «return» h1 h2 =>
    rw [List.append_assoc] at hc hc'
    refine ⟨fun τ k => ?_, fun τ k => ?_, fun o τ k => ?_, fun τ k => ?_⟩
    · obtain ⟨y, bs, rest, hy, hb, -⟩ := k
      exact operand_bytes hy (hb.symm.trans hc')
    · cases k with
      | stack hb k => obtain ⟨rfl, -⟩ := bytes_unique (hb.symm.trans hc'); have := (stackOp_plain k).2; simp at this
      | callLocal hb => obtain ⟨h, -⟩ := bytes_unique (hb.symm.trans hc'); cases h
      | callGlobal hb => obtain ⟨h, -⟩ := bytes_unique (hb.symm.trans hc'); cases h
      | «return» hb k =>
        rcases frames_return h1 hu with ⟨-, e⟩ | ⟨e, r, cs0, r', cs0', e1, e2, hf⟩
        · rw [e] at k; cases k
        · exact hq _ (.return hc e1)
    · cases k with
      | path k hb => obtain ⟨rfl, -⟩ := bytes_unique (hb.symm.trans hc'); simp [Path] at k
      | stem k hb => obtain ⟨rfl, -⟩ := bytes_unique (hb.symm.trans hc'); simp [Stem] at k
      | mask k hb => rw [List.append_assoc] at hb; obtain ⟨rfl, -⟩ := bytes_unique (hb.symm.trans hc'); simp [Mask] at k
    · obtain ⟨hb, hk⟩ := k
      obtain ⟨h, -⟩ := bytes_unique (hb.symm.trans hc')
      cases h
  | endchar h1 h2 =>
    rw [List.append_assoc] at hc hc'
    refine ⟨fun τ k => ?_, fun τ k => ?_, fun o τ k => ?_, fun τ k => ?_⟩
    · obtain ⟨y, bs, rest, hy, hb, -⟩ := k
      exact operand_bytes hy (hb.symm.trans hc')
    · cases k with
      | stack hb k => obtain ⟨rfl, -⟩ := bytes_unique (hb.symm.trans hc'); have := (stackOp_plain k).2; simp at this
      | callLocal hb => obtain ⟨h, -⟩ := bytes_unique (hb.symm.trans hc'); cases h
      | callGlobal hb => obtain ⟨h, -⟩ := bytes_unique (hb.symm.trans hc'); cases h
      | «return» hb => obtain ⟨h, -⟩ := bytes_unique (hb.symm.trans hc'); cases h
    · cases k with
      | path k hb => obtain ⟨rfl, -⟩ := bytes_unique (hb.symm.trans hc'); simp [Path] at k
      | stem k hb => obtain ⟨rfl, -⟩ := bytes_unique (hb.symm.trans hc'); simp [Stem] at k
      | mask k hb => rw [List.append_assoc] at hb; obtain ⟨rfl, -⟩ := bytes_unique (hb.symm.trans hc'); simp [Mask] at k
    · obtain ⟨hb, hk⟩ := k
      obtain ⟨-, rfl⟩ := bytes_unique (hb.symm.trans hc')
      obtain ⟨e, hf, he⟩ := frames_of h2 hu
      obtain rfl := he h1
      obtain ⟨k', main', h3⟩ := (frames_end hf rfl).mpr ⟨_, _, hk⟩
      exact hd _ (.endchar hc h3)

/-! ## Executions -/

theorem rel_quiet {c : Bool} (hcon : Coherent G L m) {σ σ' τ : State} (h : Rel G L m σ σ') (hq : Quiet c σ τ) :
    ∃ υ τ', Turns c σ' υ ∧ Quiet c υ τ' ∧ Linked G L m τ τ' := by
  rcases h with h | h
  · obtain ⟨op, rest, hb⟩ := quiet_code hq
    obtain ⟨υ, h1, h2⟩ := align c h (bytes_code hb)
    obtain ⟨τ', h3, h4⟩ := aligned_quiet h2 hq
    exact ⟨υ, τ', h1, h3, h4⟩
  · obtain ⟨op, rest, hb, hop⟩ := mid_code h
    obtain ⟨τ0, τ', h1, h2, h3⟩ := mid_quiet (c := c) hcon h
    obtain rfl := call_unique (mid_top h) hb hop hq h1
    exact ⟨σ', τ', .refl, h2, h3⟩

theorem rel_emit {c : Bool} {σ σ' τ : State} {o : Operation} (h : Rel G L m σ σ') (he : Emit σ o τ)
    (hm : Mask o.1 → (τ.stems + 7) / 8 = m) : ∃ υ τ', Turns c σ' υ ∧ Emit υ o τ' ∧ Linked G L m τ τ' := by
  obtain ⟨rest, hb⟩ := emit_code he
  rcases h with h | h
  · obtain ⟨υ, h1, h2⟩ := align c h (bytes_code hb)
    obtain ⟨τ', h3, h4⟩ := aligned_emit h2 he hm
    exact ⟨υ, τ', h1, h3, h4⟩
  · obtain ⟨op, rest', hb', hop⟩ := mid_code h
    obtain ⟨rfl, -⟩ := bytes_unique (hb.symm.trans hb')
    exfalso
    cases he with
    | path k => rcases hop with hop | hop <;> (dsimp only at hop; subst hop; simp [Path] at k)
    | stem k => rcases hop with hop | hop <;> (dsimp only at hop; subst hop; simp [Stem] at k)
    | mask k => rcases hop with hop | hop <;> (dsimp only at hop; subst hop; simp [Mask] at k)

theorem rel_end {c : Bool} {σ σ' τ : State} (h : Rel G L m σ σ') (he : End σ τ) :
    ∃ υ τ', Turns c σ' υ ∧ End υ τ' ∧ τ'.width = τ.width := by
  obtain ⟨rest, hb⟩ := end_code he
  rcases h with h | h
  · obtain ⟨υ, h1, h2⟩ := align c h (bytes_code hb)
    obtain ⟨τ', h3, h4⟩ := aligned_end h2 he
    exact ⟨υ, τ', h1, h3, h4⟩
  · obtain ⟨op, rest', hb', hop⟩ := mid_code h
    obtain ⟨rfl, -⟩ := bytes_unique (hb.symm.trans hb')
    rcases hop with hop | hop <;> cases hop

theorem linked_turn {c : Bool} (hcon : Coherent G L m) {σ σ' τ : State} (h : Linked G L m σ σ') (ht : Turn c σ τ) :
    ∃ τ', Turns c σ' τ' ∧ Linked G L m τ τ' := by
  obtain ⟨υ, hp, hq⟩ := ht
  obtain ⟨τ0, υ', h1, h2, h3⟩ := rel_pushes' c (.inl h) hp
  obtain ⟨ρ, τ', h4, h5, h6⟩ := rel_quiet hcon h3 hq
  obtain ⟨ε, h7, h8⟩ := pushes_turns h2 h4
  exact ⟨τ', (h1.trans h7).tail ⟨ρ, h8, h5⟩, h6⟩

theorem linked_turns {c : Bool} (hcon : Coherent G L m) {σ σ' τ : State} (h : Linked G L m σ σ') (ht : Turns c σ τ) :
    ∃ τ', Turns c σ' τ' ∧ Linked G L m τ τ' := by
  induction ht with
  | refl => exact ⟨σ', .refl, h⟩
  | tail _ ht ih =>
    obtain ⟨υ', h1, h2⟩ := ih
    obtain ⟨τ', h3, h4⟩ := linked_turn hcon h2 ht
    exact ⟨τ', h1.trans h3, h4⟩

theorem linked_yields {c : Bool} (hcon : Coherent G L m) {σ σ' τ : State} {o : Operation} (h : Linked G L m σ σ')
    (hy : Yields c σ o τ) (hm : Mask o.1 → (τ.stems + 7) / 8 = m) : ∃ τ', Yields c σ' o τ' ∧ Linked G L m τ τ' := by
  obtain ⟨τ1, υ, h1, h2, h3⟩ := hy
  obtain ⟨τ2, h4, h5⟩ := linked_turns hcon h h1
  obtain ⟨τ0, υ', k1, k2, k3⟩ := rel_pushes' c (.inl h5) h2
  obtain ⟨ρ, τ', k4, k5, k6⟩ := rel_emit (c := c) k3 h3 hm
  obtain ⟨ε, h7, h8⟩ := pushes_turns k2 k4
  exact ⟨τ', ⟨ε, ρ, h4.trans (k1.trans h7), h8, k5⟩, k6⟩

theorem linked_ends {c : Bool} (hcon : Coherent G L m) {σ σ' τ : State} (h : Linked G L m σ σ')
    (he : Ends c σ τ) : ∃ τ', Ends c σ' τ' ∧ τ'.width = τ.width := by
  obtain ⟨τ1, h1, ⟨h2, rfl⟩ | ⟨υ, h2, h3⟩⟩ := he
  · obtain ⟨τ2, h4, h5⟩ := linked_turns hcon h h1
    obtain ⟨e, hf⟩ := h5.frames
    exact ⟨τ2, ⟨τ2, h4, .inl ⟨frames_empty hf h2, rfl⟩⟩, h5.same.width⟩
  · obtain ⟨τ2, h4, h5⟩ := linked_turns hcon h h1
    obtain ⟨τ0, υ', k1, k2, k3⟩ := rel_pushes' c (.inl h5) h2
    obtain ⟨ρ, τ', k4, k5, k6⟩ := rel_end (c := c) k3 h3
    obtain ⟨ε, h7, h8⟩ := pushes_turns k2 k4
    exact ⟨τ', ⟨ε, h4.trans (k1.trans h7), .inr ⟨ρ, h8, k5⟩⟩, k6⟩

theorem push_unique {σ τ τ' : State} (h : Push σ τ) (h' : Push σ τ') : τ = τ' := by
  obtain ⟨x, bs, rest, hx, hb, rfl⟩ := h
  obtain ⟨x', bs', rest', hx', hb', rfl⟩ := h'
  obtain ⟨rfl, rfl, rfl⟩ := operand_unique hx hx' (hb.symm.trans hb')
  rfl

theorem pushes_last : ∀ (k : Nat) {σ : State}, σ.code.length ≤ k → ∃ υ, Pushes σ υ ∧ ∀ τ, ¬ Push υ τ := by
  intro k
  induction k with
  | zero =>
    intro σ hk
    exact ⟨σ, .refl, fun τ h => push_ne h (List.length_eq_zero_iff.mp (by omega))⟩
  | succ k ih =>
    intro σ hk
    by_cases h : ∃ τ, Push σ τ
    · obtain ⟨τ, h⟩ := h
      have h' := h
      obtain ⟨x, bs, rest, hx, hb, rfl⟩ := h'
      have := List.length_pos_iff.mpr (operand_ne_nil hx)
      rw [hb, List.length_append] at hk
      obtain ⟨υ, h1, h2⟩ := ih (σ := { σ with code := rest, stack := σ.stack ++ [x] }) (by dsimp only; omega)
      exact ⟨υ, .head h h1, h2⟩
    · exact ⟨σ, .refl, fun τ h' => h ⟨τ, h'⟩⟩

/-- Nothing can be executed. -/
def Stuck (c : Bool) (υ : State) : Prop := (∀ τ, ¬ Quiet c υ τ) ∧ (∀ o τ, ¬ Emit υ o τ) ∧ ∀ τ, ¬ End υ τ

theorem stuck_push {c : Bool} {σ τ : State} (h : Push σ τ) : Stuck c σ := by
  obtain ⟨x, bs, rest, hx, hb, -⟩ := h
  refine ⟨fun τ k => ?_, fun o τ k => ?_, fun τ k => ?_⟩
  · obtain ⟨op, rest, k⟩ := quiet_code k
    exact operand_bytes hx (hb.symm.trans k)
  · obtain ⟨rest, k⟩ := emit_code k
    exact operand_bytes hx (hb.symm.trans k)
  · obtain ⟨rest, k⟩ := end_code k
    exact operand_bytes hx (hb.symm.trans k)

theorem stuck_empty {c : Bool} {σ : State} (h : σ.code = []) : Stuck c σ := by
  refine ⟨fun τ k => ?_, fun o τ k => ?_, fun τ k => ?_⟩
  · obtain ⟨op, rest, k⟩ := quiet_code k
    exact bytes_code k h
  · obtain ⟨rest, k⟩ := emit_code k
    exact bytes_code k h
  · obtain ⟨rest, k⟩ := end_code k
    exact bytes_code k h

theorem stuck_all {c : Bool} {ε υ : State} (h : Pushes ε υ) (hp : ∀ τ, ¬ Push υ τ) (hs : Stuck c υ) {ρ : State} (hr : Pushes ε ρ) :
    Stuck c ρ := by
  rcases Relation.ReflTransGen.total_of_right_unique (r := Push) (fun _ _ _ h h' => push_unique h h') h hr with k | k
  · rcases Relation.ReflTransGen.cases_head k with rfl | ⟨x, k, -⟩
    · exact hs
    · exact absurd k (hp _)
  · rcases Relation.ReflTransGen.cases_head k with rfl | ⟨x, k, -⟩
    · exact hs
    · exact stuck_push k

theorem aligned_code {σ σ' : State} (h : Aligned G L m σ σ') : σ'.code ≠ [] := by
  obtain ⟨⟨p, a, a', R, R', hc, hc', hu, hh⟩, -⟩ := h
  rw [hc']
  cases hh with
  | operand _ h => simp [operand_ne_nil h]
  | call _ _ h =>
    obtain ⟨y, n, k1, _⟩ := h
    simp [operand_ne_nil k1]
  | _ => simp [bytes_ne_nil]

/-- Failures. -/
theorem linked_failure {c : Bool} (hcon : Coherent G L m) {σ σ' τ : State} (h : Linked G L m σ σ') (hm : Masks c σ m)
    (ht : Turns c σ τ) (hc : τ.code ≠ []) (hs : ∀ υ, Pushes τ υ → Stuck c υ) :
    ∃ τ', Turns c σ' τ' ∧ τ'.code ≠ [] ∧ ∀ υ, Pushes τ' υ → Stuck c υ := by
  obtain ⟨τ2, h1, h2⟩ := linked_turns hcon h ht
  obtain ⟨υ, h3, h4⟩ := pushes_last _ (le_refl τ.code.length)
  have key : ∃ τ0 υ', Turns c τ2 τ0 ∧ Pushes τ0 υ' ∧ Rel G L m υ υ' ∧ (υ.code = [] → τ0.code ≠ []) := by
    rcases Relation.reflTransGen_iff_eq_or_transGen.mp h3 with rfl | hp
    · exact ⟨τ2, τ2, .refl, .refl, .inl h2, fun e => absurd e hc⟩
    · obtain ⟨τ0, υ', k1, k2, k3⟩ := rel_pushes c (.inl h2) hp
      refine ⟨τ0, υ', k1, k2.to_reflTransGen, k3, fun _ => ?_⟩
      obtain ⟨x, k, -⟩ := Relation.TransGen.head'_iff.mp k2
      exact push_ne k
  obtain ⟨τ0, υ', k1, k2, k3, k4⟩ := key
  rcases k3 with k3 | k3
  · by_cases he : υ.code = []
    · obtain ⟨e, hf⟩ := k3.frames
      have he' := frames_empty hf he
      exact ⟨τ0, h1.trans k1, k4 he, fun ρ hr => stuck_all k2 (fun _ k => push_ne k he') (stuck_empty he') hr⟩
    · obtain ⟨υ2, k5, k6⟩ := align c k3 he
      obtain ⟨ε, k7, k8⟩ := pushes_turns k2 k5
      obtain ⟨k9, k10⟩ := aligned_stuck k6 (fun op rest ho hb => hm [] τ υ op rest (.nil ht) h3 ho hb) h4 (hs υ h3)
      refine ⟨ε, h1.trans (k1.trans k7), fun e => ?_, fun ρ hr => stuck_all k8 k9 k10 hr⟩
      rcases Relation.ReflTransGen.cases_head k8 with rfl | ⟨x, k, -⟩
      · exact aligned_code k6 e
      · exact push_ne k e
  · obtain ⟨_, _, q, -⟩ := mid_quiet (c := c) hcon k3
    exact absurd q ((hs υ h3).1 _)

theorem linked_deep {c : Bool} (hcon : Coherent G L m) {σ σ' : State} (h : Linked G L m σ σ')
    (hd : ∀ D, ∃ τ, Turns c σ τ ∧ D < τ.callers.length) (D : Nat) : ∃ τ, Turns c σ' τ ∧ D < τ.callers.length := by
  obtain ⟨τ, h1, h2⟩ := hd D
  obtain ⟨τ', h3, h4⟩ := linked_turns hcon h h1
  obtain ⟨e, hf⟩ := h4.frames
  exact ⟨τ', h3, lt_of_lt_of_le h2 (frames_depth hf)⟩

theorem linked_new {code code' : List UInt8} (h : Outlined G L m .routine code code') :
    Linked G L m (view (Program.new code G.before L.before)) (view (Program.new code' G.after L.after)) :=
  ⟨⟨true, by simpa [view, left, Program.new, Routine.new] using Frames.main h⟩, ⟨⟨rfl, rfl⟩, ⟨rfl, rfl⟩, rfl, rfl⟩, rfl⟩

end PS.Type2.Outline
