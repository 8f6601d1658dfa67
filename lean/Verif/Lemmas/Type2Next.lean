import Verif.Lemmas.Type2Refine
/-!
# Lemmas: `next` is a run of the machine
-/
namespace PS.Type2
open PS.Spec hiding Operand Operation
open PS.Type2.Spec

/-! ## Pushing operands -/

theorem pushes_iff {σ υ : State} : Pushes σ υ ↔
    ∃ xs bs, Seq Operand xs bs ∧ σ.code = bs ++ υ.code ∧ υ = { σ with code := υ.code, stack := σ.stack ++ xs } := by
  constructor
  · intro h
    induction h with
    | refl => exact ⟨[], [], .nil, rfl, by simp⟩
    | @tail τ υ' _ hp ih =>
      obtain ⟨xs, bs, hs, hc, he⟩ := ih
      obtain ⟨x, b, rest, ho, hc', rfl⟩ := hp
      refine ⟨xs ++ [x], bs ++ b, seq_append hs ?_, ?_, ?_⟩
      · have := Seq.cons ho Seq.nil
        simpa using this
      · simp [hc, hc']
      · rw [he]; simp
  · rintro ⟨xs, bs, hs, hc, he⟩
    rw [he]
    clear he
    generalize υ.code = r at hc
    induction hs generalizing σ with
    | nil =>
      simp only [List.nil_append] at hc
      subst hc
      simp only [List.append_nil]
      exact .refl
    | @cons x b xs bs ho _ ih =>
      rw [List.append_assoc] at hc
      refine Relation.ReflTransGen.head (b := { σ with code := bs ++ r, stack := σ.stack ++ [x] }) ?_ ?_
      · exact ⟨x, _, _, ho, hc, rfl⟩
      · have := ih (σ := { σ with code := bs ++ r, stack := σ.stack ++ [x] }) rfl
        simpa using this

theorem view_adv {s : Program} {bs r : List UInt8} (h : left s.routine = bs ++ r) (xs : List F32) :
    view (adv s xs bs.length) = { view s with code := r, stack := s.stack ++ xs } := by
  unfold view
  rw [left_adv h]
  rfl

theorem fetched {s : Program} (hs : Sound s) {xs : List F32} {bs r : List UInt8} {op : Operator}
    (hx : Seq Operand xs bs) (h : left s.routine = bs ++ bytes op ++ r) :
    Sound (adv s xs (bs ++ bytes op).length) ∧
    before op (adv s xs (bs ++ bytes op).length) =
      { view s with code := bytes op ++ r, stack := s.stack ++ xs } := by
  refine ⟨sound_adv hs (seq_wf hx) (by rw [h]; simp), ?_⟩
  unfold before
  rw [left_adv h, view_adv h]

/-- The four things that can happen at the beginning of a step. -/
theorem step_cases (cfg : Config) {s : Program} (hs : Sound s) :
    (left s.routine = [] ∧ step cfg s = (.ok (.ret none), s)) ∨
    (∃ op t, Sound t ∧ Pushes (view s) (before op t) ∧ step cfg s = dispatch op cfg t) ∨
    (left s.routine ≠ [] ∧ (∃ υ, Pushes (view s) υ ∧ Cut υ.code) ∧ ∃ s', step cfg s = (.err .eof, s')) ∨
    ((∃ υ, Pushes (view s) υ ∧ Unknown υ.code) ∧ ∃ s', step cfg s = (.err (.raised .unknownOperator), s')) := by
  rcases fetch_cases (left s.routine) with h | ⟨xs, bs, op, r, hx, h⟩ | ⟨xs, bs, tail, hx, h, hne, hc⟩ | ⟨xs, bs, tail, hx, h, hu⟩
  · exact .inl ⟨h, step_done hs.routine h⟩
  · obtain ⟨h1, h2⟩ := fetched hs hx h
    refine .inr (.inl ⟨op, _, h1, ?_, step_fetch hx h⟩)
    rw [h2]
    exact pushes_iff.mpr ⟨xs, bs, hx, by simp [view, h], rfl⟩
  · refine .inr (.inr (.inl ⟨hne, ⟨{ view s with code := tail, stack := s.stack ++ xs },
      pushes_iff.mpr ⟨xs, bs, hx, h, rfl⟩, hc⟩, step_eof hx hs.routine h (by rw [← h]; exact hne) hc⟩))
  · exact .inr (.inr (.inr ⟨⟨{ view s with code := tail, stack := s.stack ++ xs },
      pushes_iff.mpr ⟨xs, bs, hx, h, rfl⟩, hu⟩, step_unknown hx h hu⟩))

theorem step_of_pushes (cfg : Config) {s : Program} (hs : Sound s) {υ : State} (hp : Pushes (view s) υ) {op : Operator}
    {rest : List UInt8} (h : υ.code = bytes op ++ rest) :
    ∃ t, before op t = υ ∧ Sound t ∧ step cfg s = dispatch op cfg t := by
  obtain ⟨xs, bs, hx, hc, he⟩ := pushes_iff.mp hp
  have hl : left s.routine = bs ++ bytes op ++ rest := by
    have : left s.routine = bs ++ υ.code := hc
    rw [this, h, List.append_assoc]
  obtain ⟨h1, h2⟩ := fetched hs hx hl
  refine ⟨_, ?_, h1, step_fetch hx hl⟩
  rw [h2, he, h]
  rfl

theorem quiet_code {c : Bool} {υ τ : State} (h : Quiet c υ τ) : ∃ op rest, υ.code = bytes op ++ rest := by
  cases h with
  | stack h _ => exact ⟨_, _, h⟩
  | callLocal h _ _ _ _ => exact ⟨_, _, h⟩
  | callGlobal h _ _ _ _ => exact ⟨_, _, h⟩
  | «return» h _ => exact ⟨_, _, h⟩

theorem emit_code {υ τ : State} {o : Operation} (h : Emit υ o τ) : ∃ rest, υ.code = bytes o.1 ++ rest := by
  cases h with
  | path _ h _ => exact ⟨_, h⟩
  | stem _ h _ => exact ⟨_, h⟩
  | mask _ h _ => exact ⟨_, h.trans (List.append_assoc _ _ _)⟩

theorem end_code {υ τ : State} (h : End υ τ) : ∃ rest, υ.code = bytes .opEndChar ++ rest := by
  cases h with
  | endchar h _ => exact ⟨_, h⟩

theorem step_of_turn (cfg : Config) {s : Program} (hs : Sound s) {τ : State} (h : Turn cfg.checks (view s) τ) :
    ∃ s', step cfg s = (.ok .again, s') ∧ view s' = τ ∧ Sound s' := by
  obtain ⟨υ, hp, hq⟩ := h
  obtain ⟨op, rest, hc⟩ := quiet_code hq
  obtain ⟨t, rfl, ht, he⟩ := step_of_pushes cfg hs hp hc
  rw [he]
  exact dispatch_of_quiet ht hq

theorem step_of_emit (cfg : Config) {s : Program} (hs : Sound s) {υ τ : State} {o : Operation} (hp : Pushes (view s) υ)
    (h : Emit υ o τ) : ∃ s', step cfg s = (.ok (.ret (some o)), s') ∧ view s' = τ ∧ Sound s' := by
  obtain ⟨rest, hc⟩ := emit_code h
  obtain ⟨t, rfl, ht, he⟩ := step_of_pushes cfg hs hp hc
  rw [he]
  exact dispatch_of_emit ht h

theorem step_of_end (cfg : Config) {s : Program} (hs : Sound s) {υ τ : State} (hp : Pushes (view s) υ)
    (h : End υ τ) : ∃ s', step cfg s = (.ok (.ret none), s') ∧ view s' = τ ∧ Sound s' := by
  obtain ⟨rest, hc⟩ := end_code h
  obtain ⟨t, rfl, ht, he⟩ := step_of_pushes cfg hs hp hc
  rw [he]
  exact dispatch_of_end ht h

/-! ## Calls of `next` -/

theorem next_again {cfg : Config} {s s1 : Program} (h : step cfg s = (.ok .again, s1)) {r : Res (Option Operation)}
    {t : Program} : Next cfg s r t ↔ Next cfg s1 r t := by
  constructor
  · rintro ⟨fuel, hf⟩
    cases fuel with
    | zero => simp [nextFuel] at hf
    | succ fuel =>
      rw [nextFuel, h] at hf
      exact ⟨fuel, hf⟩
  · rintro ⟨fuel, hf⟩
    refine ⟨fuel + 1, ?_⟩
    rw [nextFuel, h]
    exact hf

theorem next_of {cfg : Config} {s : Program} {q : Res (Option Operation) × Program}
    (hq : ∀ fuel, nextFuel (fuel + 1) cfg s = some q) {r : Res (Option Operation)} {t : Program} :
    Next cfg s r t ↔ r = q.1 ∧ t = q.2 := by
  constructor
  · rintro ⟨fuel, hf⟩
    cases fuel with
    | zero => simp [nextFuel] at hf
    | succ fuel =>
      rw [hq] at hf
      rw [Option.some.inj hf]
      exact ⟨rfl, rfl⟩
  · rintro ⟨rfl, rfl⟩
    exact ⟨1, hq 0⟩

theorem next_ret {cfg : Config} {s s1 : Program} {o : Option Operation} (h : step cfg s = (.ok (.ret o), s1))
    {r : Res (Option Operation)} {t : Program} : Next cfg s r t ↔ r = .ok o ∧ t = s1 :=
  next_of (q := (.ok o, s1)) (fun fuel => by rw [nextFuel, h])

theorem next_err {cfg : Config} {s s1 : Program} {e : Err} (h : step cfg s = (.err e, s1))
    {r : Res (Option Operation)} {t : Program} : Next cfg s r t ↔ r = .err e ∧ t = s1 :=
  next_of (q := (.err e, s1)) (fun fuel => by rw [nextFuel, h])

theorem next_panic {cfg : Config} {s s1 : Program} {x : Panic} (h : step cfg s = (.panic x, s1))
    {r : Res (Option Operation)} {t : Program} : Next cfg s r t ↔ r = .panic x ∧ t = s1 :=
  next_of (q := (.panic x, s1)) (fun fuel => by rw [nextFuel, h])

theorem nextFuel_mono {cfg : Config} {fuel : Nat} {s : Program} {q : Res (Option Operation) × Program}
    (h : nextFuel fuel cfg s = some q) (k : Nat) : nextFuel (fuel + k) cfg s = some q := by
  induction fuel generalizing s with
  | zero => simp [nextFuel] at h
  | succ fuel ih =>
    rw [show fuel + 1 + k = (fuel + k) + 1 by omega, nextFuel]
    rw [nextFuel] at h
    split at h
    · exact h
    · exact ih h
    · exact h
    · exact h

theorem next_unique {cfg : Config} {s : Program} {r r' : Res (Option Operation)} {t t' : Program} (h : Next cfg s r t)
    (h' : Next cfg s r' t') : r = r' ∧ t = t' := by
  obtain ⟨f, h⟩ := h
  obtain ⟨f', h'⟩ := h'
  have h1 := nextFuel_mono h f'
  have h2 := nextFuel_mono h' f
  rw [Nat.add_comm, h1] at h2
  simpa using h2

/-- A step that leads to another, and a run of the machine. -/
theorem step_again_turn {cfg : Config} {s s1 : Program} (hs : Sound s) (h : step cfg s = (.ok .again, s1)) :
    Turn cfg.checks (view s) (view s1) ∧ Sound s1 := by
  rcases step_cases cfg hs with ⟨_, he⟩ | ⟨op, t, ht, hp, he⟩ | ⟨_, _, s', he⟩ | ⟨_, s', he⟩
  · rw [he] at h; simp at h
  · rw [he] at h
    rcases dispatch_cases cfg op ht with ⟨s', h', hq, hs'⟩ | ⟨o, s', h', _⟩ | ⟨s', h', _⟩ |
      ⟨_, ⟨r, s', h'⟩ | ⟨_, _, s', h'⟩ | ⟨_, _, _, s', h'⟩ | ⟨_, _, s', h'⟩⟩ <;> rw [h'] at h <;> simp at h
    subst h
    exact ⟨⟨_, hp, hq⟩, hs'⟩
  · rw [he] at h; simp at h
  · rw [he] at h; simp at h

/-- Induction over the steps of a call of `next`. -/
theorem next_induction {cfg : Config} {r : Res (Option Operation)} {t : Program} {P : Program → Prop}
    (hstep : ∀ s s1, step cfg s = (.ok .again, s1) → Next cfg s1 r t → P s1 → P s)
    (hlast : ∀ s, (∀ s1, step cfg s ≠ (.ok .again, s1)) → Next cfg s r t → P s) {s : Program} (h : Next cfg s r t) : P s := by
  obtain ⟨fuel, h⟩ := h
  induction fuel generalizing s with
  | zero => simp [nextFuel] at h
  | succ fuel ih =>
    rcases hst : step cfg s with ⟨q, s1⟩
    by_cases hq : q = .ok .again
    · subst hq
      have h' := h
      rw [nextFuel, hst] at h'
      exact hstep s s1 hst ⟨fuel, h'⟩ (ih h')
    · exact hlast s (fun s2 h2 => by rw [hst] at h2; exact hq (Prod.mk.inj h2).1) ⟨_, h⟩

/-- Every call of `next` runs the machine for some turns and then returns with
its last step. -/
theorem next_turns {cfg : Config} {s t : Program} {r : Res (Option Operation)} (hs : Sound s) (h : Next cfg s r t) :
    ∃ s1, Turns cfg.checks (view s) (view s1) ∧ Sound s1 ∧ Next cfg s1 r t ∧ ∀ s2, step cfg s1 ≠ (.ok .again, s2) := by
  revert hs
  refine next_induction (P := fun s => Sound s → ∃ s1, Turns cfg.checks (view s) (view s1) ∧ Sound s1 ∧ Next cfg s1 r t ∧
    ∀ s2, step cfg s1 ≠ (.ok .again, s2)) ?_ ?_ h
  · intro s s1 hstep hn ih hs
    obtain ⟨ht, hs1⟩ := step_again_turn hs hstep
    obtain ⟨s2, h1, h2⟩ := ih hs1
    exact ⟨s2, .head ht h1, h2⟩
  · intro s hl hn hs
    exact ⟨s, .refl, hs, hn, hl⟩

theorem turns_steps {cfg : Config} {σ τ : State} (h : Turns cfg.checks σ τ) : ∀ {s : Program}, view s = σ → Sound s →
    ∃ s1, view s1 = τ ∧ Sound s1 ∧ ∀ r t, Next cfg s r t ↔ Next cfg s1 r t := by
  induction h using Relation.ReflTransGen.head_induction_on with
  | refl => intro s h1 h2; exact ⟨s, h1, h2, fun _ _ => Iff.rfl⟩
  | head ht _ ih =>
    rintro s rfl hs
    obtain ⟨s1, he, hv, hs1⟩ := step_of_turn cfg hs ht
    obtain ⟨s2, h1, h2, h3⟩ := ih hv hs1
    exact ⟨s2, h1, h2, fun r t => (next_again he).trans (h3 r t)⟩

theorem next_yields {cfg : Config} {s : Program} (hs : Sound s) {o : Operation} {s' : Program}
    (h : Next cfg s (.ok (some o)) s') : Yields cfg.checks (view s) o (view s') ∧ Sound s' := by
  obtain ⟨s1, ht, hs1, hn, hl⟩ := next_turns hs h
  rcases step_cases cfg hs1 with ⟨_, he⟩ | ⟨op, t, hst, hp, he⟩ | ⟨_, _, s2, he⟩ | ⟨_, s2, he⟩
  · have := (next_ret he).mp hn; simp at this
  · rcases dispatch_cases cfg op hst with ⟨s2, h', _⟩ | ⟨o', s2, h', hem, hs2⟩ | ⟨s2, h', _⟩ |
      ⟨_, ⟨r, s2, h'⟩ | ⟨_, _, s2, h'⟩ | ⟨_, _, _, s2, h'⟩ | ⟨_, _, s2, h'⟩⟩ <;> rw [← he] at h'
    · exact absurd h' (hl _)
    · obtain ⟨h1, rfl⟩ := (next_ret h').mp hn
      simp only [Res.ok.injEq, Option.some.injEq] at h1
      subst h1
      exact ⟨⟨_, _, ht, hp, hem⟩, hs2⟩
    · have := (next_ret h').mp hn; simp at this
    · have := (next_err h').mp hn; simp at this
    · have := (next_err h').mp hn; simp at this
    · have := (next_panic h').mp hn; simp at this
    · have := (next_panic h').mp hn; simp at this
  · have := (next_err he).mp hn; simp at this
  · have := (next_err he).mp hn; simp at this

theorem next_ends {cfg : Config} {s : Program} (hs : Sound s) {s' : Program}
    (h : Next cfg s (.ok none) s') : Ends cfg.checks (view s) (view s') ∧ Sound s' := by
  obtain ⟨s1, ht, hs1, hn, hl⟩ := next_turns hs h
  rcases step_cases cfg hs1 with ⟨hle, he⟩ | ⟨op, t, hst, hp, he⟩ | ⟨_, _, s2, he⟩ | ⟨_, s2, he⟩
  · obtain ⟨_, rfl⟩ := (next_ret he).mp hn
    exact ⟨⟨_, ht, .inl ⟨hle, rfl⟩⟩, hs1⟩
  · rcases dispatch_cases cfg op hst with ⟨s2, h', _⟩ | ⟨o', s2, h', _⟩ | ⟨s2, h', hem, hs2⟩ |
      ⟨_, ⟨r, s2, h'⟩ | ⟨_, _, s2, h'⟩ | ⟨_, _, _, s2, h'⟩ | ⟨_, _, s2, h'⟩⟩ <;> rw [← he] at h'
    · exact absurd h' (hl _)
    · have := (next_ret h').mp hn; simp at this
    · obtain ⟨_, rfl⟩ := (next_ret h').mp hn
      exact ⟨⟨_, ht, .inr ⟨_, hp, hem⟩⟩, hs2⟩
    · have := (next_err h').mp hn; simp at this
    · have := (next_err h').mp hn; simp at this
    · have := (next_panic h').mp hn; simp at this
    · have := (next_panic h').mp hn; simp at this
  · have := (next_err he).mp hn; simp at this
  · have := (next_err he).mp hn; simp at this

theorem yields_next {cfg : Config} {s : Program} (hs : Sound s) {o : Operation} {σ' : State}
    (h : Yields cfg.checks (view s) o σ') : ∃ s', Next cfg s (.ok (some o)) s' ∧ view s' = σ' ∧ Sound s' := by
  obtain ⟨τ, υ, ht, hp, hem⟩ := h
  obtain ⟨s1, rfl, hs1, hn⟩ := turns_steps ht rfl hs
  obtain ⟨s', he, hv, hs'⟩ := step_of_emit cfg hs1 hp hem
  exact ⟨s', (hn _ _).mpr ((next_ret he).mpr ⟨rfl, rfl⟩), hv, hs'⟩

theorem ends_next {cfg : Config} {s : Program} (hs : Sound s) {σ' : State}
    (h : Ends cfg.checks (view s) σ') : ∃ s', Next cfg s (.ok none) s' ∧ view s' = σ' ∧ Sound s' := by
  obtain ⟨τ, ht, h⟩ := h
  obtain ⟨s1, rfl, hs1, hn⟩ := turns_steps ht rfl hs
  rcases h with ⟨hc, rfl⟩ | ⟨υ, hp, hem⟩
  · exact ⟨s1, (hn _ _).mpr ((next_ret (step_done hs1.routine hc)).mpr ⟨rfl, rfl⟩), rfl, hs1⟩
  · obtain ⟨s', he, hv, hs'⟩ := step_of_end cfg hs1 hp hem
    exact ⟨s', (hn _ _).mpr ((next_ret he).mpr ⟨rfl, rfl⟩), hv, hs'⟩

end PS.Type2
