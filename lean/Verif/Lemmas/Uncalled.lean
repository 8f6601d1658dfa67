import Verif.Lemmas.Renumber
import Verif.Props.Flat
import Verif.Spec.Uncalled
/-!
# Tables of subroutines that agree where it matters
-/
namespace PS.Type2
open PS.Spec hiding Operand Operation
open PS.Type2.Spec

/-- A state with other tables of subroutines. -/
def Spec.State.swap (σ : State) (g l : List (List UInt8)) : State := { σ with global := g, «local» := l }

/-- The tables agree on the subroutines that are called. -/
structure Agreeing (c : Bool) (σ : State) (g l : List (List UInt8)) : Prop where
  globals : σ.global.length = g.length
  locals : σ.local.length = l.length
  global : ∀ i, CallsGlobal c σ i → σ.global[i]? = g[i]?
  «local» : ∀ i, CallsLocal c σ i → σ.local[i]? = l[i]?

variable {c : Bool} {g l : List (List UInt8)}

theorem executes_turns {σ τ υ : State} {x : List Observation} (h : Turns c σ τ) (he : Executes c τ x υ) : Executes c σ x υ := by
  cases he with
  | nil h' => exact .nil (h.trans h')
  | cons h1 h2 h3 h4 => exact .cons (h.trans h1) h2 h3 h4

theorem pushes_apart {σ υ : State} (h : Pushes σ υ) :
    ∃ xs bs c, Seq Operand xs bs ∧ σ.code = bs ++ c ∧ υ = { σ with code := c, stack := σ.stack ++ xs } := by
  obtain ⟨xs, bs, h1, h2, h3⟩ := pushes_iff.mp h
  exact ⟨xs, bs, _, h1, h2, h3⟩

theorem turn_tables {σ τ : State} (h : Turn c σ τ) : τ.global = σ.global ∧ τ.local = σ.local := by
  obtain ⟨υ, hp, hq⟩ := h
  obtain ⟨xs, bs, _, _, _, rfl⟩ := pushes_apart hp
  cases hq <;> exact ⟨rfl, rfl⟩

theorem emit_tables {σ υ τ : State} {o : Operation} (hp : Pushes σ υ) (h : Emit υ o τ) : τ.global = σ.global ∧ τ.local = σ.local := by
  obtain ⟨xs, bs, _, _, _, rfl⟩ := pushes_apart hp
  cases h <;> exact ⟨rfl, rfl⟩

theorem agreeing_turn {σ τ : State} (h : Agreeing c σ g l) (ht : Turn c σ τ) : Agreeing c τ g l := by
  obtain ⟨e1, e2⟩ := turn_tables ht
  refine ⟨by rw [e1]; exact h.globals, by rw [e2]; exact h.locals, fun i hi => ?_, fun i hi => ?_⟩
  · obtain ⟨x, τ', υ, rest, st, y, a, h1, h2⟩ := hi
    rw [e1]
    exact h.global i ⟨x, τ', υ, rest, st, y, a, executes_turns (.single ht) h1, h2⟩
  · obtain ⟨x, τ', υ, rest, st, y, a, h1, h2⟩ := hi
    rw [e2]
    exact h.local i ⟨x, τ', υ, rest, st, y, a, executes_turns (.single ht) h1, h2⟩

theorem agreeing_turns {σ τ : State} (h : Agreeing c σ g l) (ht : Turns c σ τ) : Agreeing c τ g l := by
  induction ht with
  | refl => exact h
  | tail _ h2 ih => exact agreeing_turn ih h2

theorem agreeing_emit {σ υ τ : State} {o : Operation} (h : Agreeing c σ g l) (hp : Pushes σ υ) (he : Emit υ o τ) :
    Agreeing c τ g l := by
  obtain ⟨e1, e2⟩ := emit_tables hp he
  refine ⟨by rw [e1]; exact h.globals, by rw [e2]; exact h.locals, fun i hi => ?_, fun i hi => ?_⟩
  · obtain ⟨x, τ', υ', rest, st, y, a, h1, h2⟩ := hi
    rw [e1]
    exact h.global i ⟨_, τ', υ', rest, st, y, a, .cons .refl hp he h1, h2⟩
  · obtain ⟨x, τ', υ', rest, st, y, a, h1, h2⟩ := hi
    rw [e2]
    exact h.local i ⟨_, τ', υ', rest, st, y, a, .cons .refl hp he h1, h2⟩

theorem swap_pushes {σ υ : State} (h : Pushes σ υ) : Pushes (σ.swap g l) (υ.swap g l) := by
  obtain ⟨xs, bs, _, h1, h2, rfl⟩ := pushes_apart h
  exact pushes_iff.mpr ⟨xs, bs, h1, h2, rfl⟩

theorem swap_pushes' {σ υ : State} (h : Pushes (σ.swap g l) υ) : ∃ υ', Pushes σ υ' ∧ υ = υ'.swap g l := by
  obtain ⟨xs, bs, code, h1, h2, rfl⟩ := pushes_apart h
  exact ⟨{ σ with code := code, stack := σ.stack ++ xs }, pushes_iff.mpr ⟨xs, bs, h1, h2, rfl⟩, rfl⟩

theorem swap_emit {σ τ : State} {o : Operation} (h : Emit σ o τ) : Emit (σ.swap g l) o (τ.swap g l) := by
  cases h with
  | path h1 h2 h3 => exact .path (σ := σ.swap g l) h1 h2 h3
  | stem h1 h2 h3 => exact .stem (σ := σ.swap g l) h1 h2 h3
  | mask h1 h2 h3 => exact .mask (σ := σ.swap g l) h1 h2 h3

theorem swap_emit' {σ τ : State} {o : Operation} (h : Emit (σ.swap g l) o τ) : ∃ τ', Emit σ o τ' ∧ τ = τ'.swap g l := by
  cases h with
  | path h1 h2 h3 => exact ⟨_, .path h1 h2 h3, rfl⟩
  | stem h1 h2 h3 => exact ⟨_, .stem h1 h2 h3, rfl⟩
  | mask h1 h2 h3 => exact ⟨_, .mask h1 h2 h3, rfl⟩

theorem swap_end {σ τ : State} (h : End σ τ) : End (σ.swap g l) (τ.swap g l) := by
  cases h with
  | endchar h1 h2 => exact .endchar (σ := σ.swap g l) h1 h2

theorem swap_end' {σ τ : State} (h : End (σ.swap g l) τ) : ∃ τ', End σ τ' ∧ τ = τ'.swap g l := by
  cases h with
  | endchar h1 h2 => exact ⟨_, .endchar h1 h2, rfl⟩

theorem swap_turn {σ τ : State} (h : Agreeing c σ g l) (ht : Turn c σ τ) : Turn c (σ.swap g l) (τ.swap g l) := by
  obtain ⟨υ, hp, hq⟩ := ht
  refine ⟨υ.swap g l, swap_pushes hp, ?_⟩
  have tables : υ.global = σ.global ∧ υ.local = σ.local := by
    obtain ⟨xs, bs, _, _, _, rfl⟩ := pushes_apart hp
    exact ⟨rfl, rfl⟩
  cases hq with
  | stack h1 h2 => exact .stack (σ := υ.swap g l) h1 h2
  | @callLocal _ _ _ _ i _ h1 h2 h3 h4 h5 =>
    refine .callLocal (σ := υ.swap g l) (i := i) h1 h2 h3 ?_ ?_
    · show _ + callBias l.length = _
      rw [← h.locals, ← tables.2]; exact h4
    · show l[i]? = _
      rw [← h.local i ⟨[], σ, υ, _, _, _, _, .nil .refl, hp, h1, h2, h3, h4⟩, ← tables.2]
      exact h5
  | @callGlobal _ _ _ _ i _ h1 h2 h3 h4 h5 =>
    refine .callGlobal (σ := υ.swap g l) (i := i) h1 h2 h3 ?_ ?_
    · show _ + callBias g.length = _
      rw [← h.globals, ← tables.1]; exact h4
    · show g[i]? = _
      rw [← h.global i ⟨[], σ, υ, _, _, _, _, .nil .refl, hp, h1, h2, h3, h4⟩, ← tables.1]
      exact h5
  | «return» h1 h2 => exact .return (σ := υ.swap g l) h1 h2

theorem swap_turn' {σ τ : State} (h : Agreeing c σ g l) (ht : Turn c (σ.swap g l) τ) : ∃ τ', Turn c σ τ' ∧ τ = τ'.swap g l := by
  obtain ⟨υ, hp, hq⟩ := ht
  obtain ⟨υ', hp', rfl⟩ := swap_pushes' hp
  have tables : υ'.global = σ.global ∧ υ'.local = σ.local := by
    obtain ⟨xs, bs, _, _, _, rfl⟩ := pushes_apart hp'
    exact ⟨rfl, rfl⟩
  cases hq with
  | stack h1 h2 => exact ⟨_, ⟨υ', hp', .stack h1 h2⟩, rfl⟩
  | @callLocal rest st x a i body h1 h2 h3 h4 h5 =>
    have h4' : a + callBias υ'.local.length = (i : Int) := by rw [tables.2, h.locals]; exact h4
    have h5' : υ'.local[i]? = some body := by
      rw [tables.2, h.local i ⟨[], σ, υ', _, _, _, _, .nil .refl, hp', h1, h2, h3, h4'⟩]
      exact h5
    exact ⟨_, ⟨υ', hp', .callLocal h1 h2 h3 h4' h5'⟩, rfl⟩
  | @callGlobal rest st x a i body h1 h2 h3 h4 h5 =>
    have h4' : a + callBias υ'.global.length = (i : Int) := by rw [tables.1, h.globals]; exact h4
    have h5' : υ'.global[i]? = some body := by
      rw [tables.1, h.global i ⟨[], σ, υ', _, _, _, _, .nil .refl, hp', h1, h2, h3, h4'⟩]
      exact h5
    exact ⟨_, ⟨υ', hp', .callGlobal h1 h2 h3 h4' h5'⟩, rfl⟩
  | «return» h1 h2 => exact ⟨_, ⟨υ', hp', .return h1 h2⟩, rfl⟩

theorem swap_turns {σ τ : State} (h : Agreeing c σ g l) (ht : Turns c σ τ) : Turns c (σ.swap g l) (τ.swap g l) := by
  induction ht with
  | refl => exact .refl
  | tail h1 h2 ih => exact ih.tail (swap_turn (agreeing_turns h h1) h2)

theorem swap_turns' {σ τ : State} (h : Agreeing c σ g l) (ht : Turns c (σ.swap g l) τ) : ∃ τ', Turns c σ τ' ∧ τ = τ'.swap g l := by
  generalize hσ : σ.swap g l = σ' at ht
  induction ht with
  | refl => exact ⟨σ, .refl, hσ.symm⟩
  | tail _ h2 ih =>
    obtain ⟨υ, h3, rfl⟩ := ih
    obtain ⟨τ', h4, rfl⟩ := swap_turn' (agreeing_turns h h3) h2
    exact ⟨τ', h3.tail h4, rfl⟩

theorem swap_executes {σ' τ' : State} {x : List Observation} (he : Executes c σ' x τ') :
    ∀ {σ : State}, Agreeing c σ g l → σ' = σ.swap g l → ∃ τ, Executes c σ x τ ∧ τ' = τ.swap g l := by
  induction he with
  | nil ht =>
    rintro σ h rfl
    obtain ⟨τ, h1, rfl⟩ := swap_turns' h ht
    exact ⟨τ, .nil h1, rfl⟩
  | cons ht hp hem _ ih =>
    rintro σ h rfl
    obtain ⟨τ, h1, rfl⟩ := swap_turns' h ht
    obtain ⟨υ, h2, rfl⟩ := swap_pushes' hp
    obtain ⟨τ1, h3, rfl⟩ := swap_emit' hem
    obtain ⟨τ2, h4, rfl⟩ := ih (agreeing_emit (agreeing_turns h h1) h2 h3) rfl
    have h5 := Executes.cons h1 h2 h3 h4
    exact ⟨τ2, h5, rfl⟩

/-- Tables that agree on what is called with the one agree on what is called with the other. -/
theorem agreeing_symm {σ : State} (h : Agreeing c σ g l) : Agreeing c (σ.swap g l) σ.global σ.local := by
  have tables : ∀ {x τ υ}, Executes c σ x τ → Pushes τ υ → υ.global = σ.global ∧ υ.local = σ.local := by
    intro x τ υ he hp
    obtain ⟨xs, bs, _, _, _, rfl⟩ := pushes_apart hp
    have turns : ∀ {σ τ}, Turns c σ τ → τ.global = σ.global ∧ τ.local = σ.local := by
      intro σ τ ht
      induction ht with
      | refl => exact ⟨rfl, rfl⟩
      | tail _ h2 ih => exact ⟨(turn_tables h2).1.trans ih.1, (turn_tables h2).2.trans ih.2⟩
    suffices this : ∀ {σ x τ}, Executes c σ x τ → τ.global = σ.global ∧ τ.local = σ.local by
      have := this he
      exact this
    intro σ x τ he
    induction he with
    | nil ht => exact turns ht
    | cons ht hp hem _ ih =>
      have e1 := turns ht
      have e2 := emit_tables hp hem
      exact ⟨ih.1.trans (e2.1.trans e1.1), ih.2.trans (e2.2.trans e1.2)⟩
  refine ⟨h.globals.symm, h.locals.symm, ?_, ?_⟩
  · rintro i ⟨x, τ, υ, rest, st, y, a, h1, h2, h3, h4, h5, h6⟩
    obtain ⟨τ', k1, rfl⟩ := swap_executes h1 h rfl
    obtain ⟨υ', k2, rfl⟩ := swap_pushes' h2
    refine (h.global i ⟨x, τ', υ', rest, st, y, a, k1, k2, h3, h4, h5, ?_⟩).symm
    rw [(tables k1 k2).1, h.globals]
    exact h6
  · rintro i ⟨x, τ, υ, rest, st, y, a, h1, h2, h3, h4, h5, h6⟩
    obtain ⟨τ', k1, rfl⟩ := swap_executes h1 h rfl
    obtain ⟨υ', k2, rfl⟩ := swap_pushes' h2
    refine (h.local i ⟨x, τ', υ', rest, st, y, a, k1, k2, h3, h4, h5, ?_⟩).symm
    rw [(tables k1 k2).2, h.locals]
    exact h6

theorem swap_run {cfg : Config} {s : Program} {x : List Observation} {out : Outcome} (hr : Run cfg s x out) :
    ∀ {s' : Program} {g l : List (List UInt8)}, Sound s → Sound s' → Agreeing cfg.checks (view s) g l →
      view s' = (view s).swap g l → Run cfg s' x out := by
  induction hr with
  | @ended s t hn =>
    intro s' g l hs hs' h hv
    obtain ⟨⟨τ, h1, h2⟩, _⟩ := next_ends hs hn
    have h3 := hv ▸ swap_turns h h1
    have h4 : Ends cfg.checks (view s') ((view t).swap g l) := by
      rcases h2 with ⟨h2, rfl⟩ | ⟨υ, h2, h5⟩
      · exact ⟨_, h3, .inl ⟨h2, by rfl⟩⟩
      · exact ⟨_, h3, .inr ⟨_, swap_pushes h2, swap_end h5⟩⟩
    obtain ⟨t', h5, h6, _⟩ := ends_next hs' h4
    rw [show t.width = t'.width from (congrArg State.width h6).symm]
    exact .ended h5
  | @failed s r t hn hne =>
    intro s' g l hs hs' h hv
    have h1 : ∃ s', (∃ e, Next cfg s (.err e) s') ∨ ∃ x, Next cfg s (.panic x) s' := by
      rcases r with o | e | x
      · exact absurd rfl (hne o)
      · exact ⟨t, .inl ⟨e, hn⟩⟩
      · exact ⟨t, .inr ⟨x, hn⟩⟩
    obtain ⟨τ, h2, h3, h4⟩ := (C54_failure_iff hs).mp h1
    have h5 := hv ▸ swap_turns h h2
    obtain ⟨t', ⟨e, h7⟩ | ⟨x, h7⟩⟩ := (C54_failure_iff hs').mpr ⟨τ.swap g l, h5, h3, by
      intro υ' hp
      obtain ⟨υ, hp', rfl⟩ := swap_pushes' hp
      refine ⟨fun σ hq => ?_, fun o σ he => ?_, fun σ he => ?_⟩
      · obtain ⟨τ', ⟨υ1, k1, k2⟩, _⟩ := swap_turn' (agreeing_turns h h2) ⟨_, hp, hq⟩
        exact (h4 υ1 k1).1 _ k2
      · obtain ⟨τ', k1, _⟩ := swap_emit' he
        exact (h4 υ hp').2.1 _ _ k1
      · obtain ⟨τ', k1, _⟩ := swap_end' he
        exact (h4 υ hp').2.2 _ k1⟩
    · exact .failed h7 (by simp)
    · exact .failed h7 (by simp)
  | @more s o t l out hn _ ih =>
    intro s' g l hs hs' h hv
    obtain ⟨⟨τ, υ, h1, h2, h3⟩, ht⟩ := next_yields hs hn
    have h4 : Yields cfg.checks (view s') o ((view t).swap g l) := ⟨_, _, hv ▸ swap_turns h h1, swap_pushes h2, swap_emit h3⟩
    obtain ⟨t', h5, h6, h7⟩ := yields_next hs' h4
    rw [show t.width = t'.width from (congrArg State.width h6).symm, show t.stems = t'.stems from (congrArg State.stems h6).symm]
    exact .more h5 (ih ht h7 (agreeing_emit (agreeing_turns h h1) h2 h3) h6)

end PS.Type2
