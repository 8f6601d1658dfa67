import Verif.Props.Type2Stack
/-!
# Lemmas: more code behind the code of a routine
-/
namespace PS.Type2
open PS.Spec hiding Operand Operation
open PS.Type2.Spec

/-! ## The machine does not look at what follows -/

/-- `r` behind the outermost of the callers, and `K` beyond it. -/
def extCallers (r : List UInt8) (K : List (List UInt8)) : List (List UInt8) → List (List UInt8)
  | [] => K
  | [x] => (x ++ r) :: K
  | x :: y :: l => x :: extCallers r K (y :: l)

/-- `r` behind the code of a routine without callers. -/
def extCode (r : List UInt8) : List (List UInt8) → List UInt8 → List UInt8
  | [], code => code ++ r
  | _ :: _, code => code

/-- The same state with `r` behind the code of the outermost routine, and with
further callers `K`. -/
def ext (r : List UInt8) (K : List (List UInt8)) (σ : State) : State :=
  { σ with code := extCode r σ.callers σ.code, callers := extCallers r K σ.callers }

variable {r : List UInt8} {K : List (List UInt8)}

theorem extCode_append (cs : List (List UInt8)) (a b : List UInt8) : extCode r cs (a ++ b) = a ++ extCode r cs b := by
  cases cs with
  | nil => exact List.append_assoc a b r
  | cons => rfl

theorem extCallers_cons (x : List UInt8) (cs : List (List UInt8)) :
    extCallers r K (x :: cs) = extCode r cs x :: extCallers r K cs := by
  cases cs <;> rfl

theorem ext_push {σ τ : State} (h : Push σ τ) : Push (ext r K σ) (ext r K τ) := by
  obtain ⟨x, bs, rest, ho, hc, rfl⟩ := h
  refine ⟨x, bs, extCode r σ.callers rest, ho, ?_, rfl⟩
  show extCode r σ.callers σ.code = _
  rw [hc, extCode_append]

theorem ext_code {σ : State} {a rest : List UInt8} (h : σ.code = a ++ rest) :
    (ext r K σ).code = a ++ extCode r σ.callers rest := by
  show extCode r σ.callers σ.code = _
  rw [h, extCode_append]

theorem ext_quiet {c : Bool} {σ τ : State} (h : Quiet c σ τ) : Quiet c (ext r K σ) (ext r K τ) := by
  cases h with
  | stack hc hs => exact .stack (σ := ext r K σ) (ext_code hc) hs
  | @callLocal rest st x a i body hc hs ha hi hb =>
    have : ext r K { σ with code := body, callers := rest :: σ.callers, stack := st } =
        { ext r K σ with code := body, callers := extCode r σ.callers rest :: (ext r K σ).callers, stack := st } := by
      simp only [ext, extCode, extCallers_cons]
    rw [this]
    exact .callLocal (σ := ext r K σ) (ext_code hc) hs ha hi hb
  | @callGlobal rest st x a i body hc hs ha hi hb =>
    have : ext r K { σ with code := body, callers := rest :: σ.callers, stack := st } =
        { ext r K σ with code := body, callers := extCode r σ.callers rest :: (ext r K σ).callers, stack := st } := by
      simp only [ext, extCode, extCallers_cons]
    rw [this]
    exact .callGlobal (σ := ext r K σ) (ext_code hc) hs ha hi hb
  | «return» hc hcs =>
    refine .return (σ := ext r K σ) (ext_code hc) ?_
    show extCallers r K σ.callers = _
    rw [hcs, extCallers_cons]

theorem ext_emit {σ τ : State} {o : Operation} (h : Emit σ o τ) : Emit (ext r K σ) o (ext r K τ) := by
  cases h with
  | path hp hc hl => exact .path (σ := ext r K σ) hp (ext_code hc) hl
  | stem hp hc hl => exact .stem (σ := ext r K σ) hp (ext_code hc) hl
  | mask hp hc hl => exact .mask (σ := ext r K σ) hp (ext_code hc) hl

theorem ext_pushes {σ τ : State} (h : Pushes σ τ) : Pushes (ext r K σ) (ext r K τ) :=
  h.lift (ext r K) fun _ _ h => ext_push h

theorem ext_turns {c : Bool} {σ τ : State} (h : Turns c σ τ) : Turns c (ext r K σ) (ext r K τ) :=
  h.lift (ext r K) fun _ _ ⟨υ, h1, h2⟩ => ⟨ext r K υ, ext_pushes h1, ext_quiet h2⟩

theorem ext_yields {c : Bool} {σ τ : State} {o : Operation} (h : Yields c σ o τ) :
    Yields c (ext r K σ) o (ext r K τ) := by
  obtain ⟨τ, υ, h1, h2, h3⟩ := h
  exact ⟨_, _, ext_turns h1, ext_pushes h2, ext_emit h3⟩

theorem ext_executes {c : Bool} {σ τ : State} {l : List Observation} (h : Executes c σ l τ) :
    Executes c (ext r K σ) l (ext r K τ) := by
  induction h with
  | nil h => exact .nil (ext_turns h)
  | cons h1 h2 h3 _ ih => exact .cons (σ1 := ext r K _) (ext_turns h1) (ext_pushes h2) (ext_emit h3) ih

/-! ## Runs -/

theorem run_iff_of_next {cfg : Config} {s s1 : Program} (h : ∀ r t, Next cfg s r t ↔ Next cfg s1 r t)
    (l : List Observation) (out : Outcome) : Run cfg s l out ↔ Run cfg s1 l out := by
  have key : ∀ {s s1 : Program}, (∀ r t, Next cfg s r t ↔ Next cfg s1 r t) → Run cfg s l out → Run cfg s1 l out := by
    intro s s1 h hr
    cases hr with
    | ended hn => exact .ended ((h _ _).mp hn)
    | failed hn hne => exact .failed ((h _ _).mp hn) hne
    | more hn hr => exact .more ((h _ _).mp hn) hr
  exact ⟨key h, key fun r t => (h r t).symm⟩

theorem run_of_err {cfg : Config} {s s' : Program} {e : Err} (h : step cfg s = (.err e, s')) (l : List Observation)
    (out : Outcome) : Run cfg s l out ↔ l = [] ∧ out = .failed := by
  constructor
  · intro hr
    cases hr with
    | ended hn => have := (next_err h).mp hn; simp at this
    | failed hn _ => exact ⟨rfl, rfl⟩
    | more hn _ => have := (next_err h).mp hn; simp at this
  · rintro ⟨rfl, rfl⟩
    exact .failed ((next_err h).mpr ⟨rfl, rfl⟩) (by simp)

theorem run_more {cfg : Config} {s t : Program} {o : Operation} (h : Next cfg s (.ok (some o)) t)
    (l : List Observation) (out : Outcome) :
    Run cfg s l out ↔ ∃ y, l = (o, t.width, t.stems) :: y ∧ Run cfg t y out := by
  constructor
  · intro hr
    cases hr with
    | ended hn => have := (next_unique hn h).1; simp at this
    | failed hn hne => exact absurd (next_unique hn h).1 (hne _)
    | more hn hr =>
      obtain ⟨h1, rfl⟩ := next_unique hn h
      simp only [Res.ok.injEq, Option.some.injEq] at h1
      subst h1
      exact ⟨_, rfl, hr⟩
  · rintro ⟨y, rfl, hr⟩
    exact .more h hr

/-- Programs in the same state of the machine run alike. -/
theorem run_view {cfg : Config} {s : Program} {l : List Observation} {out : Outcome} (h : Run cfg s l out) :
    ∀ {t : Program}, Sound s → Sound t → view s = view t → Run cfg t l out := by
  induction h with
  | @ended s s' hn =>
    intro t hs ht he
    obtain ⟨h1, _⟩ := next_ends hs hn
    rw [he] at h1
    obtain ⟨t', h2, h3, _⟩ := ends_next ht h1
    rw [show s'.width = t'.width from (congrArg State.width h3).symm]
    exact .ended h2
  | @failed s r s' hn hne =>
    intro t hs ht he
    have h1 : ∃ s', (∃ e, Next cfg s (.err e) s') ∨ ∃ x, Next cfg s (.panic x) s' := by
      rcases r with o | e | x
      · exact absurd rfl (hne o)
      · exact ⟨s', .inl ⟨e, hn⟩⟩
      · exact ⟨s', .inr ⟨x, hn⟩⟩
    rw [C54_failure_iff hs, he, ← C54_failure_iff ht] at h1
    obtain ⟨t', ⟨e, h2⟩ | ⟨x, h2⟩⟩ := h1
    · exact .failed h2 (by simp)
    · exact .failed h2 (by simp)
  | @more s o s' l out hn _ ih =>
    intro t hs ht he
    obtain ⟨h1, hs'⟩ := next_yields hs hn
    rw [he] at h1
    obtain ⟨t', h2, h3, ht'⟩ := yields_next ht h1
    rw [show s'.width = t'.width from (congrArg State.width h3).symm,
      show s'.stems = t'.stems from (congrArg State.stems h3).symm]
    exact .more h2 (ih hs' ht' h3.symm)

theorem run_view_iff {cfg : Config} {s t : Program} (hs : Sound s) (ht : Sound t) (he : view s = view t)
    (l : List Observation) (out : Outcome) : Run cfg s l out ↔ Run cfg t l out :=
  ⟨fun h => run_view h hs ht he, fun h => run_view h ht hs he.symm⟩

/-- Operands pushed already make no difference if anything follows. -/
theorem run_pushes {cfg : Config} {s t : Program} (hs : Sound s) (ht : Sound t) (hp : Pushes (view s) (view t))
    (hne : left t.routine ≠ []) (l : List Observation) (out : Outcome) : Run cfg s l out ↔ Run cfg t l out := by
  obtain ⟨xs, bs, hx, hc, hv⟩ := pushes_iff.mp hp
  replace hc : left s.routine = bs ++ left t.routine := hc
  set u := adv s xs bs.length with hu
  have hlu : left u.routine = left t.routine := left_adv hc xs
  have hsu : Sound u := sound_adv hs (seq_wf hx) (by rw [hc]; simp)
  have hvu : view u = view t := by rw [hu, view_adv hc, hv]; rfl
  rw [run_view_iff ht hsu hvu.symm]
  rcases fetch_cases (left t.routine) with h | ⟨ys, cs, op, r, hy, h⟩ | ⟨ys, cs, tail, hy, h, hne', hcut⟩ | ⟨ys, cs, tail, hy, h, hun⟩
  · exact absurd h hne
  · have h1 : step cfg s = _ := step_fetch (seq_append hx hy) (r := r) (op := op) (by rw [hc, h]; simp)
    have h2 : step cfg u = _ := step_fetch hy (r := r) (op := op) (by rw [hlu, h])
    rw [hu, adv_adv] at h2
    refine run_iff_of_next (fun q t' => ?_) l out
    have h3 : step cfg s = step cfg u := by
      rw [h1, hu, h2]
      simp
    constructor
    · rintro ⟨fuel, hf⟩
      cases fuel with
      | zero => simp [nextFuel] at hf
      | succ fuel => rw [nextFuel, h3] at hf; exact ⟨fuel + 1, hf⟩
    · rintro ⟨fuel, hf⟩
      cases fuel with
      | zero => simp [nextFuel] at hf
      | succ fuel => rw [nextFuel, ← h3] at hf; exact ⟨fuel + 1, hf⟩
  · obtain ⟨s', h1⟩ := step_eof (cfg := cfg) (seq_append hx hy) hs.routine (tail := tail) (by rw [hc, h]; simp)
      (by rw [List.append_assoc, ← h]; simp [hne]) hcut
    obtain ⟨u', h2⟩ := step_eof (cfg := cfg) hy hsu.routine (tail := tail) (by rw [hlu, h]) (by rw [← h]; exact hne) hcut
    rw [run_of_err h1, run_of_err h2]
  · obtain ⟨s', h1⟩ := step_unknown (cfg := cfg) (s := s) (seq_append hx hy) (tail := tail) (by rw [hc, h]; simp) hun
    obtain ⟨u', h2⟩ := step_unknown (cfg := cfg) (s := u) hy (tail := tail) (by rw [hlu, h]) hun
    rw [run_of_err h1, run_of_err h2]

theorem run_executes {cfg : Config} {σ τ : State} {l : List Observation} (h : Executes cfg.checks σ l τ) :
    ∀ {s : Program}, view s = σ → Sound s → ∃ s1, view s1 = τ ∧ Sound s1 ∧ (∃ s2, Calls cfg s (l.map (·.1)) s2) ∧
      ∀ x out, Run cfg s x out ↔ ∃ y, x = l ++ y ∧ Run cfg s1 y out := by
  induction h with
  | nil h =>
    rintro s rfl hs
    obtain ⟨s1, h1, h2, h3⟩ := turns_steps h rfl hs
    exact ⟨s1, h1, h2, ⟨s, .nil s⟩, fun x out => by simpa using run_iff_of_next h3 x out⟩
  | @cons σ τ υ σ1 σ2 o l ht hp hem _ ih =>
    rintro s rfl hs
    obtain ⟨t, h1, h2, h3⟩ := yields_next hs ⟨_, _, ht, hp, hem⟩
    obtain ⟨s1, h4, h5, ⟨s2, h6⟩, h7⟩ := ih h2 h3
    refine ⟨s1, h4, h5, ⟨s2, .cons h1 h6⟩, fun x out => ?_⟩
    rw [run_more h1]
    have e1 : t.width = σ1.width := congrArg State.width h2
    have e2 : t.stems = σ1.stems := congrArg State.stems h2
    constructor
    · rintro ⟨y, rfl, hr⟩
      obtain ⟨z, rfl, hz⟩ := (h7 _ _).mp hr
      exact ⟨z, by rw [e1, e2]; rfl, hz⟩
    · rintro ⟨z, rfl, hz⟩
      exact ⟨l ++ z, by rw [e1, e2]; rfl, (h7 _ _).mpr ⟨z, rfl, hz⟩⟩

end PS.Type2
