import Verif.Lemmas.Aftermath
/-!
# Property C93: the state after a failure, and whole histories of calls
-/
namespace PS.Type2
open PS.Spec hiding Operand Operation
open PS.Type2.Spec

/-- **C93.**  `next` fails with an error and leaves a state behind if and only if the
machine reports it and leaves that state. -/
theorem C93_error_iff {stays : Bool} {cfg : Config} (hr : FailedRead stays cfg) {s : Program} (hs : Sound s) (e : Err)
    (τ : State) :
    (∃ t, Next cfg s (.err e) t ∧ view t = τ ∧ Sound t) ↔ Reports cfg stays (view s) e τ := by
  have back : ∀ {τ υ}, Turns cfg.checks (view s) τ → τ.code ≠ [] → Pushes τ υ → Fault cfg υ e →
      ∃ t, Next cfg s (.err e) t ∧ LeftBehind stays υ (view t) := by
    intro τ υ ht hne hp hf
    obtain ⟨s1, rfl, hs1, hn⟩ := turns_steps ht rfl hs
    obtain ⟨t, h1, h2⟩ := Aftermath.step_left hr hs1 hne hp hf
    exact ⟨t, (hn _ _).mpr ((next_err h1).mpr ⟨rfl, rfl⟩), h2⟩
  constructor
  · rintro ⟨t, h, rfl, _⟩
    obtain ⟨σ1, υ, ht, hne, hp, hf⟩ := (C71_error_iff hs e).mp ⟨t, h⟩
    obtain ⟨t', h1, h2⟩ := back ht hne hp hf
    obtain rfl := (next_unique h h1).2
    exact ⟨σ1, υ, ht, hne, hp, hf, h2⟩
  · rintro ⟨σ1, υ, ht, hne, hp, hf, hl⟩
    obtain ⟨t, h1, h2⟩ := back ht hne hp hf
    exact ⟨t, h1, Aftermath.leaves_unique h2 hl, next_sound (Aftermath.onTape hr) hs h1⟩

/-- **C93.**  Whatever `next` returns, short of a panic, the machine answers the same, and
they agree on the state afterwards. -/
theorem C93_response_iff {stays : Bool} {cfg : Config} (hr : FailedRead stays cfg) {s : Program} (hs : Sound s)
    {r : Res (Option Operation)} (hx : ∀ x, r ≠ .panic x) (τ : State) :
    (∃ t, Next cfg s r t ∧ view t = τ ∧ Sound t) ↔ Responds cfg stays (view s) r τ := by
  rcases r with (_ | o) | e | x
  · exact C54_end_iff hs τ
  · exact C54_operation_iff hs o τ
  · exact C93_error_iff hr hs e τ
  · exact absurd rfl (hx x)

/-- **C93.**  So it is with any number of calls, also after failures and after the
end. -/
theorem C93_history_iff {stays : Bool} {cfg : Config} (hr : FailedRead stays cfg) {s : Program} (hs : Sound s)
    {rs : List (Res (Option Operation))} (hx : ∀ x, Res.panic x ∉ rs) (τ : State) :
    (∃ t, Answers cfg s rs t ∧ view t = τ ∧ Sound t) ↔ Replies cfg stays (view s) rs τ := by
  induction rs generalizing s with
  | nil =>
    constructor
    · rintro ⟨t, h, rfl, _⟩
      cases h
      exact .nil _
    · intro h
      cases h
      exact ⟨s, .nil s, rfl, hs⟩
  | cons r rs ih =>
    have hr1 : ∀ x, r ≠ .panic x := fun x h => hx x (by simp [h])
    have hx1 : ∀ x, Res.panic x ∉ rs := fun x h => hx x (by simp [h])
    constructor
    · rintro ⟨t, h, rfl, ht⟩
      cases h with
      | cons h1 h2 =>
        have hs1 := next_sound (Aftermath.onTape hr) hs h1
        exact .cons ((C93_response_iff hr hs hr1 _).mp ⟨_, h1, rfl, hs1⟩) ((ih hs1 hx1).mp ⟨t, h2, rfl, ht⟩)
    · intro h
      cases h with
      | cons h1 h2 =>
        obtain ⟨s1, h1', rfl, hs1⟩ := (C93_response_iff hr hs hr1 _).mpr h1
        obtain ⟨t, h2, h3, h4⟩ := (ih hs1 hx1).mpr h2
        exact ⟨t, .cons h1' h2, h3, h4⟩

/-- **C93.**  What has been executed already does not matter: two programs that have the
same left to execute, and the same operands, hints and width, answer the same for
ever. -/
theorem C93_memoryless {stays : Bool} {cfg : Config} (hr : FailedRead stays cfg) {s s' : Program} (hs : Sound s)
    (hs' : Sound s') (h : view s = view s') {rs : List (Res (Option Operation))} (hx : ∀ x, Res.panic x ∉ rs) :
    (∃ t, Answers cfg s rs t) ↔ ∃ t, Answers cfg s' rs t := by
  have key : ∀ {s t : Program}, Sound s → Answers cfg s rs t → Replies cfg stays (view s) rs (view t) := by
    intro s t hs ha
    refine (C93_history_iff hr hs hx _).mp ⟨t, ha, rfl, ?_⟩
    clear hx
    induction ha with
    | nil => exact hs
    | cons h1 _ ih => exact ih (next_sound (Aftermath.onTape hr) hs h1)
  constructor
  · rintro ⟨t, ha⟩
    obtain ⟨t', h', _⟩ := (C93_history_iff hr hs' hx (view t)).mpr (h ▸ key hs ha)
    exact ⟨t', h'⟩
  · rintro ⟨t, ha⟩
    obtain ⟨t', h', _⟩ := (C93_history_iff hr hs hx (view t)).mpr (h ▸ key hs' ha)
    exact ⟨t', h'⟩

/-- Programs read with a recent `std::io::Cursor`. -/
def recent : Config := { release with eofPos := fun _ n => n }

/-- Programs read with an early `std::io::Cursor`. -/
def early : Config := { release with eofPos := fun p _ => p }

/-- `1 2 3 roll`, which there is nothing to be rolled for, then `10 hmoveto`. -/
def rollFirst : Program := Program.new [140, 141, 142, 12, 30, 149, 22] [] []

/-- Two of its operands are gone, the third becomes the width. -/
example : FailedRead false recent ∧ Sound rollFirst ∧
    Answers recent rollFirst [.err (.raised .expectedMoreOperands), .ok (some (.opHMoveTo, [F32.ofInt 10])), .ok none]
      (after recent (after recent (after recent rollFirst))) ∧
    (after recent (after recent rollFirst)).width = some (F32.ofInt 1) :=
  ⟨fun _ _ => rfl, sound_new (by decide) (by decide) (by decide),
    .cons (s1 := after recent rollFirst) ⟨100, by decide +kernel⟩
      (.cons (s1 := after recent (after recent rollFirst)) ⟨100, by decide +kernel⟩
        (.cons ⟨100, by decide +kernel⟩ (.nil _))), by decide +kernel⟩

/-- Half an operator.  If the position stays it fails for ever, and otherwise once. -/
example : FailedRead true early ∧ Sound (Program.new [12] [] []) ∧
    Next early (Program.new [12] [] []) (.err .eof) (Program.new [12] [] []) ∧
    Next recent (Program.new [12] [] []) (.err .eof) (after recent (Program.new [12] [] [])) ∧
    Next recent (after recent (Program.new [12] [] [])) (.ok none) (after recent (Program.new [12] [] [])) :=
  ⟨fun _ _ => rfl, sound_new (by decide) (by decide) (by decide), ⟨100, by decide +kernel⟩, ⟨100, by decide +kernel⟩,
    ⟨100, by decide +kernel⟩⟩

/-- `10` has been executed in one of them, and is not in the code of the other. -/
example : view { Program.new [149, 22] [] [] with routine := ⟨[149, 22], 1⟩ } = view (Program.new [22] [] []) := rfl

end PS.Type2
