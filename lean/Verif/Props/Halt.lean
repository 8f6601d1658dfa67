import Verif.Spec.Halt
import Verif.Props.Type2Halt
import Verif.Props.Writer
/-!
# Properties: the execution of a glyph comes to an end
-/
namespace PS.Type2
open PS.Spec hiding Operand Operation
open PS.Type2.Spec

/-! ## C74 -/

/-- **C74**, the full statement: calling `next` again and again on a glyph of a font set
that was read comes to an end. -/
def C74Statement : Prop := ∀ (cfg : Config) (data : List UInt8) (base q : Nat) (fs : FontSet) (k : Nat) (cs : Index)
  (r : Record) («local» : Index) (code : List UInt8), data.length < 2 ^ 61 → FontSet.read (tape cfg data) base = (.ok fs, q) →
  fs.characterStrings[k]? = some cs → fs.records[k]? = some r → LocalOf r «local» → code ∈ cs.data →
  ∃ l out, Run cfg (Program.new code fs.subroutines.data «local».data) l out

theorem weight_turns {c : Bool} {σ τ : State} (h : Turns c σ τ) {L D : Nat} (hL : ∀ b ∈ σ.global ++ σ.local, b.length ≤ L)
    (hD : ∀ υ, Turns c σ υ → υ.callers.length ≤ D) :
    weight (L + 1) D (τ.code :: τ.callers) ≤ weight (L + 1) D (σ.code :: σ.callers) := by
  induction h with
  | refl => exact Nat.le_refl _
  | tail h1 h2 ih =>
    obtain ⟨e1, e2, -⟩ := turns_eq h1
    exact (weight_turn h2 (by rw [e1, e2]; exact hL) (hD _ (.tail h1 h2))).le.trans ih

theorem emit_suffix {υ τ : State} {o : Operation} (h : Emit υ o τ) : τ.code.length < υ.code.length ∧ τ.code <:+ υ.code := by
  have pos := List.length_pos_of_ne_nil (bytes_ne_nil o.1)
  cases h with
  | path _ hc _ => rw [hc, List.length_append]; simp only at pos ⊢; exact ⟨by omega, List.suffix_append _ _⟩
  | stem _ hc _ => rw [hc, List.length_append]; simp only at pos ⊢; exact ⟨by omega, List.suffix_append _ _⟩
  | mask _ hc _ =>
    rw [hc, List.length_append, List.length_append]; simp only at pos ⊢; exact ⟨by omega, List.suffix_append _ _⟩

theorem weight_yields {c : Bool} {σ τ : State} {o : Operation} (h : Yields c σ o τ) {L D : Nat}
    (hL : ∀ b ∈ σ.global ++ σ.local, b.length ≤ L) (hD : ∀ υ, Turns c σ υ → υ.callers.length ≤ D) :
    weight (L + 1) D (τ.code :: τ.callers) < weight (L + 1) D (σ.code :: σ.callers) := by
  obtain ⟨ρ, υ, h1, h2, h3⟩ := h
  obtain ⟨xs, bs, _, hc, _⟩ := pushes_iff.mp h2
  have hlen := congrArg List.length hc
  simp only [List.length_append] at hlen
  have h4 := (emit_suffix h3).1
  rw [(emit_eq h3).1, (pushes_eq h2).1]
  exact lt_of_lt_of_le (weight_lt (by omega) (by omega) _) (weight_turns h1 hL hD)

theorem run_of_depth {cfg : Config} {L D : Nat} : ∀ (n : Nat) {s : Program}, Sound s →
    (∀ b ∈ s.global ++ s.local, b.length ≤ L) → (∀ l τ, Executes cfg.checks (view s) l τ → τ.callers.length ≤ D) →
    weight (L + 1) D ((view s).code :: (view s).callers) ≤ n → ∃ l out, Run cfg s l out ∧ l.length ≤ n := by
  intro n
  induction n using Nat.strong_induction_on with
  | _ n ih =>
    intro s hs hL hD hw
    have hD' : ∀ τ, Turns cfg.checks (view s) τ → τ.callers.length ≤ D := fun τ h => hD [] τ (.nil h)
    obtain ⟨⟨r, t⟩, hq⟩ := next_of_weight (cfg := cfg) _ hs hL hD' (Nat.lt_succ_self _)
    have hn : Next cfg s r t := ⟨_, hq⟩
    rcases r with (_ | o) | e | x
    · exact ⟨[], _, .ended hn, Nat.zero_le _⟩
    · obtain ⟨hy, ht⟩ := next_yields hs hn
      have hlt := weight_yields hy hL hD'
      obtain ⟨ρ, υ, h1, h2, h3⟩ := hy
      obtain ⟨_, g1, g2⟩ := emit_eq h3
      obtain ⟨_, g3, g4, -⟩ := pushes_eq h2
      obtain ⟨g5, g6, -⟩ := turns_eq h1
      have e1 : t.global = s.global := g1.trans (g3.trans g5)
      have e2 : t.local = s.local := g2.trans (g4.trans g6)
      obtain ⟨l, out, hr, hl⟩ := ih (weight (L + 1) D ((view t).code :: (view t).callers)) (by omega) ht
        (by rw [e1, e2]; exact hL) (fun l τ h => hD _ τ (.cons h1 h2 h3 h)) (Nat.le_refl _)
      exact ⟨_, out, .more hn hr, by simp only [List.length_cons]; omega⟩
    · exact ⟨[], _, .failed hn (by simp), Nat.zero_le _⟩
    · exact ⟨[], _, .failed hn (by simp), Nat.zero_le _⟩

theorem depth_of_run {cfg : Config} {s : Program} {l : List Observation} {out : Outcome} (h : Run cfg s l out) :
    Sound s → ∃ D, ∀ l τ, Executes cfg.checks (view s) l τ → τ.callers.length ≤ D := by
  have stop : ∀ {s t : Program} {r}, Sound s → Next cfg s r t → (∀ o, r ≠ .ok (some o)) →
      ∃ D, ∀ l τ, Executes cfg.checks (view s) l τ → τ.callers.length ≤ D := by
    rintro s t r hs ⟨n, hn⟩ hr
    refine ⟨s.callers.length + n, fun l τ h => ?_⟩
    cases h with
    | nil h => exact turns_depth n hs hn τ h
    | cons h1 h2 h3 _ =>
      obtain ⟨s', h', -⟩ := yields_next hs ⟨_, _, h1, h2, h3⟩
      exact (hr _ (next_unique ⟨n, hn⟩ h').1).elim
  induction h with
  | ended h => exact fun hs => stop hs h (by simp)
  | failed h hr => exact fun hs => stop hs h (fun o => hr (some o))
  | @more s o t l out h _ ih =>
    intro hs
    obtain ⟨D, hD⟩ := ih (next_yields hs h).2
    obtain ⟨n, hn⟩ := id h
    refine ⟨max (s.callers.length + n) D, fun l τ hx => ?_⟩
    cases hx with
    | nil h => exact (turns_depth n hs hn τ h).trans (le_max_left _ _)
    | cons h1 h2 h3 h4 =>
      obtain ⟨s', h', rfl, -⟩ := yields_next hs ⟨_, _, h1, h2, h3⟩
      obtain ⟨-, rfl⟩ := next_unique h h'
      exact (hD _ _ h4).trans (le_max_right _ _)

/-- **C74** Calling `next` again and again comes to an end if and only if the depth of
calls of subroutines is bounded. -/
theorem C74_ends_iff {cfg : Config} {s : Program} (hs : Sound s) :
    (∃ l out, Run cfg s l out) ↔ ∃ D, ∀ l τ, Executes cfg.checks (view s) l τ → τ.callers.length ≤ D := by
  constructor
  · rintro ⟨l, out, h⟩
    exact depth_of_run h hs
  · rintro ⟨D, hD⟩
    have hL : ∀ b ∈ s.global ++ s.local, b.length ≤ ((s.global ++ s.local).map List.length).sum := fun b hb =>
      List.le_sum_of_mem (List.mem_map.mpr ⟨b, hb, rfl⟩)
    obtain ⟨l, out, h, -⟩ := run_of_depth _ hs hL hD (Nat.le_refl _)
    exact ⟨l, out, h⟩

/-- **C74** If calls are nested `D` deep at most and subroutines have `L` bytes at most,
then the glyph has at most `|code| (L + 1)^D` operations. -/
theorem C74_operations {cfg : Config} {code : List UInt8} {global «local» : List (List UInt8)} {L D : Nat}
    (h1 : code.length < 2 ^ 63) (h2 : ∀ c ∈ global ++ «local», c.length < 2 ^ 63)
    (h3 : global.length ≤ 2 ^ 31 ∧ «local».length ≤ 2 ^ 31) (hL : ∀ b ∈ global ++ «local», b.length ≤ L)
    (hD : ∀ l τ, Executes cfg.checks (view (Program.new code global «local»)) l τ → τ.callers.length ≤ D) :
    ∃ l out, Run cfg (Program.new code global «local») l out ∧ l.length ≤ code.length * (L + 1) ^ D := by
  refine run_of_depth _ (sound_new h1 h2 h3) hL hD ?_
  simp [view, Program.new, left, Routine.new, weight]

/-- Without subroutines there are at most as many operations as bytes. -/
example (cfg : Config) : ∃ l out, Run cfg (Program.new [149, 22, 149, 6, 14] [] []) l out ∧ l.length ≤ 5 :=
  C74_operations (L := 0) (D := 0) (by decide) (by decide) (by decide) (by simp) fun _ _ h => by rw [executes_flat h]; simp

/-- What the depth of calls cannot exceed, if `rank` decreases from a routine to the
subroutines that it might call. -/
theorem depth_of_rank {c : Bool} {global «local» : List (List UInt8)} {rank : List UInt8 → Nat}
    (hmono : ∀ {a b}, a <:+ b → rank a ≤ rank b) (hl : ∀ a, (10 : UInt8) ∈ a → ∀ b ∈ «local», rank b < rank a)
    (hg : ∀ a, (29 : UInt8) ∈ a → ∀ b ∈ global, rank b < rank a) {R : Nat} {σ τ : State} {l : List Observation}
    (h : Executes c σ l τ) (e1 : σ.global = global) (e2 : σ.local = «local»)
    (hσ : ∀ a rest, (a :: rest) <:+ σ.code :: σ.callers → rest.length + rank a ≤ R) :
    ∀ a rest, (a :: rest) <:+ τ.code :: τ.callers → rest.length + rank a ≤ R := by
  have shrink : ∀ {code code' : List UInt8} {callers : List (List UInt8)}, code' <:+ code →
      (∀ a rest, (a :: rest) <:+ code :: callers → rest.length + rank a ≤ R) →
      ∀ a rest, (a :: rest) <:+ code' :: callers → rest.length + rank a ≤ R := by
    intro code code' callers hc h a rest hs
    rcases List.suffix_cons_iff.mp hs with e | e
    · injection e with ea er
      subst ea er
      exact (Nat.add_le_add_left (hmono hc) _).trans (h code rest (List.suffix_refl _))
    · exact h a rest (e.trans (List.suffix_cons _ _))
  have enter : ∀ {code rest body : List UInt8} {callers : List (List UInt8)}, rest <:+ code → rank body < rank code →
      (∀ a rest, (a :: rest) <:+ code :: callers → rest.length + rank a ≤ R) →
      ∀ a rest', (a :: rest') <:+ body :: rest :: callers → rest'.length + rank a ≤ R := by
    intro code rest body callers hc hr h a rest' hs
    rcases List.suffix_cons_iff.mp hs with e | e
    · injection e with ea er
      subst ea er
      have := h code callers (List.suffix_refl _)
      simp only [List.length_cons]
      omega
    · exact shrink hc h a rest' e
  have turns : ∀ {σ τ : State}, Turns c σ τ → σ.global = global → σ.local = «local» →
      (∀ a rest, (a :: rest) <:+ σ.code :: σ.callers → rest.length + rank a ≤ R) →
      ∀ a rest, (a :: rest) <:+ τ.code :: τ.callers → rest.length + rank a ≤ R := by
    intro σ τ h e1 e2 hσ
    induction h with
    | refl => exact hσ
    | @tail ρ τ h1 h2 ih =>
      obtain ⟨f1, f2, -⟩ := turns_eq h1
      obtain ⟨υ, hp, hq⟩ := h2
      obtain ⟨xs, bs, _, hc, -⟩ := pushes_iff.mp hp
      obtain ⟨g1, g2, g3, -⟩ := pushes_eq hp
      have ih : ∀ a rest, (a :: rest) <:+ υ.code :: υ.callers → rest.length + rank a ≤ R := by
        rw [g1]
        exact shrink (hc ▸ List.suffix_append _ _) ih
      cases hq with
      | stack hc' => exact shrink (hc' ▸ List.suffix_append _ _) ih
      | callLocal hc' _ _ _ hb =>
        refine enter (hc' ▸ List.suffix_append _ _) (hl _ (by rw [hc']; simp [bytes]) _ ?_) ih
        rw [g3, f2, e2] at hb
        exact List.mem_of_getElem? hb
      | callGlobal hc' _ _ _ hb =>
        refine enter (hc' ▸ List.suffix_append _ _) (hg _ (by rw [hc']; simp [bytes]) _ ?_) ih
        rw [g2, f1, e1] at hb
        exact List.mem_of_getElem? hb
      | «return» hc' hcs =>
        intro a rest hs
        rw [← hcs] at hs
        exact ih a rest (hs.trans (List.suffix_cons _ _))
  induction h with
  | nil h => exact turns h e1 e2 hσ
  | @cons σ τ υ σ1 σ2 o l h1 h2 h3 _ ih =>
    obtain ⟨f1, f2, -⟩ := turns_eq h1
    obtain ⟨g1, g2, g3, -⟩ := pushes_eq h2
    obtain ⟨k1, k2, k3⟩ := emit_eq h3
    obtain ⟨xs, bs, _, hc, -⟩ := pushes_iff.mp h2
    refine ih (by rw [k2, g2, f1, e1]) (by rw [k3, g3, f2, e2]) ?_
    rw [k1, g1]
    exact shrink ((emit_suffix h3).2.trans (hc ▸ List.suffix_append _ _)) (turns h1 e1 e2 hσ)

theorem depth_of_layers {c : Bool} {code : List UInt8} {global «local» : List (List UInt8)} (h : Layered global «local»)
    {τ : State} {l : List Observation} (hx : Executes c (view (Program.new code global «local»)) l τ) : τ.callers.length ≤ 2 := by
  classical
  obtain ⟨h1, h2, h3⟩ := h
  have fin : ∀ {rank : List UInt8 → Nat}, (∀ {a b}, a <:+ b → rank a ≤ rank b) →
      (∀ a, (10 : UInt8) ∈ a → ∀ b ∈ «local», rank b < rank a) → (∀ a, (29 : UInt8) ∈ a → ∀ b ∈ global, rank b < rank a) →
      (∀ a, rank a ≤ 2) → τ.callers.length ≤ 2 := by
    intro rank hm hl hg hr
    have := depth_of_rank (R := 2) hm hl hg hx rfl rfl (by
      intro a rest hs
      rcases List.suffix_cons_iff.mp hs with e | e
      · injection e with ea er
        subst ea er
        simpa [view, Program.new] using hr _
      · simp [view, Program.new] at e) τ.code τ.callers (List.suffix_refl _)
    omega
  have mem : ∀ {a b : List UInt8} {x : UInt8}, a <:+ b → x ∈ a → x ∈ b := fun h hx => h.sublist.subset hx
  rcases h3 with h3 | h3
  · refine fin (rank := fun a => if (29 : UInt8) ∈ a then 2 else if (10 : UInt8) ∈ a then 1 else 0) ?_ ?_ ?_ ?_
    · intro a b hab
      have m1 := mem (x := 10) hab
      have m2 := mem (x := 29) hab
      split <;> split <;> (try split) <;> (try split) <;> first | omega | (exfalso; tauto)
    · intro a ha b hb
      have := h1 b hb
      have := h3 b hb
      simp only [*, if_true, if_false]
      split <;> omega
    · intro a ha b hb
      have := h2 b hb
      simp only [*, if_true, if_false]
      split <;> omega
    · intro a; split <;> (try split) <;> omega
  · refine fin (rank := fun a => if (10 : UInt8) ∈ a then 2 else if (29 : UInt8) ∈ a then 1 else 0) ?_ ?_ ?_ ?_
    · intro a b hab
      have m1 := mem (x := 10) hab
      have m2 := mem (x := 29) hab
      split <;> split <;> (try split) <;> (try split) <;> first | omega | (exfalso; tauto)
    · intro a ha b hb
      have := h1 b hb
      simp only [*, if_true, if_false]
      split <;> omega
    · intro a ha b hb
      have := h2 b hb
      have := h3 b hb
      simp only [*, if_true, if_false]
      split <;> omega
    · intro a; split <;> (try split) <;> omega

/-- **C74**, for glyphs whose subroutines are in layers.  What is missing: subroutines that
call in circles, for which it is false, and those that only have the bytes of calls. -/
theorem C74_glyph_partial (cfg : Config) (data : List UInt8) (hdata : data.length < 2 ^ 61) (base q : Nat) (fs : FontSet)
    (h : FontSet.read (tape cfg data) base = (.ok fs, q)) (k : Nat) (cs : Index) (r : Record) («local» : Index)
    (code : List UInt8) (hcs : fs.characterStrings[k]? = some cs) (hr : fs.records[k]? = some r) (hl : LocalOf r «local»)
    (hcode : code ∈ cs.data) (hlayers : Layered fs.subroutines.data «local».data) :
    ∃ l out, Run cfg (Program.new code fs.subroutines.data «local».data) l out ∧
      l.length ≤ data.length * (data.length + 1) ^ 2 := by
  have hlaid := (C32_layout_iff cfg data hdata base fs).mp ⟨q, h⟩
  obtain ⟨g1, g2, g3⟩ := program_sound cfg data hdata base fs hlaid k cs r hcs hr code hcode «local» hl
  have small := program_small cfg data base fs hlaid k cs r hcs hr code hcode «local» hl
  obtain ⟨l, out, h1, h2⟩ := C74_operations g1 g2 g3 small.2.1 (D := 2) (fun _ _ hx => depth_of_layers hlayers hx)
  exact ⟨l, out, h1, h2.trans (Nat.mul_le_mul_right _ small.1)⟩

/-! ## Fonts with any subroutines -/

/-- A font with any character strings and subroutines. -/
def codeDef (codes global «local» : List (List UInt8)) : FontSetDef where
  names := [[65]]
  strings := []
  globals := global
  fonts := [
    { entries := ⟨[], []⟩
      codes := codes
      set := .isoAdobe
      encoding := .standard
      keying := .names ⟨⟨[], []⟩, «local»⟩ }]

/-- The font is read, with its character strings and subroutines. -/
theorem codeDef_read {codes global «local» : List (List UInt8)} (h1 : IndexFits 4 codes) (h2 : IndexFits 4 global)
    (h3 : IndexFits 4 «local») (hsize : (codeDef codes global «local»).write.length < 2 ^ 31) :
    ∃ fs q cs r, FontSet.read (tape checkedBuild (codeDef codes global «local»).write) 0 = (.ok fs, q) ∧
      fs.characterStrings[0]? = some cs ∧ fs.records[0]? = some (.characterNameKeyed r) ∧ cs.data = codes ∧
      fs.subroutines.data = global ∧ r.subroutines.data = «local» := by
  have fits : ∀ {items : List (List UInt8)}, items.length ≤ 65535 → 1 + items.flatten.length < 2 ^ 32 → IndexFits 4 items :=
    fun h1 h2 => ⟨h1, by omega, by omega, h2⟩
  have hv : (codeDef codes global «local»).Valid := by
    refine ⟨fits (by simp [codeDef]) (by simp [codeDef]), fits (by simp [codeDef]) (by simp [codeDef]), h2, by simp [codeDef], ?_, hsize⟩
    intro f hf
    simp only [codeDef, List.mem_cons, List.not_mem_nil, or_false] at hf
    subst hf
    exact ⟨⟨.nil, by simp⟩, h1, .inl (.inl rfl), .inl (.inl rfl), ⟨.nil, by simp⟩, h3⟩
  obtain ⟨fs, q, h, hin⟩ := C60_round_trip hv checkedBuild [] [] (by simp; omega) (by decide)
  rw [List.nil_append, List.append_nil] at h
  obtain ⟨-, -, h0, -, h5, -, -, h8⟩ := hin
  obtain ⟨cs, h1, h2⟩ := forall₂_getElem? h5 (k := 0) rfl
  obtain ⟨r, h3, h4⟩ := forall₂_getElem? h8 (k := 0) rfl
  cases r with
  | characterIDKeyed => exact h4.elim
  | characterNameKeyed r => exact ⟨fs, q, cs, r, h, h1, h3, h2, h0, h4.2⟩

/-- The depth of a subroutine that calls itself grows beyond every bound. -/
theorem selfCall_depth (c : Bool) (D : Nat) : ∃ τ, Turns c (view selfCall) τ ∧ D < τ.callers.length := by
  have hcall : Operand (F32.ofInt (-107)) [32] := operand_byte 32 (by decide) (by decide)
  have key : ∀ D, ∃ cs : List (List UInt8), cs.length = D ∧ Turns c (view selfCall) { view selfCall with callers := cs } := by
    intro D
    induction D with
    | zero => exact ⟨[], rfl, .refl⟩
    | succ D ih =>
      obtain ⟨cs, h1, h2⟩ := ih
      refine ⟨[] :: cs, by simp [h1], .tail h2 ⟨{ view selfCall with code := [10], stack := [F32.ofInt (-107)], callers := cs },
        .single ⟨_, _, _, hcall, rfl, rfl⟩, ?_⟩⟩
      exact .callLocal (rest := []) (st := []) (x := F32.ofInt (-107)) (a := -107) (i := 0) (body := [32, 10]) rfl rfl
        (.inl ⟨isInt_of (by decide +kernel) (by decide +kernel) (by decide), by decide, by decide⟩) rfl rfl
  obtain ⟨cs, h1, h2⟩ := key (D + 1)
  exact ⟨_, h2, by simp [h1]⟩

/-- **C74** is false: a font set with a subroutine that calls itself is read without
complaint. -/
theorem C74_false : ¬ C74Statement := by
  intro h
  obtain ⟨fs, q, cs, r, h1, h2, h3, h4, h5, h6⟩ := codeDef_read (codes := [[32, 10]]) (global := []) («local» := [[32, 10]])
    ⟨by decide, by decide, by decide, by decide⟩ ⟨by decide, by decide, by decide, by decide⟩
    ⟨by decide, by decide, by decide, by decide⟩ (by decide +kernel)
  have hr := h checkedBuild _ 0 q fs 0 cs _ r.subroutines [32, 10] (by decide +kernel) h1 h2 h3 rfl (by rw [h4]; simp)
  rw [h5, h6] at hr
  obtain ⟨D, hD⟩ := (C74_ends_iff (cfg := checkedBuild) (s := selfCall) (sound_new (by decide) (by decide) (by decide))).mp hr
  obtain ⟨τ, e1, e2⟩ := selfCall_depth checkedBuild.checks D
  have := hD [] τ (.nil e1)
  omega

/-- A glyph that calls a local subroutine, which calls a global one. -/
example : ∃ fs q cs r, FontSet.read (tape checkedBuild (codeDef [[14], [32, 10, 14]] [[149, 22, 11]] [[32, 29, 11]]).write) 0 =
    (.ok fs, q) ∧ fs.characterStrings[0]? = some cs ∧ fs.records[0]? = some (.characterNameKeyed r) ∧ [32, 10, 14] ∈ cs.data ∧
    Layered fs.subroutines.data r.subroutines.data := by
  obtain ⟨fs, q, cs, r, h1, h2, h3, h4, h5, h6⟩ := codeDef_read (codes := [[14], [32, 10, 14]]) (global := [[149, 22, 11]])
    («local» := [[32, 29, 11]]) ⟨by decide, by decide, by decide, by decide⟩ ⟨by decide, by decide, by decide, by decide⟩
    ⟨by decide, by decide, by decide, by decide⟩ (by decide +kernel)
  refine ⟨fs, q, cs, r, h1, h2, h3, by rw [h4]; simp, ?_⟩
  rw [h5, h6]
  exact ⟨by decide, by decide, .inr (by decide)⟩

end PS.Type2
