import Verif.Spec.Limits
import Verif.Props.Halt
import Verif.Props.Type2Depth
import Verif.Props.Flat
/-!
# Properties: the limits of programs
-/
namespace PS.Type2
open PS.Spec hiding Operand Operation
open PS.Type2.Spec

/-! ## C75 -/

/-- **C75**, the full statement: a program does not come beyond the limits of the
specification. -/
def C75Statement : Prop := ∀ {cfg : Config} {code : List UInt8} {global «local» : List (List UInt8)} {l : List Observation}
  {τ : State}, Sound (Program.new code global «local») →
  Executes cfg.checks (view (Program.new code global «local»)) l τ → WithinLimits τ

theorem stackOp_length {c : Bool} {op : Operator} {st st' : List F32} (h : StackOp c op st st') :
    st'.length ≤ st.length + 1 := by
  cases h with
  | roll st as bs x y _ _ _ _ hr =>
    have := hr.1
    simp only [List.length_append, List.length_cons, List.length_nil]
    omega
  | _ => simp only [List.length_append, List.length_cons, List.length_nil]; omega

theorem pushes_length {σ τ : State} (h : Pushes σ τ) : τ.stack.length + τ.code.length ≤ σ.stack.length + σ.code.length := by
  induction h with
  | refl => exact Nat.le_refl _
  | tail _ h ih =>
    obtain ⟨x, bs, rest, hx, hc, rfl⟩ := h
    have := List.length_pos_of_ne_nil (operand_ne_nil hx)
    rw [hc] at ih
    simp only [List.length_append, List.length_cons, List.length_nil] at ih ⊢
    omega

/-- What is left of the code can be turned into at most as much. -/
theorem weight_le {B D : Nat} (hB : 0 < B) {a b : List UInt8} {n : Nat} (h : n + a.length ≤ b.length) (fs : List (List UInt8)) :
    n + weight B D (a :: fs) ≤ weight B D (b :: fs) := by
  unfold weight
  have h1 := Nat.mul_le_mul_right (B ^ (D - fs.length)) h
  have h2 : n * 1 ≤ n * B ^ (D - fs.length) := Nat.mul_le_mul_left _ (Nat.pow_pos hB)
  rw [Nat.add_mul] at h1
  omega

theorem pushes_weight {B D : Nat} (hB : 0 < B) {σ τ : State} (h : Pushes σ τ) :
    τ.stack.length + weight B D (τ.code :: τ.callers) ≤ σ.stack.length + weight B D (σ.code :: σ.callers) := by
  have h1 := pushes_length h
  obtain ⟨xs, bs, _, hc, he⟩ := pushes_iff.mp h
  have hst : σ.stack.length ≤ τ.stack.length := by rw [he]; simp
  have := weight_le (D := D) hB (n := τ.stack.length - σ.stack.length) (a := τ.code) (b := σ.code) (by omega) σ.callers
  rw [(pushes_eq h).1]
  omega

theorem turns_weight {c : Bool} {σ τ : State} (h : Turns c σ τ) {L D : Nat} (hL : ∀ b ∈ σ.global ++ σ.local, b.length ≤ L)
    (hD : ∀ υ, Turns c σ υ → υ.callers.length ≤ D) :
    τ.stack.length + weight (L + 1) D (τ.code :: τ.callers) ≤ σ.stack.length + weight (L + 1) D (σ.code :: σ.callers) := by
  induction h with
  | refl => exact Nat.le_refl _
  | @tail ρ τ h1 h2 ih =>
    obtain ⟨e1, e2, -⟩ := turns_eq h1
    have hd := hD _ (.tail h1 h2)
    obtain ⟨υ, hp, hq⟩ := h2
    obtain ⟨_, f1, f2, -⟩ := pushes_eq hp
    have h3 := pushes_weight (D := D) (Nat.succ_pos L) hp
    have h4 := weight_turn ⟨υ, .refl, hq⟩ (L := L) (D := D) (by rw [f1, f2, e1, e2]; exact hL) hd
    have h5 : τ.stack.length ≤ υ.stack.length + 1 := by
      cases hq with
      | stack _ hs => exact stackOp_length hs
      | callLocal _ hst => simp only [hst, List.length_append]; omega
      | callGlobal _ hst => simp only [hst, List.length_append]; omega
      | «return» => simp
    simp only [Nat.succ_eq_add_one] at h3
    omega

/-- An operation shows operands of the stack, and takes at least one byte. -/
theorem emit_weight {B D : Nat} (hB : 0 < B) {σ τ : State} {o : Operation} (h : Emit σ o τ) :
    1 + o.2.length + τ.stack.length + weight B D (τ.code :: τ.callers) ≤
      σ.stack.length + weight B D (σ.code :: σ.callers) ∧
    τ.stems + τ.stack.length + weight B D (τ.code :: τ.callers) ≤
      σ.stems + σ.stack.length + weight B D (σ.code :: σ.callers) := by
  have h1 := weight_le (D := D) hB (n := 1) (a := τ.code) (b := σ.code) (by have := (emit_suffix h).1; omega) σ.callers
  rw [← (emit_eq h).1] at h1 ⊢
  have key : o.2.length ≤ σ.stack.length ∧ τ.stack = [] ∧ τ.stems ≤ σ.stems + σ.stack.length / 2 := by
    cases h with
    | path _ _ hl => exact ⟨by rw [hl.1]; simp, rfl, by simp⟩
    | stem _ _ hl => exact ⟨by rw [hl.1]; simp, rfl, by simp⟩
    | mask => exact ⟨by simp, rfl, by simp⟩
  obtain ⟨h2, h3, h4⟩ := key
  rw [h3, List.length_nil]
  constructor <;> omega

theorem executes_weight {c : Bool} {σ τ : State} {l : List Observation} (h : Executes c σ l τ) {L D : Nat} :
    (∀ b ∈ σ.global ++ σ.local, b.length ≤ L) → (∀ l υ, Executes c σ l υ → υ.callers.length ≤ D) →
    output l + τ.stack.length + weight (L + 1) D (τ.code :: τ.callers) ≤
      σ.stack.length + weight (L + 1) D (σ.code :: σ.callers) ∧
    τ.stems + τ.stack.length + weight (L + 1) D (τ.code :: τ.callers) ≤
      σ.stems + σ.stack.length + weight (L + 1) D (σ.code :: σ.callers) := by
  induction h with
  | nil h =>
    intro hL hD
    have h1 := turns_weight h hL (fun υ hυ => hD [] υ (.nil hυ))
    have h2 := (turns_eq h).2.2.1
    simp only [output, List.map_nil, List.sum_nil, h2]
    constructor <;> omega
  | @cons σ τ υ σ1 σ2 o l h1 h2 h3 _ ih =>
    intro hL hD
    have g1 := turns_weight h1 hL (fun υ hυ => hD [] υ (.nil hυ))
    have g2 := pushes_weight (D := D) (Nat.succ_pos L) h2
    obtain ⟨g3, g4⟩ := emit_weight (D := D) (Nat.succ_pos L) h3
    obtain ⟨f1, f2, f3, -⟩ := turns_eq h1
    obtain ⟨_, f4, f5, f6, -⟩ := pushes_eq h2
    obtain ⟨_, f7, f8⟩ := emit_eq h3
    obtain ⟨g5, g6⟩ := ih (by rw [f7, f8, f4, f5, f1, f2]; exact hL) (fun l υ h => hD _ υ (.cons h1 h2 h3 h))
    simp only [Nat.succ_eq_add_one] at g2 g3 g4
    have e : output ((o, σ1.width, σ1.stems) :: l) = 1 + o.2.length + output l := by simp [output]
    rw [e]
    constructor <;> omega

/-- **C75**, what holds instead: with calls nested `D` deep at most and subroutines of `L`
bytes at most, what a program has shown, together with its operand stack, and the
number of its stem hints are at most `|code| (L + 1)^D`.  What is missing: the limits
are not enforced. -/
theorem C75_limits_partial {c : Bool} {code : List UInt8} {global «local» : List (List UInt8)} {L D : Nat}
    (hL : ∀ b ∈ global ++ «local», b.length ≤ L)
    (hD : ∀ l τ, Executes c (view (Program.new code global «local»)) l τ → τ.callers.length ≤ D)
    {l : List Observation} {τ : State} (h : Executes c (view (Program.new code global «local»)) l τ) :
    output l + τ.stack.length ≤ code.length * (L + 1) ^ D ∧ τ.stems + τ.stack.length ≤ code.length * (L + 1) ^ D := by
  obtain ⟨h1, h2⟩ := executes_weight h hL hD
  have e : weight (L + 1) D ((view (Program.new code global «local»)).code :: (view (Program.new code global «local»)).callers) =
      code.length * (L + 1) ^ D := by
    simp [view, Program.new, left, Routine.new, weight]
  rw [e] at h1 h2
  have e1 : (view (Program.new code global «local»)).stack = [] := rfl
  have e2 : (view (Program.new code global «local»)).stems = 0 := rfl
  rw [e1, List.length_nil] at h1 h2
  rw [e2] at h2
  constructor <;> omega

/-- What a run shows, the machine does. -/
theorem executes_of_run {cfg : Config} {s : Program} {l : List Observation} {out : Outcome} (h : Run cfg s l out) :
    Sound s → ∃ τ, Executes cfg.checks (view s) l τ := by
  induction h with
  | ended h => exact fun _ => ⟨_, .nil .refl⟩
  | failed h _ => exact fun _ => ⟨_, .nil .refl⟩
  | more h _ ih =>
    intro hs
    obtain ⟨⟨ρ, υ, h1, h2, h3⟩, ht⟩ := next_yields hs h
    obtain ⟨τ, hτ⟩ := ih ht
    exact ⟨τ, .cons h1 h2 h3 hτ⟩

/-- **C75** Without subroutines, a program does not show more operations and operands
than it has bytes. -/
theorem C75_output {cfg : Config} {code : List UInt8} (hcode : code.length < 2 ^ 63) {l : List Observation} {out : Outcome}
    (h : Run cfg (Program.new code [] []) l out) : output l ≤ code.length := by
  obtain ⟨τ, hτ⟩ := executes_of_run h (sound_new hcode (by simp) (by simp))
  have hD : ∀ l τ, Executes cfg.checks (view (Program.new code [] [])) l τ → τ.callers.length ≤ 0 := by
    intro l τ hx
    have := depth_of_rank (rank := fun _ => 0) (R := 0) (global := []) («local» := []) (fun _ => Nat.le_refl _) (by simp) (by simp) hx rfl rfl (by
      intro a rest hs
      rcases List.suffix_cons_iff.mp hs with e | e
      · injection e with ea er
        subst ea er
        simp [view, Program.new]
      · simp [view, Program.new] at e) τ.code τ.callers (List.suffix_refl _)
    simpa using this
  have := (C75_limits_partial (L := 0) (D := 0) (by simp) hD hτ).1
  simp only [Nat.zero_add, pow_zero, Nat.mul_one] at this
  omega

/-- `0 hmoveto endchar`, without subroutines: three bytes and two things shown. -/
example : Run release (Program.new [139, 22, 14] [] []) [((.opHMoveTo, [F32.ofInt 0]), none, 0)] (.ended none) ∧
    output [((.opHMoveTo, [F32.ofInt 0]), none, 0)] = 2 :=
  ⟨run_cons (t := after release (Program.new [139, 22, 14] [] [])) ⟨100, by decide +kernel⟩ (by decide +kernel)
    (run_nil (t := after release (after release (Program.new [139, 22, 14] [] []))) ⟨100, by decide +kernel⟩ (by decide +kernel)),
    rfl⟩

/-- **C75** The output of a glyph in a font set whose subroutines are in layers is at most
cubic in the size of the font set. -/
theorem C75_glyph (cfg : Config) (data : List UInt8) (hdata : data.length < 2 ^ 61) (base q : Nat) (fs : FontSet)
    (h : FontSet.read (tape cfg data) base = (.ok fs, q)) (k : Nat) (cs : Index) (r : Record) («local» : Index)
    (code : List UInt8) (hcs : fs.characterStrings[k]? = some cs) (hr : fs.records[k]? = some r) (hl : LocalOf r «local»)
    (hcode : code ∈ cs.data) (hlayers : Layered fs.subroutines.data «local».data) {l : List Observation} {out : Outcome}
    (hrun : Run cfg (Program.new code fs.subroutines.data «local».data) l out) :
    output l ≤ data.length * (data.length + 1) ^ 2 := by
  have hlaid := (C32_layout_iff cfg data hdata base fs).mp ⟨q, h⟩
  obtain ⟨g1, g2, g3⟩ := program_sound cfg data hdata base fs hlaid k cs r hcs hr code hcode «local» hl
  have small := program_small cfg data base fs hlaid k cs r hcs hr code hcode «local» hl
  obtain ⟨τ, hτ⟩ := executes_of_run hrun (sound_new g1 g2 g3)
  have := (C75_limits_partial small.2.1 (fun _ _ hx => depth_of_layers hlayers hx) hτ).1
  have := Nat.mul_le_mul_right ((data.length + 1) ^ 2) small.1
  omega

/-! ## Programs beyond the limits -/

theorem zero_operand : Operand (F32.ofInt 0) [139] := operand_byte 139 (by decide) (by decide)

theorem zeros (n : Nat) : Seq Operand (List.replicate n (F32.ofInt 0)) (List.replicate n 139) := by
  induction n with
  | zero => exact .nil
  | succ n ih => exact .cons (bs := List.replicate n 139) zero_operand ih

theorem zeros_yield {c : Bool} {n : Nat} (hn : 1 ≤ n) {op : Operator} {b : UInt8} (hb : bytes op = [b])
    (hop : op = .opRLineTo ∨ op = .opHStem) :
    Yields c (view (Program.new (List.replicate (2 * n) 139 ++ [b]) [] [])) (op, List.replicate (2 * n) (F32.ofInt 0))
      { view (Program.new [] [] []) with stems := if op = .opHStem then n else 0 } := by
  have hp : Pushes (view (Program.new (List.replicate (2 * n) 139 ++ [b]) [] []))
      { view (Program.new [b] [] []) with stack := List.replicate (2 * n) (F32.ofInt 0) } :=
    pushes_iff.mpr ⟨_, _, zeros (2 * n), rfl, rfl⟩
  have hl : ∀ op, Accepts op (2 * n) → Longest op (List.replicate (2 * n) (F32.ofInt 0)) [] (List.replicate (2 * n) (F32.ofInt 0)) := by
    intro op ha
    refine ⟨rfl, by rwa [List.length_replicate], fun args' h _ => ?_⟩
    simpa using h.sublist.length_le
  rcases hop with rfl | rfl
  · refine ⟨_, _, .refl, hp, ?_⟩
    exact .path (rest := []) (below := []) (by simp [Path]) (by rw [hb]; rfl) (hl _ ⟨n, hn, rfl⟩)
  · refine ⟨_, _, .refl, hp, ?_⟩
    have := Emit.stem (σ := { view (Program.new [b] [] []) with stack := List.replicate (2 * n) (F32.ofInt 0) }) (op := .opHStem)
      (rest := []) (below := []) (by simp [Stem]) (by rw [hb]; rfl) (hl _ ⟨n, hn, rfl⟩)
    simpa [view, Program.new, left, Routine.new, newWidth] using this

/-- **C75** is false: an operation can have any number of operands. -/
theorem C75_operands (cfg : Config) {n : Nat} (hn : 1 ≤ n) (hn' : n < 2 ^ 61) :
    ∃ t, Next cfg (Program.new (List.replicate (2 * n) 139 ++ [5]) [] [])
      (.ok (some (.opRLineTo, List.replicate (2 * n) (F32.ofInt 0)))) t := by
  obtain ⟨t, h, -⟩ := yields_next (cfg := cfg) (sound_new (code := List.replicate (2 * n) 139 ++ [5]) (by simp; omega) (by simp) (by simp))
    (zeros_yield (c := cfg.checks) hn (op := .opRLineTo) (b := 5) rfl (.inl rfl))
  exact ⟨t, h⟩

/-- **C75** is false: there can be any number of stem hints. -/
theorem C75_stems (cfg : Config) {n : Nat} (hn : 1 ≤ n) (hn' : n < 2 ^ 61) :
    ∃ o t, Next cfg (Program.new (List.replicate (2 * n) 139 ++ [1]) [] []) (.ok (some o)) t ∧ t.stems = n := by
  obtain ⟨t, h, hv, -⟩ := yields_next (cfg := cfg) (sound_new (code := List.replicate (2 * n) 139 ++ [1]) (by simp; omega) (by simp) (by simp))
    (zeros_yield (c := cfg.checks) hn (op := .opHStem) (b := 1) rfl (.inr rfl))
  exact ⟨_, t, h, congrArg State.stems hv⟩

/-- **C75** is false, as calls can be nested deeper as well. -/
theorem C75_false : ¬ C75Statement := by
  intro h
  obtain ⟨τ, e1, e2⟩ := selfCall_depth release.checks 10
  have := (h (cfg := release) (code := [32, 10]) (global := []) («local» := [[32, 10]])
    (sound_new (by decide) (by decide) (by decide)) (.nil e1)).2.1
  omega

/-! ## Subroutines that call the next one twice, the last of which draws -/

/-- `n` subroutines, each of which calls the next one twice, and one that moves. -/
def drawing (n : Nat) : List (List UInt8) :=
  (List.range n).map (fun i => [UInt8.ofNat (33 + i), 10, UInt8.ofNat (33 + i), 10, 11]) ++ [[139, 22, 11]]

theorem drawing_length (n : Nat) : (drawing n).length = n + 1 := by simp [drawing]

theorem drawing_get {n i : Nat} (h : i < n) :
    (drawing n)[i]? = some [UInt8.ofNat (33 + i), 10, UInt8.ofNat (33 + i), 10, 11] := by
  rw [drawing, List.getElem?_append_left (by simpa), List.getElem?_map, List.getElem?_range h]
  rfl

theorem drawing_last (n : Nat) : (drawing n)[n]? = some [139, 22, 11] := by simp [drawing]

theorem drawing_call {c : Bool} {n i : Nat} (hn : n ≤ 214) (hi : i ≤ n) {σ : State} {rest body : List UInt8}
    (hl : σ.local = drawing n) (hc : σ.code = UInt8.ofNat (32 + i) :: 10 :: rest) (hb : (drawing n)[i]? = some body) :
    Turn c σ { σ with code := body, callers := rest :: σ.callers } := by
  have hbyte : (UInt8.ofNat (32 + i)).toNat = 32 + i := by simp; omega
  have hop := operand_byte (UInt8.ofNat (32 + i)) (by omega) (by omega)
  rw [hbyte] at hop
  have hv : (((32 + i : Nat) : Int) - 139) = (i : Int) - 107 := by omega
  rw [hv] at hop
  obtain ⟨w, e⟩ := byte_isInt ⟨i, by omega⟩
  refine ⟨{ σ with code := 10 :: rest, stack := σ.stack ++ [F32.ofInt ((i : Int) - 107)] },
    .single ⟨_, _, _, hop, hc, rfl⟩, ?_⟩
  exact .callLocal (rest := rest) (st := σ.stack) (x := F32.ofInt ((i : Int) - 107)) (a := (i : Int) - 107) (i := i) (body := body)
    rfl rfl (.inl ⟨isInt_of w e (by omega), by omega, by omega⟩)
    (by simp only [hl, drawing_length, callBias]; rw [if_pos (by omega)]; omega) (by rw [← hb, ← hl])

theorem executes_turns {c : Bool} {σ υ τ : State} {l : List Observation} (h : Turns c σ υ) (h' : Executes c υ l τ) :
    Executes c σ l τ := by
  cases h' with
  | nil h' => exact .nil (h.trans h')
  | cons h1 h2 h3 h4 => exact .cons (h.trans h1) h2 h3 h4

theorem executes_append' {c : Bool} {σ υ τ : State} {l l' : List Observation} (h : Executes c σ l υ) (h' : Executes c υ l' τ) :
    Executes c σ (l ++ l') τ := by
  induction h with
  | nil h => exact executes_turns h h'
  | cons h1 h2 h3 _ ih => exact .cons h1 h2 h3 (ih h')

/-- A move by 0. -/
def moved : Observation := ((.opHMoveTo, [F32.ofInt 0]), none, 0)

theorem drawing_run {c : Bool} {n : Nat} (hn : n ≤ 214) : ∀ (k : Nat), k ≤ n → ∀ {σ : State} {body caller : List UInt8}
    {callers : List (List UInt8)}, σ.local = drawing n → σ.stack = [] → σ.width = none → σ.stems = 0 →
    (drawing n)[n - k]? = some body → σ.code = body → σ.callers = caller :: callers →
    Executes c σ (List.replicate (2 ^ k) moved) { σ with code := caller, callers := callers } := by
  intro k
  have ret : ∀ {σ : State} {caller : List UInt8} {callers : List (List UInt8)}, σ.code = [11] → σ.callers = caller :: callers →
      Turn c σ { σ with code := caller, callers := callers } := fun h1 h2 => ⟨_, .refl, .return (rest := []) h1 h2⟩
  induction k with
  | zero =>
    intro _ σ body caller callers hl hst hw hsm hb hc hcs
    rw [Nat.sub_zero, drawing_last] at hb
    injection hb with hb
    subst hb
    obtain ⟨code, callers', global, «local», stack, stems, width⟩ := σ
    simp only at hl hst hw hsm hc hcs
    subst hl hst hw hsm hc hcs
    have hem : Emit ⟨[22, 11], caller :: callers, global, drawing n, [F32.ofInt 0], 0, none⟩ (.opHMoveTo, [F32.ofInt 0])
        ⟨[11], caller :: callers, global, drawing n, [], 0, none⟩ :=
      .path (rest := [11]) (below := []) (by simp [Path]) rfl
        ⟨rfl, rfl, fun args' _ h => by have h : args'.length = 1 := h; simp [h]⟩
    exact .cons .refl (.single ⟨_, _, _, zero_operand, rfl, rfl⟩) hem
      (.nil (.single (ret (σ := ⟨[11], caller :: callers, global, drawing n, [], 0, none⟩) rfl rfl)))
  | succ k ih =>
    intro hk σ body caller callers hl hst hw hsm hb hc hcs
    rw [drawing_get (by omega)] at hb
    injection hb with hb
    rw [← hb] at hc
    rw [show 33 + (n - (k + 1)) = 32 + (n - k) by omega] at hc
    obtain ⟨body', hb'⟩ : ∃ b, (drawing n)[n - k]? = some b :=
      ⟨_, List.getElem?_eq_getElem (by rw [drawing_length]; omega)⟩
    have once : ∀ {υ : State} {rest : List UInt8}, υ.local = drawing n → υ.stack = [] → υ.width = none → υ.stems = 0 →
        υ.code = UInt8.ofNat (32 + (n - k)) :: 10 :: rest →
        Executes c υ (List.replicate (2 ^ k) moved) { υ with code := rest } := by
      intro υ rest hl' a1 a2 a3 hc'
      exact executes_turns (.single (drawing_call hn (by omega) hl' hc' hb')) (ih (by omega) hl' a1 a2 a3 hb' rfl rfl)
    have h1 := once hl hst hw hsm hc
    have h2 := once (υ := { σ with code := [UInt8.ofNat (32 + (n - k)), 10, 11] }) hl hst hw hsm rfl
    have h3 := executes_append' (executes_append' h1 h2) (.nil (.single (ret rfl hcs)))
    rwa [List.append_nil, ← List.replicate_add, ← Nat.two_mul, ← Nat.pow_succ'] at h3

/-- **C75** With subroutines, the output of a program can be exponential in its size. -/
theorem C75_exponential (cfg : Config) {n : Nat} (hn : n ≤ 214) :
    size [32, 10, 14] [] (drawing n) = 5 * n + 6 ∧
    Run cfg (Program.new [32, 10, 14] [] (drawing n)) (List.replicate (2 ^ n) moved) (.ended none) := by
  have hsum : ((drawing n).map List.length).sum = 5 * n + 3 := by
    simp [drawing, Function.comp_def]; omega
  have hs : Sound (Program.new [32, 10, 14] [] (drawing n)) := by
    refine sound_new (by decide) ?_ ⟨by simp, by rw [drawing_length]; omega⟩
    intro b hb
    have := List.le_sum_of_mem (List.mem_map_of_mem (f := List.length) (show b ∈ drawing n by simpa using hb))
    omega
  obtain ⟨body, hb⟩ : ∃ b, (drawing n)[n - n]? = some b := ⟨_, List.getElem?_eq_getElem (by rw [drawing_length]; omega)⟩
  have hrun : Executes cfg.checks (view (Program.new [32, 10, 14] [] (drawing n))) (List.replicate (2 ^ n) moved)
      { view (Program.new [32, 10, 14] [] (drawing n)) with code := [14] } :=
    executes_turns (.single (drawing_call (i := 0) (rest := [14]) hn (by omega) rfl rfl (by rw [← hb, Nat.sub_self])))
      (drawing_run hn n (Nat.le_refl _) rfl rfl rfl rfl hb rfl rfl)
  refine ⟨by simp [size, hsum]; omega, ?_⟩
  obtain ⟨s1, h1, h2, -, h3⟩ := run_executes hrun rfl hs
  refine (h3 _ _).mpr ⟨[], by simp, ?_⟩
  have he : Ends cfg.checks (view s1) { view s1 with code := [] } := by
    rw [h1]
    exact ⟨_, .refl, .inr ⟨_, .refl, .endchar (rest := []) (main := []) (k := 0) rfl rfl⟩⟩
  obtain ⟨t, ht, hv, -⟩ := (C54_end_iff h2 _).mpr he
  have hw : t.width = none := by
    have e1 : t.width = (view s1).width := congrArg State.width hv
    rw [e1, h1]
    rfl
  exact hw ▸ .ended ht

end PS.Type2
