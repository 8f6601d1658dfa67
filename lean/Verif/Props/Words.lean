import Verif.Lemmas.Wrap
import Verif.Lemmas.Uncalled
import Verif.Props.Glyph
import Verif.Props.Limits
/-!
# Properties: programs and the width of words
-/
namespace PS.Type2
open PS.Spec hiding Operand Operation
open PS.Type2.Spec

/-! ## C85 -/

/-- **C85**, the full statement: programs do the same on targets with words of 32 bits. -/
def C85Statement : Prop := ∀ {cfg : Config} {code : List UInt8} {global «local» : List (List UInt8)},
  Sound (Program.new code global «local») → ∀ l out,
  RunOn 32 cfg (Program.new code global «local») l out ↔ Run cfg (Program.new code global «local») l out

/-- **C85**, in part: a call of `next` that comes to nothing that exceeds the words does the
same on all targets. -/
theorem C85_next_partial {bits : Nat} (hb : bits ≤ 64) {cfg : Config} {s : Program} (hs : Sound s)
    (h : ∀ τ υ x, Turns cfg.checks (view s) τ → Pushes τ υ → ¬ Exceeds bits υ x) (r : Res (Option Operation)) (t : Program) :
    Words.Next bits cfg s r t ↔ Next cfg s r t :=
  Words.next_same hb hs h r t

/-- **C85**, in part: so does a program all in all. -/
theorem C85_run_partial {bits : Nat} (hb : bits ≤ 64) {cfg : Config} {s : Program} (hs : Sound s)
    (h : ∀ l τ υ x, Executes cfg.checks (view s) l τ → Pushes τ υ → ¬ Exceeds bits υ x) (l : List Observation) (out : Outcome) :
    RunOn bits cfg s l out ↔ Run cfg s l out := by
  constructor
  · intro hr
    revert hs h
    induction hr with
    | ended h' => exact fun hs h => .ended ((Words.next_same hb hs (fun τ υ x ht => h [] τ υ x (.nil ht)) _ _).mp h')
    | failed h' hr => exact fun hs h => .failed ((Words.next_same hb hs (fun τ υ x ht => h [] τ υ x (.nil ht)) _ _).mp h') hr
    | more h' _ ih =>
      intro hs h
      have hn := (Words.next_same hb hs (fun τ υ x ht => h [] τ υ x (.nil ht)) _ _).mp h'
      obtain ⟨⟨ρ, υ, h1, h2, h3⟩, ht⟩ := next_yields hs hn
      exact .more hn (ih ht fun l τ υ x hx => h _ τ υ x (.cons h1 h2 h3 hx))
  · intro hr
    revert hs h
    induction hr with
    | ended h' => exact fun hs h => .ended ((Words.next_same hb hs (fun τ υ x ht => h [] τ υ x (.nil ht)) _ _).mpr h')
    | failed h' hr => exact fun hs h => .failed ((Words.next_same hb hs (fun τ υ x ht => h [] τ υ x (.nil ht)) _ _).mpr h') hr
    | more h' _ ih =>
      intro hs h
      have hn := (Words.next_same hb hs (fun τ υ x ht => h [] τ υ x (.nil ht)) _ _).mpr h'
      obtain ⟨⟨ρ, υ, h1, h2, h3⟩, ht⟩ := next_yields hs h'
      exact .more hn (ih ht fun l τ υ x hx => h _ τ υ x (.cons h1 h2 h3 hx))

/-- **C85**, in part: programs that keep to the limits of the Type 2 specification do the
same on targets with words of 32 bits. -/
theorem C85_limits_partial {bits : Nat} (hb : 32 ≤ bits) (hb' : bits ≤ 64) {cfg : Config} {s : Program} (hs : Sound s)
    (h : ∀ l τ υ, Executes cfg.checks (view s) l τ → Pushes τ υ → WithinLimits υ) (l : List Observation) (out : Outcome) :
    RunOn bits cfg s l out ↔ Run cfg s l out := by
  have h1 : 2 ^ 28 ≤ 2 ^ (bits - 4) := Nat.pow_le_pow_right (by omega) (by omega)
  have h2 : 2 ^ 32 ≤ 2 ^ bits := Nat.pow_le_pow_right (by omega) hb
  refine C85_run_partial hb' hs (fun l τ υ x he hp hx => ?_) l out
  obtain ⟨g1, -, g2⟩ := h l τ υ he hp
  cases hx <;> omega

/-- **C85**, in part: with calls nested `D` deep at most, subroutines of `L` bytes at most and
`|code| (L + 1)^D ≤ 2^(bits - 4)` a program does the same on all targets. -/
theorem C85_small_partial {bits : Nat} (hb : 32 ≤ bits) (hb' : bits ≤ 64) {cfg : Config} {code : List UInt8}
    {global «local» : List (List UInt8)} {L D : Nat} (hs : Sound (Program.new code global «local»))
    (hL : ∀ b ∈ global ++ «local», b.length ≤ L)
    (hD : ∀ l τ, Executes cfg.checks (view (Program.new code global «local»)) l τ → τ.callers.length ≤ D)
    (hsize : code.length * (L + 1) ^ D ≤ 2 ^ (bits - 4)) (l : List Observation) (out : Outcome) :
    RunOn bits cfg (Program.new code global «local») l out ↔ Run cfg (Program.new code global «local») l out := by
  refine C85_run_partial hb' hs (fun l τ υ x he hp hx => ?_) l out
  obtain ⟨-, h2⟩ := executes_weight he hL hD
  have e : weight (L + 1) D ((view (Program.new code global «local»)).code :: (view (Program.new code global «local»)).callers) =
      code.length * (L + 1) ^ D := by
    simp [view, Program.new, left, Routine.new, weight]
  have e1 : (view (Program.new code global «local»)).stack = [] := rfl
  have e2 : (view (Program.new code global «local»)).stems = 0 := rfl
  rw [e, e1, e2, List.length_nil] at h2
  have h3 := pushes_weight (D := D) (Nat.succ_pos L) hp
  simp only [Nat.succ_eq_add_one] at h3
  have h4 := (pushes_eq hp).2.2.2.1
  have h5 : υ.code ≠ [] := by
    cases hx with
    | operand h1 h2 => rw [h2]; simp [operand_ne_nil h1]
    | dup h1 => rw [h1]; simp [bytes_ne_nil]
    | stems _ h1 => rw [h1]; simp [bytes_ne_nil]
    | mask _ h1 => rw [h1]; simp [bytes_ne_nil]
  have h6 := weight_le (B := L + 1) (D := D) (by omega) (n := 1) (a := []) (b := υ.code)
    (by have := List.length_pos_of_ne_nil h5; simp; omega) υ.callers
  have h7 : 2 ^ bits = 2 ^ (bits - 4) * 16 := by
    rw [show (16 : Nat) = 2 ^ 4 by rfl, ← pow_add]; congr 1; omega
  have h8 : 2 ^ 28 ≤ 2 ^ (bits - 4) := Nat.pow_le_pow_right (by omega) (by omega)
  cases hx <;> omega

/-- **C85.**  With overflow checks, a call of `next` panics exactly if it does so on words
without bounds, or if it comes to something that exceeds the words. -/
theorem C85_panic_iff {bits : Nat} (hb : bits ≤ 64) {cfg : Config} (hc : cfg.checks = true) {s : Program} (hs : Sound s) :
    (∃ x t, Words.Next bits cfg s (.panic x) t) ↔
      (∃ x t, Next cfg s (.panic x) t) ∨ ∃ τ υ x, Turns cfg.checks (view s) τ ∧ Pushes τ υ ∧ Exceeds bits υ x := by
  by_cases h : ∃ τ υ x, Turns cfg.checks (view s) τ ∧ Pushes τ υ ∧ Exceeds bits υ x
  · obtain ⟨τ, υ, x, h1, h2, h3⟩ := h
    exact ⟨fun _ => .inr ⟨τ, υ, x, h1, h2, h3⟩,
      fun _ => Words.next_full hb h1 h2 h3 (fun hf => by rw [hc] at hf; simp at hf) hs rfl⟩
  · have hf : ∀ τ υ x, Turns cfg.checks (view s) τ → Pushes τ υ → ¬ Exceeds bits υ x :=
      fun τ υ x h1 h2 h3 => h ⟨τ, υ, x, h1, h2, h3⟩
    simp only [h, or_false, C85_next_partial hb hs hf]

/-- **C85.**  A program that comes to something that exceeds the words fails there, if only
the number of operands is exceeded also without overflow checks. -/
theorem C85_fails {bits : Nat} (hb : bits ≤ 64) {cfg : Config} {s : Program} (hs : Sound s) {l : List Observation} {τ υ : State}
    {x : Panic} (h : Executes cfg.checks (view s) l τ) (hp : Pushes τ υ) (hx : Exceeds bits υ x)
    (hc : cfg.checks = false → ∀ l τ υ, Executes cfg.checks (view s) l τ → Pushes τ υ → ¬ Exceeds bits υ .overflow) :
    ∃ l', RunOn bits cfg s l' .failed := by
  generalize hσ : view s = σ at h hc
  induction h generalizing s with
  | nil ht =>
    obtain ⟨y, t, h⟩ := Words.next_full hb ht hp hx (fun hf τ υ h => hc hf [] τ υ (.nil h)) hs hσ
    exact ⟨[], .failed h (by simp)⟩
  | @cons σ τ υ σ1 σ2 o l h1 h2 h3 _ ih =>
    by_cases he : ∃ τ υ x, Turns cfg.checks σ τ ∧ Pushes τ υ ∧ Exceeds bits υ x
    · obtain ⟨τ, υ, x, g1, g2, g3⟩ := he
      obtain ⟨y, t, h⟩ := Words.next_full hb g1 g2 g3 (fun hf τ υ h => hc hf [] τ υ (.nil h)) hs hσ
      exact ⟨[], .failed h (by simp)⟩
    · subst hσ
      obtain ⟨t, hn, hv, ht⟩ := yields_next (cfg := cfg) hs ⟨_, _, h1, h2, h3⟩
      obtain ⟨l', hl⟩ := ih ht hp hv (fun hf l τ υ hx => hc hf _ τ υ (.cons h1 h2 h3 hx))
      exact ⟨_, .more ((Words.next_same hb hs (fun τ υ x h1 h2 h3 => he ⟨τ, υ, x, h1, h2, h3⟩) _ _).mpr hn) hl⟩

theorem runOn_unique {bits : Nat} {cfg : Config} {s : Program} {l l' : List Observation} {out out' : Outcome}
    (h : RunOn bits cfg s l out) (h' : RunOn bits cfg s l' out') : l = l' ∧ out = out' := by
  induction h generalizing l' with
  | ended h =>
    cases h' with
    | ended h' => obtain ⟨-, rfl⟩ := Words.next_unique h h'; exact ⟨rfl, rfl⟩
    | failed h' hr => exact absurd (Words.next_unique h h').1.symm (hr _)
    | more h' => have := (Words.next_unique h h').1; simp at this
  | failed h hr =>
    cases h' with
    | ended h' => exact absurd (Words.next_unique h h').1 (hr _)
    | failed h' hr => exact ⟨rfl, rfl⟩
    | more h' => exact absurd (Words.next_unique h h').1 (hr _)
  | more h _ ih =>
    cases h' with
    | ended h' => have := (Words.next_unique h h').1; simp at this
    | failed h' hr => exact absurd (Words.next_unique h h').1.symm (hr _)
    | more h' h2 =>
      obtain ⟨e, rfl⟩ := Words.next_unique h h'
      simp only [Res.ok.injEq, Option.some.injEq] at e
      subst e
      obtain ⟨rfl, rfl⟩ := ih h2
      exact ⟨rfl, rfl⟩

/-! ## Without overflow checks -/

theorem run_wraps {bits : Nat} (hb : bits ≤ 64) {cfg : Config} (hc : cfg.checks = false) {s : Program} (hs : Sound s)
    (h : ∀ l τ, Executes cfg.checks (view s) l τ → Words.Ready bits τ) (l' : List Observation) (out : Outcome) :
    RunOn bits cfg (Words.wrap bits s) l' out ↔
      ∃ l, Run cfg s l out ∧ l' = l.map fun x => (x.1, x.2.1, x.2.2 % 2 ^ bits) := by
  constructor
  · intro hr
    generalize hs' : Words.wrap bits s = s' at hr
    induction hr generalizing s with
    | ended h' =>
      subst hs'
      obtain ⟨t, h1, rfl⟩ := (Words.next_wrap hb hc hs (fun τ ht => h [] τ (.nil ht)) _ _).mp h'
      exact ⟨[], (.ended h1 : Run cfg s [] (.ended t.width)), rfl⟩
    | failed h' hr =>
      subst hs'
      obtain ⟨t, h1, rfl⟩ := (Words.next_wrap hb hc hs (fun τ ht => h [] τ (.nil ht)) _ _).mp h'
      exact ⟨[], .failed h1 hr, rfl⟩
    | more h' _ ih =>
      subst hs'
      obtain ⟨t, h1, rfl⟩ := (Words.next_wrap hb hc hs (fun τ ht => h [] τ (.nil ht)) _ _).mp h'
      obtain ⟨⟨ρ, υ, g1, g2, g3⟩, ht⟩ := next_yields hs h1
      obtain ⟨l, h2, rfl⟩ := ih ht (fun l τ hx => h _ τ (.cons g1 g2 g3 hx)) rfl
      exact ⟨_, .more h1 h2, rfl⟩
  · rintro ⟨l, hr, rfl⟩
    induction hr with
    | @ended s t h' =>
      exact .ended (t := Words.wrap bits t) ((Words.next_wrap hb hc hs (fun τ ht => h [] τ (.nil ht)) _ _).mpr ⟨_, h', rfl⟩)
    | failed h' hr => exact .failed ((Words.next_wrap hb hc hs (fun τ ht => h [] τ (.nil ht)) _ _).mpr ⟨_, h', rfl⟩) hr
    | more h' _ ih =>
      obtain ⟨⟨ρ, υ, g1, g2, g3⟩, ht⟩ := next_yields hs h'
      exact .more ((Words.next_wrap hb hc hs (fun τ ht => h [] τ (.nil ht)) _ _).mpr ⟨_, h', rfl⟩)
        (ih ht fun l τ hx => h _ τ (.cons g1 g2 g3 hx))

/-- **C85.**  Without overflow checks the number of stem hints wraps around, and nothing else
comes of it as long as there is no mask: the operations and widths are the same. -/
theorem C85_wraps {bits : Nat} (hb : bits ≤ 64) {cfg : Config} (hc : cfg.checks = false) {s : Program} (hs : Sound s)
    (hstems : s.stems < 2 ^ bits)
    (hstack : ∀ l τ υ, Executes cfg.checks (view s) l τ → Pushes τ υ → ¬ Exceeds bits υ .capacity)
    (hmask : ∀ l τ υ op rest, Executes cfg.checks (view s) l τ → Pushes τ υ → Mask op → υ.code = bytes op ++ rest →
      υ.stems + υ.stack.length / 2 + 7 < 2 ^ bits) (l' : List Observation) (out : Outcome) :
    RunOn bits cfg s l' out ↔ ∃ l, Run cfg s l out ∧ l' = l.map fun x => (x.1, x.2.1, x.2.2 % 2 ^ bits) := by
  have := run_wraps hb hc hs (fun l τ hx υ hp => ⟨hstack l τ υ hx hp, fun op rest => hmask l τ υ op rest hx hp⟩) l' out
  rwa [show Words.wrap bits s = s by rw [Words.wrap, Nat.mod_eq_of_lt hstems]] at this

/-- **C85.**  Without overflow checks the mask after an operator has as many bytes as the
number of stem hints tells once it has wrapped around, and none if it wraps around in being
rounded up. -/
theorem C85_mask {bits : Nat} {cfg : Config} (hc : cfg.checks = false) {s : Program} (hs : Sound s)
    {xs : List F32} {op : Operator} {rest : List UInt8} (hop : Mask op) (ha : Ahead s xs op rest)
    (hstack : ∀ υ, Pushes (view s) υ → ¬ Exceeds bits υ .capacity) {n k : Nat}
    (hn : n = (s.stems + (s.stack ++ xs).length / 2) % 2 ^ bits) (hk : k = (n + 7) % 2 ^ bits / 8) :
    (k ≤ rest.length → ∃ t, Words.Next bits cfg s (.ok (some (op, []))) t ∧ Sound t ∧ view t =
      { view s with code := rest.drop k, stack := [], width := newWidth s.width (s.stack ++ xs), stems := n }) ∧
    (rest.length < k → ∃ t, Words.Next bits cfg s (.err .eof) t) := by
  have hr : Words.Room bits (view s) := fun υ x bs r hp hx hcd => by
    by_contra hn
    exact hstack υ hp (.operand hx hcd (Nat.not_lt.mp hn))
  rcases Words.step_mask hc hs hr hop ha hn hk with ⟨h1, t, h2, h3, h4⟩ | ⟨h1, t, h2⟩
  · refine ⟨fun _ => ⟨t, ⟨1, by rw [Words.nextFuel, h2]⟩, h3, h4⟩, fun h => ?_⟩
    omega
  · refine ⟨fun h => ?_, fun _ => ⟨t, 1, by rw [Words.nextFuel, h2]⟩⟩
    omega

/-! ## Subroutines that call the next one twice -/

theorem tower_length (leaf : List UInt8) (n : Nat) : (tower leaf n).length = n + 1 := by simp [tower]

theorem tower_get {leaf : List UInt8} {n i : Nat} (h : i < n) :
    (tower leaf n)[i]? = some [UInt8.ofNat (33 + i), 10, UInt8.ofNat (33 + i), 10, 11] := by
  rw [tower, List.getElem?_append_left (by simpa), List.getElem?_map, List.getElem?_range h]
  rfl

theorem tower_last (leaf : List UInt8) (n : Nat) : (tower leaf n)[n]? = some leaf := by simp [tower]

theorem tower_size (leaf : List UInt8) (n : Nat) : ((tower leaf n).map List.length).sum = 5 * n + leaf.length := by
  simp [tower, Function.comp_def]; omega

theorem tower_sound {code leaf : List UInt8} {n : Nat} (hc : code.length < 2 ^ 20) (hl : leaf.length < 2 ^ 20) (hn : n ≤ 214) :
    Sound (Program.new code [] (tower leaf n)) := by
  refine sound_new (by omega) ?_ ⟨by simp, by rw [tower_length]; omega⟩
  intro b hb
  have := List.le_sum_of_mem (List.mem_map_of_mem (f := List.length) (show b ∈ tower leaf n by simpa using hb))
  rw [tower_size] at this
  omega

theorem tower_call {c : Bool} {leaf : List UInt8} {n i : Nat} (hn : n ≤ 214) (hi : i ≤ n) {σ : State} {rest body : List UInt8}
    (hl : σ.local = tower leaf n) (hc : σ.code = UInt8.ofNat (32 + i) :: 10 :: rest) (hb : (tower leaf n)[i]? = some body) :
    Turn c σ { σ with code := body, callers := rest :: σ.callers } := by
  have hbyte : (UInt8.ofNat (32 + i)).toNat = 32 + i := by simp; omega
  have hop := operand_byte (UInt8.ofNat (32 + i)) (by omega) (by omega)
  rw [hbyte] at hop
  have hv : (((32 + i : Nat) : Int) - 139) = (i : Int) - 107 := by omega
  rw [hv] at hop
  obtain ⟨w, e⟩ := byte_isInt ⟨i, by omega⟩
  refine ⟨{ σ with code := 10 :: rest, stack := σ.stack ++ [F32.ofInt ((i : Int) - 107)] },
    .single ⟨_, _, _, hop, hc, rfl⟩, ?_⟩
  exact .callLocal (rest := rest) (st := σ.stack) (x := F32.ofInt ((i : Int) - 107)) (a := (i : Int) - 107) (i := i) (body := body)
    rfl rfl (.inl ⟨isInt_of w e (by omega), by omega, by omega⟩)
    (by simp only [hl, tower_length, callBias]; rw [if_pos (by omega)]; omega) (by rw [← hb, ← hl])

/-- What the last one does once, the first one does `2^n` times. -/
theorem tower_run {c : Bool} {leaf : List UInt8} {n : Nat} (hn : n ≤ 214) (stack : Nat → List F32) (stems : Nat → Nat)
    (Q : List Observation → Prop) (h0 : Q []) (happ : ∀ l l', Q l → Q l' → Q (l ++ l'))
    (hleaf : ∀ j caller callers, ∃ l, Q l ∧
      Executes c ⟨leaf, caller :: callers, [], tower leaf n, stack j, stems j, none⟩ l
        ⟨caller, callers, [], tower leaf n, stack (j + 1), stems (j + 1), none⟩) :
    ∀ (k : Nat), k ≤ n → ∀ j caller callers {body : List UInt8}, (tower leaf n)[n - k]? = some body → ∃ l, Q l ∧
      Executes c ⟨body, caller :: callers, [], tower leaf n, stack j, stems j, none⟩ l
        ⟨caller, callers, [], tower leaf n, stack (j + 2 ^ k), stems (j + 2 ^ k), none⟩ := by
  intro k
  induction k with
  | zero =>
    intro _ j caller callers body hb
    rw [Nat.sub_zero, tower_last] at hb
    injection hb with hb
    subst hb
    exact hleaf j caller callers
  | succ k ih =>
    intro hk j caller callers body hb
    rw [tower_get (by omega)] at hb
    injection hb with hb
    subst hb
    rw [show 33 + (n - (k + 1)) = 32 + (n - k) by omega]
    obtain ⟨body', hb'⟩ : ∃ b, (tower leaf n)[n - k]? = some b :=
      ⟨_, List.getElem?_eq_getElem (by rw [tower_length]; omega)⟩
    obtain ⟨l1, q1, h1⟩ := ih (by omega) j [UInt8.ofNat (32 + (n - k)), 10, 11] (caller :: callers) hb'
    obtain ⟨l2, q2, h2⟩ := ih (by omega) (j + 2 ^ k) [11] (caller :: callers) hb'
    refine ⟨(l1 ++ l2) ++ [], happ _ _ (happ _ _ q1 q2) h0, executes_append' (executes_append'
      (executes_turns (.single (tower_call hn (by omega) rfl rfl hb')) h1)
      (executes_turns (.single (tower_call hn (by omega) rfl rfl hb')) h2)) (.nil (.single ⟨_, .refl, ?_⟩))⟩
    rw [show j + 2 ^ (k + 1) = j + 2 ^ k + 2 ^ k by rw [pow_succ]; omega]
    exact .return (rest := []) rfl rfl

theorem tower_main {c : Bool} {leaf : List UInt8} {n : Nat} (hn : n ≤ 214) (stack : Nat → List F32) (stems : Nat → Nat)
    (Q : List Observation → Prop) (h0 : Q []) (happ : ∀ l l', Q l → Q l' → Q (l ++ l'))
    (hleaf : ∀ j caller callers, ∃ l, Q l ∧
      Executes c ⟨leaf, caller :: callers, [], tower leaf n, stack j, stems j, none⟩ l
        ⟨caller, callers, [], tower leaf n, stack (j + 1), stems (j + 1), none⟩)
    (hstack : stack 0 = []) (hstems : stems 0 = 0) (rest : List UInt8) : ∃ l, Q l ∧
      Executes c (view (Program.new (32 :: 10 :: rest) [] (tower leaf n))) l
        ⟨rest, [], [], tower leaf n, stack (2 ^ n), stems (2 ^ n), none⟩ := by
  obtain ⟨body, hb⟩ : ∃ b, (tower leaf n)[n - n]? = some b := ⟨_, List.getElem?_eq_getElem (by rw [tower_length]; omega)⟩
  obtain ⟨l, q, h⟩ := tower_run hn stack stems Q h0 happ hleaf n (Nat.le_refl _) 0 rest [] hb
  rw [Nat.zero_add, hstack, hstems] at h
  exact ⟨l, q, executes_turns (.single (tower_call (i := 0) (rest := rest) hn (by omega) rfl rfl (by rw [← hb, Nat.sub_self]))) h⟩

theorem hstem_emit {callers global «local» : List (List UInt8)} {rest : List UInt8} {k : Nat} :
    Emit ⟨1 :: rest, callers, global, «local», [F32.ofInt 0, F32.ofInt 0], k, none⟩ (.opHStem, [F32.ofInt 0, F32.ofInt 0])
      ⟨rest, callers, global, «local», [], k + 1, none⟩ := by
  have := Emit.stem (σ := ⟨1 :: rest, callers, global, «local», [F32.ofInt 0, F32.ofInt 0], k, none⟩) (op := .opHStem) (rest := rest)
    (below := []) (args := [F32.ofInt 0, F32.ofInt 0]) (by simp [Stem]) rfl
    ⟨rfl, ⟨1, by omega, rfl⟩, fun args' h _ => by simpa using h.sublist.length_le⟩
  simpa [newWidth] using this

theorem zeros_push {callers global «local» : List (List UInt8)} {rest : List UInt8} {k : Nat} :
    Pushes ⟨139 :: 139 :: rest, callers, global, «local», [], k, none⟩
      ⟨rest, callers, global, «local», [F32.ofInt 0, F32.ofInt 0], k, none⟩ :=
  pushes_iff.mpr ⟨_, _, zeros 2, rfl, rfl⟩

theorem hinting_main {c : Bool} {n : Nat} (hn : n ≤ 214) (rest : List UInt8) : ∃ l,
    Executes c (view (Program.new (32 :: 10 :: rest) [] (hinting n))) l ⟨rest, [], [], hinting n, [], 2 ^ n, none⟩ := by
  obtain ⟨l, -, h⟩ := tower_main (c := c) (leaf := [139, 139, 1, 11]) hn (fun _ => []) (fun j => j) (fun _ => True) trivial
    (fun _ _ _ _ => trivial) (fun j caller callers => ⟨_, trivial, .cons .refl zeros_push hstem_emit
      (.nil (.single ⟨_, .refl, .return (rest := []) rfl rfl⟩))⟩) rfl rfl rest
  exact ⟨l, h⟩

theorem piling_main {c : Bool} {n : Nat} (hn : n ≤ 214) (rest : List UInt8) :
    Turns c (view (Program.new (32 :: 10 :: rest) [] (piling n)))
      ⟨rest, [], [], piling n, List.replicate (2 ^ n) (F32.ofInt 0), 0, none⟩ := by
  obtain ⟨l, rfl, h⟩ := tower_main (c := c) (leaf := [139, 11]) hn (fun j => List.replicate j (F32.ofInt 0)) (fun _ => 0) (fun l => l = [])
    rfl (by rintro _ _ rfl rfl; rfl) (fun j caller callers => ⟨_, rfl,
      .nil (.single ⟨⟨[11], caller :: callers, [], tower [139, 11] n, List.replicate j (F32.ofInt 0) ++ [F32.ofInt 0], 0, none⟩,
        .single ⟨_, _, _, zero_operand, rfl, rfl⟩, by
        have := Quiet.return (checks := c)
          (σ := ⟨[11], caller :: callers, [], tower [139, 11] n, List.replicate j (F32.ofInt 0) ++ [F32.ofInt 0], 0, none⟩)
          (rest := []) rfl rfl
        rwa [List.replicate_succ']⟩)⟩) rfl rfl rest
  cases h with
  | nil h => exact h

/-- A program that ends with `endchar` where it has come to, ends. -/
theorem run_endchar {cfg : Config} {s : Program} (hs : Sound s) {l : List Observation} {σ υ : State}
    (h : Executes cfg.checks (view s) l σ) (hp : Pushes σ υ) (hc : υ.code = [14]) (hcs : υ.callers = []) :
    Run cfg s l (.ended (newWidth υ.width υ.stack)) := by
  obtain ⟨s1, h1, h2, -, h3⟩ := run_executes h rfl hs
  refine (h3 _ _).mpr ⟨[], by simp, ?_⟩
  have he : Ends cfg.checks (view s1) { υ with code := [], callers := [], width := newWidth υ.width υ.stack } := by
    rw [h1]
    exact ⟨_, .refl, .inr ⟨_, hp, .endchar (rest := []) (main := []) (k := 0) hc (by rw [hcs]; rfl)⟩⟩
  obtain ⟨t, ht, hv, -⟩ := (C54_end_iff h2 _).mpr he
  have hw : t.width = newWidth υ.width υ.stack := congrArg State.width hv
  exact hw ▸ .ended ht

/-- **C85** There are programs of a few bytes whose stem hints exceed the words: with overflow
checks, they fail instead of ending. -/
theorem C85_stems {bits : Nat} (hb : bits ≤ 64) {cfg : Config} (hc : cfg.checks = true) :
    size [32, 10, 139, 139, 1, 14] [] (hinting bits) = 5 * bits + 10 ∧
    (∃ l, Run cfg (Program.new [32, 10, 139, 139, 1, 14] [] (hinting bits)) l (.ended none)) ∧
    ∃ l, RunOn bits cfg (Program.new [32, 10, 139, 139, 1, 14] [] (hinting bits)) l .failed := by
  have hs : Sound (Program.new [32, 10, 139, 139, 1, 14] [] (hinting bits)) := tower_sound (by decide) (by decide) (by omega)
  obtain ⟨l, h⟩ := hinting_main (c := cfg.checks) (n := bits) (by omega) [139, 139, 1, 14]
  refine ⟨?_, ⟨l ++ [((.opHStem, [F32.ofInt 0, F32.ofInt 0]), none, 2 ^ bits + 1)], ?_⟩, ?_⟩
  · simp only [size, hinting, tower_size, List.length_cons, List.length_nil, List.nil_append]
    omega
  · exact run_endchar hs (executes_append' h (.cons .refl zeros_push hstem_emit (.nil .refl))) .refl rfl rfl
  · exact C85_fails hb hs h zeros_push (.stems (op := .opHStem) (rest := [14]) (by simp [Stem]) rfl (by simp))
      (fun hf => by rw [hc] at hf; simp at hf)

/-- No code is about stem hints. -/
def Hintless (σ : State) : Prop :=
  ∀ b ∈ σ.code :: (σ.callers ++ σ.global ++ σ.local), ∀ x ∈ b, x = 10 ∨ x = 11 ∨ x = 14 ∨ 32 ≤ x.toNat

theorem hintless_pushes {σ υ : State} (h : Hintless σ) (hp : Pushes σ υ) : Hintless υ := by
  obtain ⟨e1, e2, e3, -⟩ := pushes_eq hp
  obtain ⟨xs, bs, _, hc, -⟩ := pushes_iff.mp hp
  unfold Hintless at h ⊢
  rw [e1, e2, e3]
  rw [hc] at h
  intro b hb x hx
  rcases List.mem_cons.mp hb with rfl | hb
  · exact h _ List.mem_cons_self x (List.mem_append_right _ hx)
  · exact h _ (List.mem_cons_of_mem _ hb) x hx

theorem hintless_turns {c : Bool} {σ τ : State} (h : Hintless σ) (ht : Turns c σ τ) : Hintless τ := by
  induction ht with
  | refl => exact h
  | tail _ h2 ih =>
    obtain ⟨υ, hp, hq⟩ := h2
    have h3 := hintless_pushes ih hp
    intro b hb x hx
    cases hq with
    | @stack op rest st hc _ =>
      rcases List.mem_cons.mp hb with rfl | hb
      · exact h3 _ List.mem_cons_self x (by rw [hc]; exact List.mem_append_right _ hx)
      · exact h3 _ (List.mem_cons_of_mem _ hb) x hx
    | @callLocal rest st y a i body hc _ _ _ hi =>
      have hm := List.mem_of_getElem? hi
      simp only [List.mem_cons, List.cons_append, List.mem_append] at hb
      rcases hb with rfl | rfl | hb
      · exact h3 _ (List.mem_cons_of_mem _ (List.mem_append_right _ hm)) x hx
      · exact h3 _ List.mem_cons_self x (by rw [hc]; exact List.mem_append_right _ hx)
      · exact h3 _ (List.mem_cons_of_mem _ (by simpa [or_assoc] using hb)) x hx
    | @callGlobal rest st y a i body hc _ _ _ hi =>
      have hm := List.mem_of_getElem? hi
      simp only [List.mem_cons, List.cons_append, List.mem_append] at hb
      rcases hb with rfl | rfl | hb
      · exact h3 _ (List.mem_cons_of_mem _ (List.mem_append_left _ (List.mem_append_right _ hm))) x hx
      · exact h3 _ List.mem_cons_self x (by rw [hc]; exact List.mem_append_right _ hx)
      · exact h3 _ (List.mem_cons_of_mem _ (by simpa [or_assoc] using hb)) x hx
    | @«return» rest caller callers hc hcs =>
      refine h3 b (List.mem_cons_of_mem _ ?_) x hx
      rw [hcs]
      simpa using hb

theorem hintless_fits {bits : Nat} {υ : State} (h : Hintless υ) : ¬ Exceeds bits υ .overflow := by
  have key : ∀ {b : UInt8} {rest}, υ.code = b :: rest → b = 10 ∨ b = 11 ∨ b = 14 ∨ 32 ≤ b.toNat :=
    fun hc => h _ List.mem_cons_self _ (by rw [hc]; exact List.mem_cons_self)
  intro hx
  cases hx with
  | stems hop hc =>
    simp only [Stem, List.mem_cons, List.not_mem_nil, or_false] at hop
    rcases hop with rfl | rfl | rfl | rfl <;> exact absurd (key hc) (by decide)
  | mask hop hc =>
    simp only [Mask, List.mem_cons, List.not_mem_nil, or_false] at hop
    rcases hop with rfl | rfl <;> exact absurd (key hc) (by decide)

/-- **C85** There are programs of a few bytes whose operands exceed the memory: they panic
instead of ending, in all builds. -/
theorem C85_operands {bits : Nat} (hb : bits ≤ 64) (hb' : 4 ≤ bits) (cfg : Config) :
    size [32, 10, 139, 14] [] (piling (bits - 4)) + 14 = 5 * bits ∧
    Run cfg (Program.new [32, 10, 139, 14] [] (piling (bits - 4))) [] (.ended (some (F32.ofInt 0))) ∧
    ∃ x t, Words.Next bits cfg (Program.new [32, 10, 139, 14] [] (piling (bits - 4))) (.panic x) t := by
  have hs : Sound (Program.new [32, 10, 139, 14] [] (piling (bits - 4))) := tower_sound (by decide) (by decide) (by omega)
  have h := piling_main (c := cfg.checks) (n := bits - 4) (by omega) [139, 14]
  refine ⟨?_, ?_, ?_⟩
  · simp only [size, piling, tower_size, List.length_cons, List.length_nil, List.nil_append]
    omega
  · have := run_endchar hs (.nil h) (.single ⟨_, _, _, zero_operand, rfl, rfl⟩) rfl rfl
    simpa [newWidth] using this
  · refine Words.next_full hb h .refl (.operand (rest := [14]) zero_operand rfl (by simp)) (fun _ τ υ h1 h2 => ?_) hs rfl
    refine hintless_fits (hintless_pushes (hintless_turns ?_ h1) h2)
    intro b hb x hx
    have hl : (view (Program.new [32, 10, 139, 14] [] (piling (bits - 4)))).local = piling (bits - 4) := rfl
    have hc : (view (Program.new [32, 10, 139, 14] [] (piling (bits - 4)))).code = [32, 10, 139, 14] := rfl
    have hcs : (view (Program.new [32, 10, 139, 14] [] (piling (bits - 4)))).callers = [] := rfl
    have hg : (view (Program.new [32, 10, 139, 14] [] (piling (bits - 4)))).global = [] := rfl
    rw [hl, hc, hcs, hg] at hb
    simp only [piling, tower, List.nil_append, List.mem_cons, List.mem_append, List.mem_map, List.mem_range,
      List.not_mem_nil, or_false] at hb
    rcases hb with rfl | ⟨i, hi, rfl⟩ | rfl
    · revert x; decide
    · have : 32 ≤ (UInt8.ofNat (33 + i)).toNat := by simp; omega
      simp only [List.mem_cons, List.not_mem_nil, or_false] at hx
      rcases hx with rfl | rfl | rfl | rfl | rfl <;> first | exact .inr (.inr (.inr this)) | decide
    · revert x; decide

/-- **C85** is false. -/
theorem C85_false : ¬ C85Statement := by
  intro h
  obtain ⟨-, h1, x, t, h2⟩ := C85_operands (bits := 32) (by decide) (by decide) release
  have := (h (cfg := release) (tower_sound (by decide) (by decide) (by decide)) [] .failed).mp (.failed h2 (by simp))
  have := (run_unique h1 this).2
  simp at this

/-! ## Cases -/

/-- `0 hmoveto endchar` keeps to the limits. -/
theorem simple_limits {c : Bool} {l : List Observation} {τ υ : State}
    (h : Executes c (view (Program.new [139, 22, 14] [] [])) l τ) (hp : Pushes τ υ) : WithinLimits υ := by
  have hD : ∀ l τ, Executes c (view (Program.new [139, 22, 14] [] [])) l τ → τ.callers.length ≤ 0 := by
    intro l τ hx
    simp [executes_flat hx]
  obtain ⟨g1, g2⟩ := executes_weight (L := 0) (D := 0) h (by simp [view, Program.new]) hD
  have g3 := pushes_weight (D := 0) (B := 0 + 1) (by decide) hp
  have g4 := hD _ _ h
  have g5 : weight (0 + 1) 0 ((view (Program.new [139, 22, 14] [] [])).code :: (view (Program.new [139, 22, 14] [] [])).callers) = 3 := rfl
  have g6 : (view (Program.new [139, 22, 14] [] [])).stack = [] := rfl
  have g7 : (view (Program.new [139, 22, 14] [] [])).stems = 0 := rfl
  rw [g5, g6, g7, List.length_nil] at g2
  obtain ⟨e1, -, -, e2, -⟩ := pushes_eq hp
  refine ⟨by omega, by rw [e1]; omega, by rw [e2]; omega⟩

/-- The same on targets with words of 32 bits. -/
example (l : List Observation) (out : Outcome) :
    RunOn 32 release (Program.new [139, 22, 14] [] []) l out ↔ Run release (Program.new [139, 22, 14] [] []) l out :=
  C85_limits_partial (by decide) (by decide) (sound_new (by decide) (by simp) (by simp)) (fun _ _ _ h hp => simple_limits h hp) l out

example (l : List Observation) (out : Outcome) :
    RunOn 32 release (Program.new [139, 22, 14] [] []) l out ↔ Run release (Program.new [139, 22, 14] [] []) l out :=
  C85_small_partial (L := 0) (D := 10) (by decide) (by decide) (sound_new (by decide) (by simp) (by simp)) (by simp)
    (fun _ _ h => (simple_limits h .refl).2.1) (by decide) l out

/-- Without subroutines a program goes on within its code. -/
theorem executes_suffix {c : Bool} {σ τ : State} {l : List Observation} (h : Executes c σ l τ) (hg : σ.global = []) (hl : σ.local = [])
    (hc : σ.callers = []) : (τ.callers = [] ∧ τ.global = [] ∧ τ.local = []) ∧ τ.code <:+ σ.code := by
  refine executes_invariant h (fun ρ => (ρ.callers = [] ∧ ρ.global = [] ∧ ρ.local = []) ∧ ρ.code <:+ σ.code)
    ⟨⟨hc, hg, hl⟩, List.suffix_rfl⟩ ?_ ?_
  · rintro ρ υ τ ⟨⟨h1, h2, h3⟩, h4⟩ hp hq
    obtain ⟨e1, e2, e3, -⟩ := pushes_eq hp
    obtain ⟨xs, bs, -, hcd, -⟩ := pushes_iff.mp hp
    rw [h1] at e1; rw [h2] at e2; rw [h3] at e3
    have h5 : υ.code <:+ σ.code := .trans ⟨bs, hcd.symm⟩ h4
    cases hq with
    | stack hc => exact ⟨⟨e1, e2, e3⟩, .trans ⟨_, hc.symm⟩ h5⟩
    | callLocal _ _ _ _ hi => simp [e3] at hi
    | callGlobal _ _ _ _ hi => simp [e2] at hi
    | «return» _ hc => simp [e1] at hc
  · rintro ρ υ o τ ⟨⟨h1, h2, h3⟩, h4⟩ hp hem
    obtain ⟨e1, e2, e3, -⟩ := pushes_eq hp
    obtain ⟨xs, bs, -, hcd, -⟩ := pushes_iff.mp hp
    rw [h1] at e1; rw [h2] at e2; rw [h3] at e3
    have h5 : υ.code <:+ σ.code := .trans ⟨bs, hcd.symm⟩ h4
    cases hem with
    | path _ hc => exact ⟨⟨e1, e2, e3⟩, .trans ⟨_, hc.symm⟩ h5⟩
    | stem _ hc => exact ⟨⟨e1, e2, e3⟩, .trans ⟨_, hc.symm⟩ h5⟩
    | mask _ hc => exact ⟨⟨e1, e2, e3⟩, .trans ⟨_, hc.symm⟩ h5⟩

/-- `0 0 hstem endchar` when there are `2^32 - 1` stem hints already. -/
def last : Program := { Program.new [139, 139, 1, 14] [] [] with stems := 2 ^ 32 - 1 }

/-- On targets with words of 32 bits the number of stem hints is then 0 in release builds. -/
example : RunOn 32 release last [((.opHStem, [F32.ofInt 0, F32.ofInt 0]), none, 0)] (.ended none) := by
  have hs : Sound last := sound_with (sound_new (code := [139, 139, 1, 14]) (global := []) («local» := []) (by decide) (by simp) (by simp))
    (st := []) (by simp) (2 ^ 32 - 1) none
  refine (C85_wraps (by decide) rfl hs (by decide) ?_ ?_ _ _).mpr ⟨[((.opHStem, [F32.ofInt 0, F32.ofInt 0]), none, 2 ^ 32)], ?_, rfl⟩
  · intro l τ υ h hp hx
    obtain ⟨h1, -⟩ := executes_weight (L := 0) (D := 0) h (by simp [view, last, Program.new])
      (fun l τ h => by rw [(executes_suffix h rfl rfl rfl).1.1]; simp)
    have h2 := pushes_weight (D := 0) (B := 0 + 1) (by decide) hp
    have h3 : weight (0 + 1) 0 ((view last).code :: (view last).callers) = 4 := rfl
    have h4 : (view last).stack.length = 0 := rfl
    rw [h3, h4] at h1
    cases hx <;> omega
  · intro l τ υ op rest h hp hop hc
    exfalso
    have h1 := (executes_suffix h rfl rfl rfl).2
    obtain ⟨xs, bs, -, hcd, -⟩ := pushes_iff.mp hp
    have h2 : υ.code <:+ [139, 139, 1, 14] := .trans ⟨bs, hcd.symm⟩ h1
    rw [hc] at h2
    have h3 : ∀ b ∈ bytes op, b ∈ [139, 139, 1, 14] := fun b hb => h2.subset (List.mem_append_left _ hb)
    simp only [Mask, List.mem_cons, List.not_mem_nil, or_false] at hop
    rcases hop with rfl | rfl <;> revert h3 <;> decide
  · exact run_endchar hs (.cons .refl zeros_push hstem_emit (.nil .refl)) .refl rfl rfl

/-- With `2^32 - 3` stem hints the mask after `hintmask` has no bytes there: what should be the
mask is executed. -/
example : ∃ t, Words.Next 32 release { Program.new [19, 139, 14] [] [] with stems := 2 ^ 32 - 3 } (.ok (some (.opHintMask, []))) t ∧
    Sound t ∧ view t = ⟨[139, 14], [], [], [], [], 2 ^ 32 - 3, none⟩ := by
  refine (C85_mask (bits := 32) (xs := []) (rest := [139, 14]) (n := 2 ^ 32 - 3) (k := 0) rfl
    (sound_with (sound_new (code := [19, 139, 14]) (global := []) («local» := []) (by decide) (by simp) (by simp))
      (st := []) (by simp) (2 ^ 32 - 3) none) (by simp [Mask]) ⟨[], .nil, rfl⟩ ?_ rfl rfl).1 (by decide)
  intro υ hp hx
  have h2 : υ.stack.length + υ.code.length ≤ 0 + 3 := pushes_length hp
  cases hx <;> omega

/-- On targets with words of 32 bits, 170 bytes are enough to fail in a debug build, and 146 in
every build. -/
example : size [32, 10, 139, 139, 1, 14] [] (hinting 32) = 170 ∧ size [32, 10, 139, 14] [] (piling 28) = 146 := by decide +kernel

end PS.Type2
