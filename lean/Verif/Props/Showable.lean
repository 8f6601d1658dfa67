import Verif.Lemmas.Showable
/-!
# Property C101: what can be shown by a program
-/
namespace PS.Type2
open PS.Spec hiding Operand Operation
open PS.Type2.Spec

theorem path_not_stem {op : Operator} (h : Path op) : ¬ Stem op := by
  simp only [Path, Stem, List.mem_cons, List.not_mem_nil, or_false] at h ⊢
  rcases h with rfl | rfl | rfl | rfl | rfl | rfl | rfl | rfl | rfl | rfl | rfl | rfl | rfl | rfl | rfl | rfl | rfl <;> simp

theorem keeps_newWidth (width : Option F32) (below : List F32) : Keeps width (newWidth width below) := by
  rintro x rfl
  rfl

theorem longest_width {op : Operator} {st below args : List F32} (width : Option F32) (h : Longest op st below args) :
    newWidth width below = width ∨ ¬ Accepts op (args.length + 1) := by
  rcases List.eq_nil_or_concat below with rfl | ⟨init, x, rfl⟩
  · left
    simp [newWidth]
  · right
    intro ha
    obtain ⟨rfl, -, h⟩ := h
    have := h (x :: args) ⟨init, by simp⟩ (by simpa using ha)
    simp at this

theorem longest_stems {op : Operator} {st below args : List F32} (hop : Stem op) (h : Longest op st below args) :
    st.length / 2 = args.length / 2 := by
  obtain ⟨rfl, h2, h3⟩ := h
  have key : args.length % 2 = 0 ∧ ∀ args', args' <:+ below ++ args → args'.length = args.length + 2 → False := by
    simp only [Stem, List.mem_cons, List.not_mem_nil, or_false] at hop
    rcases hop with rfl | rfl | rfl | rfl <;> obtain ⟨k, hk, hk'⟩ := h2 <;>
      exact ⟨by omega, fun args' g1 g2 => by
        have := h3 args' g1 ⟨k + 1, by omega, by omega⟩
        omega⟩
  have : below.length ≤ 1 := by
    by_contra hb
    exact key.2 ((below ++ args).drop (below.length - 2)) (List.drop_suffix _ _) (by
      rw [List.length_drop, List.length_append]; omega)
  rw [List.length_append]
  omega

theorem emit_showable {υ σ : State} {o : Operation} (h : Emit υ o σ) {l : List Observation} {w : Option F32}
    (hl : Showable σ.width σ.stems l w) : Showable υ.width υ.stems ((o, σ.width, σ.stems) :: l) w := by
  cases h with
  | path hop hc hlong =>
    exact .plain (.inl hop) hlong.2.1 (keeps_newWidth _ _) (longest_width _ hlong) (by simp [path_not_stem hop]) hl
  | stem hop hc hlong =>
    exact .plain (.inr hop) hlong.2.1 (keeps_newWidth _ _) (longest_width _ hlong) (by simp [hop, longest_stems hop hlong]) hl
  | mask hop hc hm =>
    refine .mask hop (Nat.le_add_right _ _) (keeps_newWidth _ _) ?_ hl
    intro hw
    simp only [newWidth, Option.or_eq_none_iff, List.getLast?_eq_none_iff] at hw
    rw [hw.2]
    rfl

theorem emit_numbers {υ σ : State} {o : Operation} (h : Emit υ o σ) (hs : ∀ x ∈ υ.stack, x.WF) (hw : ∀ x, υ.width = some x → x.WF) :
    (∀ x ∈ o.2, x.WF) ∧ ∀ x, σ.width = some x → x.WF := by
  have new : ∀ below : List F32, (∀ x ∈ below, x.WF) → ∀ x, newWidth υ.width below = some x → x.WF := by
    intro below hb x hx
    cases hu : υ.width with
    | some y => rw [hu] at hx; exact hw x (by rw [hu]; exact hx)
    | none => rw [hu] at hx; exact hb x (List.mem_of_getLast? (by simpa [newWidth] using hx))
  cases h with
  | path hop hc hlong =>
    rw [hlong.1] at hs
    exact ⟨fun x hx => hs x (List.mem_append_right _ hx), new _ fun x hx => hs x (List.mem_append_left _ hx)⟩
  | stem hop hc hlong =>
    rw [hlong.1] at hs
    exact ⟨fun x hx => hs x (List.mem_append_right _ hx), new _ fun x hx => hs x (List.mem_append_left _ hx)⟩
  | mask hop hc hm => exact ⟨by simp, new _ hs⟩

theorem reached_wf {cfg : Config} {s : Program} (hs : Sound s) {τ υ : State} (ht : Turns cfg.checks (view s) τ) (hp : Pushes τ υ) :
    ∀ x ∈ υ.stack, x.WF := by
  obtain ⟨s1, rfl, hs1, -⟩ := turns_steps ht rfl hs
  obtain ⟨xs, bs, hx, -, he⟩ := pushes_iff.mp hp
  rw [he]
  intro x hm
  rcases List.mem_append.mp hm with hm | hm
  · exact hs1.stack x hm
  · exact seq_wf hx x hm

theorem run_showable {cfg : Config} {s : Program} {l : List Observation} {out : Outcome} (h : Run cfg s l out) : Sound s →
    (∀ x, s.width = some x → x.WF) →
    (∀ w, out = .ended w → Showable s.width s.stems l w ∧ ∀ x, Shown l w x → x.WF) ∧
    (out = .failed → ∃ w, Showable s.width s.stems l w ∧ ∀ x, Shown l w x → x.WF) := by
  induction h with
  | @ended s t h =>
    intro hs hw
    refine ⟨?_, by simp⟩
    intro w hout
    obtain rfl : t.width = w := by simpa using hout
    obtain ⟨τ, ht, ⟨-, h⟩ | ⟨υ, rest, hp, -, h⟩⟩ := C40_width_end hs h
    · refine ⟨.nil fun x hx => by rw [h]; exact hx, ?_⟩
      rintro x (⟨_, hm, -⟩ | hx)
      · simp at hm
      · exact hw x (by rw [← h]; exact hx)
    · have hwf := reached_wf hs ht hp
      refine ⟨.nil fun x hx => by rw [h, hx], ?_⟩
      rintro x (⟨_, hm, -⟩ | hx)
      · simp at hm
      · cases hu : s.width with
        | some y => rw [h, hu] at hx; exact hw x (by rw [hu]; exact hx)
        | none => rw [h, hu] at hx; exact hwf x (List.mem_of_getLast? hx)
  | @failed s r t h hr =>
    intro hs hw
    refine ⟨by simp, fun _ => ⟨s.width, .nil fun x hx => hx, ?_⟩⟩
    rintro x (⟨_, hm, -⟩ | hx)
    · simp at hm
    · exact hw x hx
  | @more s o t l out h _ ih =>
    intro hs hw
    obtain ⟨⟨τ, υ, ht, hp, hem⟩, hst⟩ := next_yields hs h
    have e1 : υ.width = s.width := by rw [(pushes_eq hp).2.2.2.2, (turns_eq ht).2.2.2]; rfl
    have e2 : υ.stems = s.stems := by rw [(pushes_eq hp).2.2.2.1, (turns_eq ht).2.2.1]; rfl
    obtain ⟨k1, k2⟩ := emit_numbers hem (reached_wf hs ht hp) (by rw [e1]; exact hw)
    obtain ⟨i1, i2⟩ := ih hst k2
    have step : ∀ w, (Showable t.width t.stems l w ∧ ∀ x, Shown l w x → x.WF) →
        Showable s.width s.stems ((o, t.width, t.stems) :: l) w ∧ ∀ x, Shown ((o, t.width, t.stems) :: l) w x → x.WF := by
      rintro w ⟨h1, h2⟩
      refine ⟨?_, ?_⟩
      · have := emit_showable hem (l := l) (w := w) h1
        rw [e1, e2] at this
        exact this
      · rintro x (⟨o', hm, hx⟩ | hx)
        · rcases List.mem_cons.mp hm with rfl | hm
          · exact k1 x hx
          · exact h2 x (.inl ⟨o', hm, hx⟩)
        · exact h2 x (.inr hx)
    exact ⟨fun w hw => step w (i1 w hw), fun hf => (i2 hf).imp step⟩

theorem showable_keeps {width : Option F32} {n : Nat} {l : List Observation} {w : Option F32} (h : Showable width n l w) : Keeps width w := by
  induction h with
  | nil h => exact h
  | plain _ _ h _ _ _ ih => exact fun x hx => ih x (h x hx)
  | mask _ _ h _ _ ih => exact fun x hx => ih x (h x hx)

theorem zero_unknown : Unknown [0] := reserved_unknown (.inl ⟨0, [], rfl, by decide, by decide, by decide, by intro op; cases op <;> decide⟩)

/-- A program for an operation, up to the next one. -/
theorem build_more {o : Operation} {width width' : Option F32} {n n' : Nat} {xs : List F32} (hxs : ∀ x ∈ xs, x.WF) {tail : List UInt8}
    (hem : ∀ (ρ : State) (rest : List UInt8), ρ.code = tail ++ rest → ρ.stack = xs → ρ.stems = n → ρ.width = width →
      Emit ρ o { ρ with code := rest, stack := [], width := width', stems := n' })
    {l : List Observation} {out : Outcome} {k : Nat}
    (ih : ∃ bs, bs.length ≤ k ∧ ∀ (cfg : Config) (p : Program), Sound p → left p.routine = bs → p.callers = [] → p.stack = [] →
      p.stems = n' → p.width = width' → Run cfg p l out) :
    ∃ bs, bs.length ≤ 1000 * xs.length + tail.length + k ∧ ∀ (cfg : Config) (p : Program), Sound p → left p.routine = bs →
      p.callers = [] → p.stack = [] → p.stems = n → p.width = width → Run cfg p ((o, width', n') :: l) out := by
  obtain ⟨bs', h1, h2⟩ := ih
  obtain ⟨bs, h3, h4⟩ := Showing.computes_all hxs
  refine ⟨bs ++ (tail ++ bs'), by simp only [List.length_append]; omega, ?_⟩
  intro cfg p hp e1 e2 e3 e4 e5
  obtain ⟨τ, g1, g2⟩ := h4 cfg.checks (view p) _ e1
  have he := hem { view p with code := tail ++ bs', stack := (view p).stack ++ xs } bs' rfl (by
    show p.stack ++ xs = xs
    rw [e3]; rfl) e4 e5
  obtain ⟨u, n1, n2, n3⟩ := yields_next (cfg := cfg) hp ⟨_, _, g1, g2, he⟩
  have u1 : u.width = width' := congrArg State.width n2
  have u2 : u.stems = n' := congrArg State.stems n2
  have u3 : u.stack = [] := congrArg State.stack n2
  have u4 : left u.routine = bs' := congrArg State.code n2
  have u5 : u.callers = [] := by
    have : u.callers.map left = p.callers.map left := congrArg State.callers n2
    simpa [e2] using this
  have := Run.more n1 (h2 cfg u n3 u4 u5 u3 u2 u1)
  rw [u1, u2] at this
  exact this

theorem size_plain {b a t e s n : Nat} (h : s ≤ 1000 * (b + a) + t + (e + 1001)) (hb : b ≤ 1) (ht : t ≤ 2) :
    s ≤ 1000 * (a + 3 * n + 2) + e + 1001 := by linarith

theorem size_mask {a t e s n : Nat} (h : s ≤ 1000 * a + (t + (n + 7) / 8) + (e + 1001)) (ha : a ≤ 2 * n + 1) (ht : t ≤ 2) :
    s ≤ 1000 * (0 + 3 * n + 2) + e + 1001 := by
  have : (n + 7) / 8 ≤ n + 7 := Nat.div_le_self _ _
  linarith

theorem build {width : Option F32} {n : Nat} {l : List Observation} {w : Option F32} (h : Showable width n l w)
    (hx : ∀ x, Shown l w x → x.WF) {out : Outcome} (ho : out = .ended w ∨ out = .failed) :
    ∃ bs, bs.length ≤ (l.map effort).sum + 1001 ∧ ∀ (cfg : Config) (p : Program), Sound p → left p.routine = bs → p.callers = [] →
      p.stack = [] → p.stems = n → p.width = width → Run cfg p l out := by
  induction h with
  | @nil width n w hk =>
    rcases ho with rfl | rfl
    · obtain ⟨bs, h1, h2⟩ := Showing.computes_all (xs := w.toList) (by
        intro x hm
        exact hx x (.inr (by simpa using hm)))
      refine ⟨bs ++ bytes .opEndChar, ?_, ?_⟩
      · have : w.toList.length ≤ 1 := by cases w <;> simp
        simp only [List.length_append, List.map_nil, List.sum_nil, bytes, List.length_cons, List.length_nil]
        omega
      · intro cfg p hp e1 e2 e3 e4 e5
        obtain ⟨τ, g1, g2⟩ := h2 cfg.checks (view p) _ e1
        obtain ⟨t, n1, n2, -⟩ := ends_next (cfg := cfg) hp ⟨τ, g1, .inr ⟨_, g2, .endchar (rest := []) (main := []) (k := 0) (by simp)
          (by simp [view, e2])⟩⟩
        have : t.width = w := by
          have : t.width = newWidth p.width (p.stack ++ w.toList) := congrArg State.width n2
          rw [this, e3, e5, List.nil_append]
          cases width with
          | some y => rw [hk y rfl]; rfl
          | none => cases w <;> rfl
        rw [← this]
        exact .ended n1
    · refine ⟨[0], by simp, ?_⟩
      intro cfg p hp e1 e2 e3 e4 e5
      obtain ⟨s', he⟩ := step_unknown (cfg := cfg) (xs := []) (bs := []) .nil (by rw [e1]; rfl) zero_unknown
      exact .failed ((next_err he).mpr ⟨rfl, rfl⟩) (by simp)
  | @plain width width' n n' op args l w hop ha hk hw hn hl ih =>
    have hw' : ∀ x, width' = some x → x.WF := fun x hm => hx x (.inr (showable_keeps hl x hm))
    have ih := ih (fun x hm => hx x (hm.imp (fun ⟨o, ho, h⟩ => ⟨o, List.mem_cons_of_mem _ ho, h⟩) id)) ho
    obtain ⟨below, hb1, hb2, hb3, hb4⟩ : ∃ below : List F32, (∀ x ∈ below, x.WF) ∧ below.length ≤ 1 ∧ newWidth width below = width' ∧
        (below = [] ∨ ¬ Accepts op (args.length + 1)) := by
      cases width with
      | some y => exact ⟨[], by simp, by simp, by rw [hk y rfl]; rfl, .inl rfl⟩
      | none =>
        rcases hw with rfl | hw
        · exact ⟨[], by simp, by simp, rfl, .inl rfl⟩
        · exact ⟨width'.toList, fun x hm => hw' x (by simpa using hm), by cases width' <;> simp, by cases width' <;> rfl, .inr hw⟩
    have hlong : Longest op (below ++ args) below args := by
      refine ⟨rfl, ha, fun args' hs ha' => ?_⟩
      have h5 := hs.length_le
      rw [List.length_append] at h5
      rcases hb4 with rfl | hb4
      · simpa using h5
      · by_contra hlt
        exact hb4 (by rwa [show args.length + 1 = args'.length by omega])
    obtain ⟨bs, h1, h2⟩ := build_more (o := (op, args)) (width := width) (n := n) (xs := below ++ args) (by
        intro x hm
        rcases List.mem_append.mp hm with hm | hm
        · exact hb1 x hm
        · exact hx x (.inl ⟨_, List.mem_cons_self, hm⟩)) (tail := bytes op) (by
        intro ρ rest c1 c2 c3 c4
        rcases hop with hop | hop
        · have := Emit.path (σ := ρ) hop c1 (by rw [c2]; exact hlong)
          rw [c4, hb3] at this
          rw [hn, if_neg (path_not_stem hop), Nat.add_zero, ← c3]
          exact this
        · have := Emit.stem (σ := ρ) hop c1 (by rw [c2]; exact hlong)
          rw [c4, hb3, c2, longest_stems hop hlong, c3] at this
          rw [hn, if_pos hop]
          exact this) ih
    refine ⟨bs, ?_, h2⟩
    have := bytes_le op
    have he : effort ((op, args), width', n') = 1000 * (args.length + 3 * n' + 2) := rfl
    rw [List.map_cons, List.sum_cons, he]
    simp only [List.length_append] at h1
    exact size_plain h1 hb2 this
  | @mask width width' n n' op l w hop hle hk hw hl ih =>
    have hw' : ∀ x, width' = some x → x.WF := fun x hm => hx x (.inr (showable_keeps hl x hm))
    have ih := ih (fun x hm => hx x (hm.imp (fun ⟨o, ho, h⟩ => ⟨o, List.mem_cons_of_mem _ ho, h⟩) id)) ho
    obtain ⟨xs, hb1, hb2, hb3, hb4⟩ : ∃ xs : List F32, (∀ x ∈ xs, x.WF) ∧ xs.length ≤ 2 * n' + 1 ∧ newWidth width xs = width' ∧
        n + xs.length / 2 = n' := by
      cases width' with
      | none =>
        obtain rfl := hw rfl
        refine ⟨[], by simp, by simp, ?_, by simp⟩
        cases width with
        | none => rfl
        | some y => exact (hk y rfl).symm
      | some x =>
        refine ⟨List.replicate (2 * (n' - n)) (.fin false 0 0) ++ [x], ?_, by simp only [List.length_append, List.length_replicate, List.length_singleton]; omega, ?_, by simp only [List.length_append, List.length_replicate, List.length_singleton]; omega⟩
        · intro y hm
          rcases List.mem_append.mp hm with hm | hm
          · rw [(List.mem_replicate.mp hm).2]; decide
          · rw [List.mem_singleton.mp hm]; exact hw' x rfl
        · cases width with
          | none => simp [newWidth]
          | some y => exact (hk y rfl).symm
    obtain ⟨bs, h1, h2⟩ := build_more (o := (op, [])) (width := width) (n := n) (xs := xs) hb1
      (tail := bytes op ++ List.replicate ((n' + 7) / 8) 0) (by
        intro ρ rest c1 c2 c3 c4
        have := Emit.mask (σ := ρ) (mask := List.replicate ((n' + 7) / 8) 0) (rest := rest) hop c1 (by
          rw [c2, c3, hb4, List.length_replicate])
        rw [c4, c2, hb3, c3, hb4] at this
        exact this) ih
    refine ⟨bs, ?_, h2⟩
    have := bytes_le op
    have he : effort ((op, []), width', n') = 1000 * (0 + 3 * n' + 2) := rfl
    rw [List.map_cons, List.sum_cons, he]
    simp only [List.length_append, List.length_replicate] at h1
    exact size_mask h1 hb2 this

/-- **C101.**  What a program shows until it ends or fails is in order, and all numbers are binary32
numbers. -/
theorem C101_only {cfg : Config} {code : List UInt8} {global «local» : List (List UInt8)} (h1 : code.length < 2 ^ 63)
    (h2 : ∀ c ∈ global ++ «local», c.length < 2 ^ 63) (h3 : global.length ≤ 2 ^ 31 ∧ «local».length ≤ 2 ^ 31)
    {l : List Observation} {out : Outcome} (h : Run cfg (Program.new code global «local») l out) :
    ∃ w, (out = .ended w ∨ out = .failed) ∧ Showable none 0 l w ∧ ∀ x, Shown l w x → x.WF := by
  obtain ⟨g1, g2⟩ := run_showable h (sound_new h1 h2 h3) (by simp [Program.new])
  cases out with
  | ended w => exact ⟨w, .inl rfl, g1 w rfl⟩
  | failed =>
    obtain ⟨w, g⟩ := g2 rfl
    exact ⟨w, .inr rfl, g⟩

/-- **C101.**  Whatever is in order is shown by some program, with any binary32 numbers, infinities, NaN and
the negative zero among them; and this program needs no subroutines, and does the same in all builds and
with whatever subroutines there are. -/
theorem C101_can {l : List Observation} {w : Option F32} (h : Showable none 0 l w) (hx : ∀ x, Shown l w x → x.WF)
    (hsize : (l.map effort).sum + 1001 < 2 ^ 63) {out : Outcome} (ho : out = .ended w ∨ out = .failed) :
    ∃ code, code.length ≤ (l.map effort).sum + 1001 ∧
      ∀ (cfg : Config) (global «local» : List (List UInt8)), (∀ c ∈ global ++ «local», c.length < 2 ^ 63) →
        global.length ≤ 2 ^ 31 ∧ «local».length ≤ 2 ^ 31 → Run cfg (Program.new code global «local») l out := by
  obtain ⟨bs, h1, h2⟩ := build h hx ho
  exact ⟨bs, h1, fun cfg g l' hg hl => h2 cfg _ (sound_new (by omega) hg hl) rfl rfl rfl rfl rfl⟩

/-- **C101.**  So a program that shows `l` and ends with the width `w` exists if and only if `l` and `w` are
in order. -/
theorem C101_iff (cfg : Config) {l : List Observation} (hsize : (l.map effort).sum + 1001 < 2 ^ 63) (w : Option F32) :
    (∃ (code : List UInt8) (global «local» : List (List UInt8)), code.length < 2 ^ 63 ∧ (∀ c ∈ global ++ «local», c.length < 2 ^ 63) ∧
      (global.length ≤ 2 ^ 31 ∧ «local».length ≤ 2 ^ 31) ∧ Run cfg (Program.new code global «local») l (.ended w)) ↔
    Showable none 0 l w ∧ ∀ x, Shown l w x → x.WF := by
  constructor
  · rintro ⟨code, global, «local», h1, h2, h3, h⟩
    obtain ⟨w', e | e, h⟩ := C101_only h1 h2 h3 h
    · obtain rfl : w = w' := by simpa using e
      exact h
    · simp at e
  · rintro ⟨h1, h2⟩
    obtain ⟨code, g1, g2⟩ := C101_can h1 h2 hsize (.inl rfl)
    exact ⟨code, [], [], by omega, by simp, by simp, g2 cfg [] [] (by simp) (by simp)⟩

/-- **C101.**  And whatever a program with subroutines shows until it ends or fails can be shown by one without,
which does arithmetic where flat code cannot (see C64). -/
theorem C101_inlined {cfg : Config} {code : List UInt8} {global «local» : List (List UInt8)} (h1 : code.length < 2 ^ 63)
    (h2 : ∀ c ∈ global ++ «local», c.length < 2 ^ 63) (h3 : global.length ≤ 2 ^ 31 ∧ «local».length ≤ 2 ^ 31)
    {l : List Observation} {out : Outcome} (h : Run cfg (Program.new code global «local») l out)
    (hsize : (l.map effort).sum + 1001 < 2 ^ 63) :
    ∃ code', code'.length ≤ (l.map effort).sum + 1001 ∧ ∀ cfg', Run cfg' (Program.new code' [] []) l out := by
  obtain ⟨w, ho, h4, h5⟩ := C101_only h1 h2 h3 h
  obtain ⟨code', g1, g2⟩ := C101_can h4 h5 hsize ho
  exact ⟨code', g1, fun cfg' => g2 cfg' [] [] (by simp) (by simp)⟩

/-- **C101.**  In particular, every binary32 number can be shown, although operands are multiples of 2^-16. -/
theorem C101_number (x : F32) : x.WF ↔ ∃ (code : List UInt8), code.length < 2 ^ 63 ∧
    ∀ cfg, Run cfg (Program.new code [] []) [((.opHMoveTo, [x]), none, 0)] (.ended none) := by
  constructor
  · intro hx
    obtain ⟨code, h1, h2⟩ := C101_can (l := [((.opHMoveTo, [x]), none, 0)]) (w := none)
      (.plain (.inl (by decide)) rfl (by simp [Keeps]) (.inl rfl) (by simp [Stem]) (.nil (by simp [Keeps]))) (by
        rintro y (⟨o, ho, hy⟩ | hy)
        · obtain rfl : o = ((.opHMoveTo, [x]), none, 0) := by simpa using ho
          obtain rfl : y = x := by simpa using hy
          exact hx
        · simp at hy) (by simp [effort]) (.inl rfl)
    refine ⟨code, ?_, fun cfg => h2 cfg [] [] (by simp) (by simp)⟩
    simp [effort] at h1
    omega
  · rintro ⟨code, h1, h2⟩
    obtain ⟨w, -, -, h⟩ := C101_only h1 (by simp) (by simp) (h2 release)
    exact h x (.inl ⟨_, List.mem_cons_self, List.mem_cons_self⟩)

/-- A width that is no number, stems in front of a mask, and a move by infinity and the negative zero. -/
def oddities : List Observation :=
  [((.opHStemHM, [F32.ofInt 1, F32.ofInt 2]), some .nan, 1), ((.opHintMask, []), some .nan, 3),
    ((.opRMoveTo, [.inf true, .fin true 0 0]), some .nan, 3)]

/-- The hypotheses of `C101_can` are met. -/
theorem oddities_showable : Showable none 0 oddities (some .nan) ∧ (∀ x, Shown oddities (some .nan) x → x.WF) ∧
    (oddities.map effort).sum + 1001 < 2 ^ 63 := by
  refine ⟨.plain (.inr (by decide)) ⟨1, by decide, rfl⟩ (by simp [Keeps]) (.inr ?_) (by decide)
    (.mask (by decide) (by decide) (by simp [Keeps]) (by simp)
      (.plain (.inl (by decide)) rfl (by simp [Keeps]) (.inl rfl) (by decide) (.nil (by simp [Keeps])))), ?_, by decide⟩
  · rintro ⟨k, -, hk⟩
    simp at hk
    omega
  · rintro x (⟨o, ho, hx⟩ | hx)
    · simp only [oddities, List.mem_cons, List.not_mem_nil, or_false] at ho
      rcases ho with rfl | rfl | rfl
      · simp only [List.mem_cons, List.not_mem_nil, or_false] at hx
        rcases hx with rfl | rfl <;> decide +kernel
      · simp at hx
      · simp only [List.mem_cons, List.not_mem_nil, or_false] at hx
        rcases hx with rfl | rfl <;> decide +kernel
    · obtain rfl : F32.nan = x := by simpa using hx
      trivial

/-- And so is that of `C101_only` and `C101_inlined`, by a program with a subroutine. -/
example : ∃ l, Run release sampleCall l (.ended (some (F32.ofInt 50))) ∧ (l.map effort).sum + 1001 < 2 ^ 63 :=
  ⟨[((.opRMoveTo, [F32.ofInt 10, F32.ofInt 20]), some (F32.ofInt 50), 0), ((.opHMoveTo, [F32.ofInt 7]), some (F32.ofInt 50), 0)],
    run_cons (t := after release sampleCall) ⟨100, by decide +kernel⟩ (by decide +kernel)
    (run_cons (t := after release (after release sampleCall)) ⟨100, by decide +kernel⟩ (by decide +kernel)
      (run_nil (t := after release (after release (after release sampleCall))) ⟨100, by decide +kernel⟩ (by decide +kernel))),
    by decide +kernel⟩

/-- A mask that declares stems when the width is not known afterwards, and a line in front of which there is a width, are
not in order. -/
example (l : List Observation) (w : Option F32) (x y : F32) : ¬ Showable none 0 (((.opHintMask, []), none, 1) :: l) w ∧
    ¬ Showable none 0 (((.opHLineTo, [x]), some y, 0) :: l) w := by
  constructor
  · intro h
    cases h with
    | plain hop => rcases hop with h | h <;> simp [Path, Stem] at h
    | mask _ _ _ h => simp at h
  · intro h
    cases h with
    | plain _ _ _ h =>
      rcases h with h | h
      · simp at h
      · exact h (by show 1 + 1 ≥ 1; omega)

end PS.Type2
