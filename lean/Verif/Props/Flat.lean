import Verif.Props.Glyph
import Verif.Spec.Flat
/-!
# Property C64: glyphs can be flattened
-/
namespace PS.Type2
open PS.Spec hiding Operand Operation
open PS.Type2.Spec

theorem operand_le {x : F32} {bs : List UInt8} (h : Operand x bs) : bs.length ≤ 5 := by
  cases h with
  | int h _ => cases h <;> simp [beSigned_length]
  | fixed i h1 h2 _ => simp [beSigned_length]

theorem seq_le {xs : List F32} {bs : List UInt8} (h : Seq Operand xs bs) : bs.length ≤ 5 * xs.length := by
  induction h with
  | nil => simp
  | cons h _ ih =>
    have := operand_le h
    simp only [List.length_append, List.length_cons]
    omega

theorem bytes_le (op : Operator) : (bytes op).length ≤ 2 := by cases op <;> decide

theorem seq_writable : ∀ {xs : List F32}, (∀ x ∈ xs, Writable x) → ∃ bs, Seq Operand xs bs
  | [], _ => ⟨_, .nil⟩
  | x :: xs, h => by
    obtain ⟨b, hb⟩ := h x (by simp)
    obtain ⟨bs, hbs⟩ := seq_writable (xs := xs) fun y hy => h y (by simp [hy])
    exact ⟨_, .cons hb hbs⟩

theorem writable_seq {xs : List F32} {bs : List UInt8} (h : Seq Operand xs bs) : ∀ x ∈ xs, Writable x := by
  induction h with
  | nil => simp
  | cons h _ ih =>
    intro x hx
    rcases List.mem_cons.mp hx with rfl | hx
    · exact ⟨_, h⟩
    · exact ih x hx

theorem writable_zero : Writable (F32.ofInt 0) := ⟨_, operand_byte 139 (by decide) (by decide)⟩

/-- What has to be written below the arguments. -/
def surplus (width : Option F32) (below : List F32) : List F32 :=
  match width with
  | some _ => []
  | none => below.getLast?.toList

theorem surplus_le (width : Option F32) (below : List F32) : (surplus width below).length ≤ 1 := by
  unfold surplus
  split
  · simp
  · cases below.getLast? <;> simp

theorem newWidth_surplus (width : Option F32) (below : List F32) :
    newWidth width (surplus width below) = newWidth width below := by
  unfold surplus newWidth
  cases width with
  | some w => rfl
  | none => cases below.getLast? <;> simp

theorem longest_surplus {op : Operator} {st below args : List F32} (width : Option F32) (h : Longest op st below args) :
    Longest op (surplus width below ++ args) (surplus width below) args := by
  obtain ⟨rfl, h2, h3⟩ := h
  refine ⟨rfl, h2, fun args' hs ha => ?_⟩
  have h4 := surplus_le width below
  have h5 := hs.length_le
  rw [List.length_append] at h5
  by_cases h6 : args'.length ≤ args.length
  · exact h6
  · -- a suffix of the same length in the stack
    have h7 : below ≠ [] := by
      rintro rfl
      have : surplus width [] = [] := by unfold surplus; cases width <;> rfl
      rw [this] at h5
      simp at h5
      omega
    have h8 : 0 < below.length := List.length_pos_iff.mpr h7
    have := h3 ((below ++ args).drop (below.length - 1)) (List.drop_suffix _ _) (by
      have : ((below ++ args).drop (below.length - 1)).length = args'.length := by
        rw [List.length_drop, List.length_append]; omega
      rw [this]; exact ha)
    rw [List.length_drop, List.length_append] at this
    omega

/-- The width once set stays. -/
theorem emit_width {υ σ : State} {o : Operation} (h : Emit υ o σ) :
    ∃ below, σ.width = newWidth υ.width below := by
  cases h with
  | path => exact ⟨_, rfl⟩
  | stem => exact ⟨_, rfl⟩
  | mask => exact ⟨_, rfl⟩

theorem run_width {cfg : Config} {s : Program} {l : List Observation} {out : Outcome} (h : Run cfg s l out) :
    ∀ {w : Option F32} {x : F32}, out = .ended w → s.width = some x → w = some x := by
  induction h with
  | ended h =>
    intro w x hw hx
    cases hw
    exact C40_width_stays (.single ⟨_, h⟩) hx
  | failed => intro w x hw; cases hw
  | more h _ ih =>
    intro w x hw hx
    exact ih hw (C40_width_stays (.single ⟨_, h⟩) hx)

/-- An operation can be shown again by operands and its operator. -/
theorem emit_flat {υ σ : State} {o : Operation} (h : Emit υ o σ) (ha : ∀ x ∈ o.2, Writable x)
    (hw : ∀ x, σ.width = some x → Writable x) :
    ∃ xs bs tail, Seq Operand xs bs ∧ bs.length + tail.length ≤ bulk (o, σ.width, σ.stems) ∧
      (∀ rest, Flat σ.stems rest → Flat υ.stems (bs ++ tail ++ rest)) ∧
      ∀ (ρ : State) (rest : List UInt8), ρ.code = tail ++ rest → ρ.stack = xs → ρ.stems = υ.stems → ρ.width = υ.width →
        Emit ρ o { ρ with code := rest, stack := [], width := σ.width, stems := σ.stems } := by
  have hsur : ∀ below, (∀ x, newWidth υ.width below = some x → Writable x) → ∀ x ∈ surplus υ.width below, Writable x := by
    intro below hb x hx
    unfold surplus at hx
    cases hu : υ.width with
    | some w => rw [hu] at hx; simp at hx
    | none =>
      rw [hu] at hx
      refine hb x ?_
      rw [hu]
      simpa [newWidth] using hx
  cases h with
  | @path op rest0 below args hop hc hl =>
    obtain ⟨bs, hbs⟩ := seq_writable (xs := surplus υ.width below ++ args) (by
      intro x hx
      rcases List.mem_append.mp hx with hx | hx
      · exact hsur below hw x hx
      · exact ha x hx)
    refine ⟨_, bs, bytes op, hbs, ?_, fun rest hr => .path hop hbs hr, ?_⟩
    · have h1 := seq_le hbs
      have h2 := bytes_le op
      have h3 := surplus_le υ.width below
      rw [List.length_append] at h1
      simp only [bulk]
      omega
    · rintro ρ rest h1 h2 h3 h4
      have := Emit.path (σ := ρ) hop h1 (by rw [h2]; exact longest_surplus υ.width hl)
      rw [h4, newWidth_surplus] at this
      simpa only [h3] using this
  | @stem op rest0 below args hop hc hl =>
    obtain ⟨bs, hbs⟩ := seq_writable (xs := surplus υ.width below ++ args) (by
      intro x hx
      rcases List.mem_append.mp hx with hx | hx
      · exact hsur below hw x hx
      · exact ha x hx)
    have hlen : (surplus υ.width below ++ args).length / 2 = υ.stack.length / 2 := by
      have h1 := surplus_le υ.width below
      have h2 : args.length % 2 = 0 ∧ below.length ≤ 1 := by
        obtain ⟨e, h2, h3⟩ := hl
        have key : args.length % 2 = 0 ∧ ∀ args', args' <:+ υ.stack → args'.length = args.length + 2 → False := by
          simp only [Stem, List.mem_cons, List.not_mem_nil, or_false] at hop
          rcases hop with rfl | rfl | rfl | rfl <;> obtain ⟨k, hk, hk'⟩ := h2 <;>
            exact ⟨by omega, fun args' g1 g2 => by
              have := h3 args' g1 ⟨k + 1, by omega, by omega⟩
              omega⟩
        refine ⟨key.1, ?_⟩
        by_contra hb
        exact key.2 (υ.stack.drop (below.length - 2)) (List.drop_suffix _ _) (by
          rw [List.length_drop, e, List.length_append]; omega)
      rw [hl.1, List.length_append, List.length_append]
      omega
    refine ⟨_, bs, bytes op, hbs, ?_, fun rest hr => .stem hop hbs (by rw [hlen]; exact hr), ?_⟩
    · have h1 := seq_le hbs
      have h2 := bytes_le op
      have h3 := surplus_le υ.width below
      rw [List.length_append] at h1
      simp only [bulk]
      omega
    · rintro ρ rest h1 h2 h3 h4
      have := Emit.stem (σ := ρ) hop h1 (by rw [h2]; exact longest_surplus υ.width hl)
      rw [h4, newWidth_surplus, h2, hlen, h3] at this
      exact this
  | @mask op mask rest0 hop hc hm =>
    have key : ∃ xs : List F32, (∀ x ∈ xs, Writable x) ∧ xs.length / 2 = υ.stack.length / 2 ∧
        xs.length ≤ 2 * (υ.stack.length / 2) + 1 ∧ newWidth υ.width xs = newWidth υ.width υ.stack := by
      rcases List.eq_nil_or_concat υ.stack with h | ⟨st, x, h⟩
      · exact ⟨[], by simp, by simp [h], by simp, by rw [h]⟩
      · cases hu : υ.width with
        | some w =>
          refine ⟨List.replicate υ.stack.length (F32.ofInt 0), ?_, by simp, by simp; omega, rfl⟩
          intro y hy
          rw [(List.mem_replicate.mp hy).2]
          exact writable_zero
        | none =>
          refine ⟨List.replicate st.length (F32.ofInt 0) ++ [x], ?_, by simp [h], by simp [h]; omega, by simp [newWidth, h]⟩
          intro y hy
          rcases List.mem_append.mp hy with hy | hy
          · rw [(List.mem_replicate.mp hy).2]
            exact writable_zero
          · rw [List.mem_singleton.mp hy]
            exact hw x (by simp [newWidth, h, hu])
    obtain ⟨xs, k1, k2, k3, k4⟩ := key
    obtain ⟨bs, hbs⟩ := seq_writable k1
    refine ⟨xs, bs, bytes op ++ mask, hbs, ?_, fun rest hr => ?_, ?_⟩
    · have h1 := seq_le hbs
      have h2 := bytes_le op
      rw [List.length_append, hm]
      simp only [bulk]
      omega
    · have := Flat.mask (n := υ.stems) (mask := mask) (rest := rest) hop hbs (by rw [k2]; exact hm) (by rw [k2]; exact hr)
      simpa only [List.append_assoc] using this
    · rintro ρ rest h1 h2 h3 h4
      have := Emit.mask (σ := ρ) (mask := mask) (rest := rest) hop h1 (by rw [h2, h3, k2]; exact hm)
      rw [h4, h2, k4, k2, h3] at this
      exact this

theorem flatten {cfg : Config} {s : Program} {l : List Observation} {out : Outcome} (h : Run cfg s l out) :
    ∀ {w : Option F32}, out = .ended w → Sound s → (∀ x, Shown l w x → Writable x) →
      ∃ bs, Flat s.stems bs ∧ bs.length ≤ (l.map bulk).sum + 6 ∧
        ∀ (cfg' : Config) (p : Program), Sound p → left p.routine = bs → p.callers = [] → p.stack = [] →
          p.stems = s.stems → p.width = s.width → Run cfg' p l (.ended w) := by
  induction h with
  | failed => intro w hw; cases hw
  | @ended s t h =>
    intro w hw hs hx
    cases hw
    have key : ∃ xs : List F32, (∀ x ∈ xs, Writable x) ∧ xs.length ≤ 1 ∧ t.width = s.width.or xs.getLast? := by
      obtain ⟨τ, -, ⟨-, h⟩ | ⟨υ, rest, -, -, h⟩⟩ := C40_width_end hs h
      · exact ⟨[], by simp, by simp, by rw [h]; simp⟩
      · cases hw : s.width with
        | some w => rw [hw] at h; exact ⟨[], by simp, by simp, by rw [h]; rfl⟩
        | none =>
          rw [hw] at h
          refine ⟨υ.stack.getLast?.toList, fun x hm => hx x (.inr ?_), ?_, ?_⟩
          · rw [h]; simpa using hm
          · cases υ.stack.getLast? <;> simp
          · rw [h]; cases υ.stack.getLast? <;> simp
    obtain ⟨xs, k1, k2, k3⟩ := key
    obtain ⟨bs, hbs⟩ := seq_writable k1
    refine ⟨_, .endchar hbs, ?_, ?_⟩
    · have := seq_le hbs
      simp only [List.length_append, List.map_nil, List.sum_nil, bytes, List.length_cons, List.length_nil]
      omega
    · intro cfg' p hp h1 h2 h3 h4 h5
      rcases endchar_cases (cfg := cfg') (rest := []) hp ⟨bs, hbs, by rw [h1]; simp⟩ with ⟨-, u, hn, -, -, -, hu⟩ | ⟨hn, -⟩
      · rw [h3, h5, List.nil_append, ← k3] at hu
        rw [← hu]
        exact .ended hn
      · exact absurd (by simp [h2]) hn
  | @more s o t l out h h' ih =>
    intro w hw hs hx
    obtain ⟨⟨τ, υ, ht, hp, hem⟩, hst⟩ := next_yields hs h
    have e1 : υ.width = s.width := by rw [(pushes_eq hp).2.2.2.2, (turns_eq ht).2.2.2]; rfl
    have e2 : υ.stems = s.stems := by rw [(pushes_eq hp).2.2.2.1, (turns_eq ht).2.2.1]; rfl
    obtain ⟨bs', f1, f2, f3⟩ := ih hw hst fun x hm => hx x (hm.imp (fun ⟨o, ho, h⟩ => ⟨o, by simp [ho], h⟩) id)
    obtain ⟨xs, bs, tail, g1, g2, g3, g4⟩ := emit_flat hem (fun x hm => hx x (.inl ⟨_, List.mem_cons_self, hm⟩))
      (fun x hm => hx x (.inr (run_width h' hw hm)))
    refine ⟨bs ++ tail ++ bs', e2 ▸ g3 bs' f1, ?_, ?_⟩
    · have : (view t).width = t.width ∧ (view t).stems = t.stems := ⟨rfl, rfl⟩
      rw [this.1, this.2] at g2
      simp only [List.length_append, List.map_cons, List.sum_cons]
      omega
    · intro cfg' p hp' h1 h2 h3 h4 h5
      have hpush := seq_pushes (rest := tail ++ bs') g1 (view p) (by
        rw [← List.append_assoc]; exact h1)
      obtain ⟨u, n1, n2, n3⟩ := yields_next (cfg := cfg') hp' ⟨_, _, .refl, hpush, g4 _ bs' rfl
        (by show p.stack ++ xs = xs; rw [h3]; rfl) (by rw [e2]; exact h4) (by rw [e1]; exact h5)⟩
      have u1 : u.width = t.width := congrArg State.width n2
      have u2 : u.stems = t.stems := congrArg State.stems n2
      have u3 : u.stack = [] := congrArg State.stack n2
      have u4 : left u.routine = bs' := congrArg State.code n2
      have u5 : u.callers = [] := by
        have : u.callers.map left = p.callers.map left := congrArg State.callers n2
        simpa [h2] using this
      have := Run.more n1 (f3 cfg' u n3 u4 u5 u3 u2 u1)
      rw [u1, u2] at this
      exact this

/-- **C64.**  Whatever a program with subroutines, arithmetic and so on shows until it ends
can be shown by a flat character string, if all its numbers can be written: the same
operations, with the same width and the same number of stems after each, by every
build and with whatever subroutines there are. -/
theorem C64_flatten {cfg : Config} {s : Program} (hs : Sound s) (hw : s.width = none) (hn : s.stems = 0)
    {l : List Observation} {w : Option F32} (h : Run cfg s l (.ended w)) (hx : ∀ x, Shown l w x → Writable x)
    (hsize : (l.map bulk).sum + 6 < 2 ^ 63) :
    ∃ bs, Flat 0 bs ∧ bs.length ≤ (l.map bulk).sum + 6 ∧
      ∀ (cfg' : Config) (global «local» : List (List UInt8)), (∀ c ∈ global ++ «local», c.length < 2 ^ 63) →
        global.length ≤ 2 ^ 31 ∧ «local».length ≤ 2 ^ 31 → Run cfg' (Program.new bs global «local») l (.ended w) := by
  obtain ⟨bs, h1, h2, h3⟩ := flatten h rfl hs hx
  rw [hn] at h1
  exact ⟨bs, h1, h2, fun cfg' g l' hg hl => h3 cfg' _ (sound_new (by omega) hg hl) rfl rfl rfl hn.symm hw.symm⟩

theorem flat_writable {cfg : Config} {n : Nat} {bs : List UInt8} (hf : Flat n bs) :
    ∀ {s : Program} {l : List Observation} {w : Option F32}, Sound s → left s.routine = bs → s.callers = [] → s.stack = [] →
      s.stems = n → (∀ x, s.width = some x → Writable x) → Run cfg s l (.ended w) → ∀ x, Shown l w x → Writable x := by
  -- what remains to be shown after an operation
  have more : ∀ {m : Nat} {rest : List UInt8} {s : Program} {l : List Observation} {w : Option F32} {below args : List F32}
      {op : Operator}, Sound s → s.callers = [] → (∀ x, s.width = some x → Writable x) →
      (∀ {s : Program} {l : List Observation} {w : Option F32}, Sound s → left s.routine = rest → s.callers = [] → s.stack = [] →
        s.stems = m → (∀ x, s.width = some x → Writable x) → Run cfg s l (.ended w) → ∀ x, Shown l w x → Writable x) →
      Yields cfg.checks (view s) (op, args) { view s with code := rest, stack := [], width := newWidth s.width below, stems := m } →
      (∀ x ∈ args, Writable x) → (∀ x ∈ below, Writable x) → Run cfg s l (.ended w) → ∀ x, Shown l w x → Writable x := by
    intro m rest s l w below args op hs hc hw ih hy ha hb hr
    obtain ⟨t, n1, n2, n3⟩ := yields_next hs hy
    obtain ⟨y, rfl, hr'⟩ := (run_more n1 _ _).mp hr
    have t5 : t.callers = [] := by
      have : t.callers.map left = s.callers.map left := congrArg State.callers n2
      simpa [hc] using this
    have t1 : t.width = newWidth s.width below := congrArg State.width n2
    have := ih n3 (congrArg State.code n2) t5 (congrArg State.stack n2) (congrArg State.stems n2) (fun x hx => by
      rw [t1] at hx
      cases hsw : s.width with
      | some v => rw [hsw] at hx; exact hw x (by rw [hsw]; exact hx)
      | none =>
        rw [hsw] at hx
        exact hb x (List.mem_of_getLast? (by simpa [newWidth] using hx))) hr'
    rintro x (⟨o, ho, hx⟩ | hx)
    · rcases List.mem_cons.mp ho with rfl | ho
      · exact ha x hx
      · exact this x (.inl ⟨o, ho, hx⟩)
    · exact this x (.inr hx)
  induction hf with
  | @endchar n xs bs h =>
    intro s l w hs hl hc hst hn hw hr
    rcases endchar_cases (cfg := cfg) (rest := []) hs ⟨bs, h, by rw [hl]; simp⟩ with ⟨-, t, hn, -, -, -, ht⟩ | ⟨hn, -⟩
    · obtain ⟨rfl, he⟩ := run_unique hr (.ended hn)
      cases he
      rintro x (⟨o, ho, -⟩ | hx)
      · simp at ho
      · rw [ht, hst, List.nil_append] at hx
        cases hsw : s.width with
        | some v => rw [hsw] at hx; exact hw x (by rw [hsw]; exact hx)
        | none => rw [hsw] at hx; exact writable_seq h x (List.mem_of_getLast? (by simpa using hx))
    · exact absurd (by simp [hc]) hn
  | @path n op xs bs rest hop h _ ih =>
    intro s l w hs hl hc hst hn hw hr
    have he := step_fetch (cfg := cfg) h hl
    rcases dispatch_path hop cfg (adv s xs (bs ++ bytes op).length) with ⟨b, a, h1, h2⟩ | ⟨h1, h2⟩
    · have h1 : Longest op (s.stack ++ xs) b a := h1
      have hp := seq_pushes (rest := bytes op ++ rest) h (view s) (by rw [← List.append_assoc]; exact hl)
      have hem := Emit.path (σ := { view s with code := bytes op ++ rest, stack := s.stack ++ xs }) hop rfl h1
      have hall := writable_seq h
      rw [hst, List.nil_append] at h1
      rw [h1.1] at hall
      refine more (op := op) (below := b) (args := a) hs hc hw (ih) ⟨_, _, .refl, hp, ?_⟩ (fun x hx => hall x (by simp [hx]))
        (fun x hx => hall x (by simp [hx])) hr
      subst hn
      exact hem
    · rw [h2] at he
      have := run_unique hr (.failed ((next_err he).mpr ⟨rfl, rfl⟩) (by simp))
      exact absurd this.2 (by simp)
  | @stem n op xs bs rest hop h _ ih =>
    intro s l w hs hl hc hst hn hw hr
    have he := step_fetch (cfg := cfg) h hl
    rcases dispatch_stem hop cfg (adv s xs (bs ++ bytes op).length) with ⟨b, a, h1, h2⟩ | ⟨h1, h2⟩
    · have h1 : Longest op (s.stack ++ xs) b a := h1
      have hp := seq_pushes (rest := bytes op ++ rest) h (view s) (by rw [← List.append_assoc]; exact hl)
      have hem := Emit.stem (σ := { view s with code := bytes op ++ rest, stack := s.stack ++ xs }) hop rfl h1
      have hall := writable_seq h
      rw [hst, List.nil_append] at h1
      rw [h1.1] at hall
      refine more (op := op) (below := b) (args := a) hs hc hw (ih) ⟨_, _, .refl, hp, ?_⟩ (fun x hx => hall x (by simp [hx]))
        (fun x hx => hall x (by simp [hx])) hr
      subst hn
      have e : (s.stack ++ xs).length / 2 = xs.length / 2 := by rw [hst, List.nil_append]
      simp only [e] at hem
      exact hem
    · rw [h2] at he
      have := run_unique hr (.failed ((next_err he).mpr ⟨rfl, rfl⟩) (by simp))
      exact absurd this.2 (by simp)
  | @mask n op xs bs mask rest hop h hm _ ih =>
    intro s l w hs hl hc hst hn hw hr
    have hp := seq_pushes (rest := bytes op ++ mask ++ rest) h (view s) (by
      have h0 : (view s).code = bs ++ bytes op ++ mask ++ rest := hl
      rw [h0]; simp only [List.append_assoc])
    have hem := Emit.mask (σ := { view s with code := bytes op ++ mask ++ rest, stack := s.stack ++ xs }) (mask := mask) hop rfl
      (by subst hn; rw [hst, List.nil_append]; exact hm)
    refine more (op := op) (args := []) (below := xs) hs hc hw (ih) ⟨_, _, .refl, hp, ?_⟩ (by simp) (writable_seq h) hr
    subst hn
    have e : s.stack ++ xs = xs := by rw [hst, List.nil_append]
    simp only [e] at hem
    have e' : (view s).stack ++ xs = xs := e
    rw [e']
    exact hem

/-- **C64.**  And only then: a flat character string shows no other numbers. -/
theorem C64_only {cfg : Config} {bs : List UInt8} (hf : Flat 0 bs) {global «local» : List (List UInt8)}
    (h1 : bs.length < 2 ^ 63) (h2 : ∀ c ∈ global ++ «local», c.length < 2 ^ 63)
    (h3 : global.length ≤ 2 ^ 31 ∧ «local».length ≤ 2 ^ 31) {l : List Observation} {w : Option F32}
    (h : Run cfg (Program.new bs global «local») l (.ended w)) : ∀ x, Shown l w x → Writable x :=
  flat_writable hf (sound_new h1 h2 h3) rfl rfl rfl rfl (by simp [Program.new]) h

/-- **C64.**  A program that runs to its end has a flat equivalent if and only if all the
numbers it shows can be written. -/
theorem C64_iff {cfg : Config} {code : List UInt8} {global «local» : List (List UInt8)} (h1 : code.length < 2 ^ 63)
    (h2 : ∀ c ∈ global ++ «local», c.length < 2 ^ 63) (h3 : global.length ≤ 2 ^ 31 ∧ «local».length ≤ 2 ^ 31)
    {l : List Observation} {w : Option F32} (h : Run cfg (Program.new code global «local») l (.ended w))
    (hsize : (l.map bulk).sum + 6 < 2 ^ 63) :
    (∃ bs, Flat 0 bs ∧ bs.length < 2 ^ 63 ∧ Run cfg (Program.new bs [] []) l (.ended w)) ↔ ∀ x, Shown l w x → Writable x := by
  constructor
  · rintro ⟨bs, g1, g2, g3⟩
    exact C64_only g1 g2 (by simp) (by simp) g3
  · intro hx
    obtain ⟨bs, g1, g2, g3⟩ := C64_flatten (sound_new h1 h2 h3) rfl rfl h hx hsize
    exact ⟨bs, g1, by omega, g3 cfg [] [] (by simp) (by simp)⟩

/-- Neither the code nor the subroutines have the byte that introduces arithmetic, and
all operands can be written. -/
def Simple (σ : State) : Prop :=
  (∀ c ∈ σ.code :: (σ.callers ++ σ.global ++ σ.local), (12 : UInt8) ∉ c) ∧ (∀ x ∈ σ.stack, Writable x) ∧
  ∀ x, σ.width = some x → Writable x

theorem simple_push {σ τ : State} (h : Push σ τ) (hs : Simple σ) : Simple τ := by
  obtain ⟨x, bs, rest, ho, hc, rfl⟩ := h
  obtain ⟨h1, h2, h3⟩ := hs
  refine ⟨fun c hm => ?_, fun y hy => ?_, h3⟩
  · rcases List.mem_cons.mp hm with rfl | hm
    · have := h1 σ.code (by simp)
      rw [hc] at this
      exact fun h => this (by simp [h])
    · exact h1 c (List.mem_cons_of_mem _ hm)
  · rcases List.mem_append.mp hy with hy | hy
    · exact h2 y hy
    · rw [List.mem_singleton.mp hy]; exact ⟨_, ho⟩

theorem simple_pushes {σ τ : State} (h : Pushes σ τ) (hs : Simple σ) : Simple τ := by
  induction h with
  | refl => exact hs
  | tail _ h ih => exact simple_push h ih

theorem stackOp_escape {c : Bool} {op : Operator} {st st' : List F32} (h : StackOp c op st st') : (12 : UInt8) ∈ bytes op := by
  cases h <;> decide

theorem simple_quiet {c : Bool} {σ τ : State} (h : Quiet c σ τ) (hs : Simple σ) : Simple τ := by
  obtain ⟨h1, h2, h3⟩ := hs
  have hcode := h1 σ.code (by simp)
  cases h with
  | stack hc ho => rw [hc] at hcode; exact absurd (List.mem_append_left _ (stackOp_escape ho)) hcode
  | callLocal hc hst _ _ hb =>
    rw [hc] at hcode
    refine ⟨fun d hm => ?_, fun x hx => h2 x (by rw [hst]; simp [hx]), h3⟩
    simp only [List.mem_cons, List.mem_append] at hm
    rcases hm with rfl | ((rfl | hm) | hm) | hm
    · exact h1 _ (by simp [List.mem_of_getElem? hb])
    · exact fun h => hcode (by simp [h])
    · exact h1 _ (by simp [hm])
    · exact h1 _ (by simp [hm])
    · exact h1 _ (by simp [hm])
  | callGlobal hc hst _ _ hb =>
    rw [hc] at hcode
    refine ⟨fun d hm => ?_, fun x hx => h2 x (by rw [hst]; simp [hx]), h3⟩
    simp only [List.mem_cons, List.mem_append] at hm
    rcases hm with rfl | ((rfl | hm) | hm) | hm
    · exact h1 _ (by simp [List.mem_of_getElem? hb])
    · exact fun h => hcode (by simp [h])
    · exact h1 _ (by simp [hm])
    · exact h1 _ (by simp [hm])
    · exact h1 _ (by simp [hm])
  | «return» hc hk =>
    refine ⟨fun d hm => h1 d ?_, h2, h3⟩
    rw [hk]
    simp only [List.mem_cons, List.mem_append] at hm ⊢
    tauto

theorem simple_turns {c : Bool} {σ τ : State} (h : Turns c σ τ) (hs : Simple σ) : Simple τ := by
  induction h with
  | refl => exact hs
  | tail _ h ih =>
    obtain ⟨υ, hp, hq⟩ := h
    exact simple_quiet hq (simple_pushes hp ih)

theorem writable_newWidth {width : Option F32} {below : List F32} (h1 : ∀ x, width = some x → Writable x)
    (h2 : ∀ x ∈ below, Writable x) : ∀ x, newWidth width below = some x → Writable x := by
  intro x hx
  cases width with
  | some w => exact h1 x hx
  | none => exact h2 x (List.mem_of_getLast? (by simpa [newWidth] using hx))

theorem simple_emit {σ τ : State} {o : Operation} (h : Emit σ o τ) (hs : Simple σ) :
    Simple τ ∧ ∀ x ∈ o.2, Writable x := by
  obtain ⟨h1, h2, h3⟩ := hs
  have hcode := h1 σ.code (by simp)
  have hcodes : ∀ rest : List UInt8, (∃ a, σ.code = a ++ rest) →
      ∀ c ∈ rest :: (σ.callers ++ σ.global ++ σ.local), (12 : UInt8) ∉ c := by
    rintro rest ⟨a, ha⟩ c hm
    rcases List.mem_cons.mp hm with rfl | hm
    · rw [ha] at hcode
      exact fun h => hcode (by simp [h])
    · exact h1 c (List.mem_cons_of_mem _ hm)
  cases h with
  | path _ hc hl =>
    rw [hl.1] at h2
    exact ⟨⟨hcodes _ ⟨_, hc⟩, by simp, writable_newWidth h3 fun x hx => h2 x (by simp [hx])⟩, fun x hx => h2 x (by simp [hx])⟩
  | stem _ hc hl =>
    have h2' := h2
    rw [hl.1] at h2'
    exact ⟨⟨hcodes _ ⟨_, hc⟩, by simp, writable_newWidth h3 fun x hx => h2' x (by simp [hx])⟩, fun x hx => h2' x (by simp [hx])⟩
  | mask _ hc _ => exact ⟨⟨hcodes _ ⟨_, hc⟩, by simp, writable_newWidth h3 h2⟩, by simp⟩

theorem simple_run {cfg : Config} {s : Program} {l : List Observation} {out : Outcome} (h : Run cfg s l out) :
    ∀ {w : Option F32}, out = .ended w → Sound s → Simple (view s) → ∀ x, Shown l w x → Writable x := by
  induction h with
  | failed => intro w hw; cases hw
  | @ended s t h =>
    intro w hw hs hx
    cases hw
    rintro x (⟨o, ho, -⟩ | hm)
    · simp at ho
    · obtain ⟨⟨τ, ht, ⟨-, h⟩ | ⟨υ, hp, h⟩⟩, -⟩ := next_ends hs h
      · have hτ := simple_turns ht hx
        rw [← h] at hτ
        exact hτ.2.2 x hm
      · have hυ := simple_pushes hp (simple_turns ht hx)
        generalize hv : view t = σ at h
        have ht : t.width = σ.width := congrArg State.width hv
        rw [ht] at hm
        cases h with
        | endchar => exact writable_newWidth hυ.2.2 hυ.2.1 x hm
  | @more s o t l out h h' ih =>
    intro w hw hs hx
    obtain ⟨⟨τ, υ, ht, hp, hem⟩, hst⟩ := next_yields hs h
    obtain ⟨g1, g2⟩ := simple_emit hem (simple_pushes hp (simple_turns ht hx))
    have := ih hw hst g1
    rintro x (⟨o', ho, hm⟩ | hm)
    · rcases List.mem_cons.mp ho with rfl | ho
      · exact g2 x hm
      · exact this x (.inl ⟨o', ho, hm⟩)
    · exact this x (.inr hm)

/-- **C64.**  In particular every glyph that runs to its end and is written without the
escape byte (that is, without arithmetic), however its subroutines are nested, has a
flat equivalent. -/
theorem C64_subroutines {cfg : Config} {code : List UInt8} {global «local» : List (List UInt8)} (h1 : code.length < 2 ^ 63)
    (h2 : ∀ c ∈ global ++ «local», c.length < 2 ^ 63) (h3 : global.length ≤ 2 ^ 31 ∧ «local».length ≤ 2 ^ 31)
    (he : ∀ c ∈ code :: (global ++ «local»), (12 : UInt8) ∉ c)
    {l : List Observation} {w : Option F32} (h : Run cfg (Program.new code global «local») l (.ended w))
    (hsize : (l.map bulk).sum + 6 < 2 ^ 63) :
    ∃ bs, Flat 0 bs ∧ bs.length < 2 ^ 63 ∧ Run cfg (Program.new bs [] []) l (.ended w) :=
  (C64_iff h1 h2 h3 h hsize).mpr (simple_run h rfl (sound_new h1 h2 h3)
    ⟨by simpa [view, Program.new, left, Routine.new] using he, by simp [view, Program.new], by simp [view, Program.new]⟩)

theorem infinity_unwritable : ¬ Writable (F32.inf false) := by
  rintro ⟨bs, h⟩
  rcases operand_iff.mp h with ⟨i, h1, h2⟩ | ⟨i, h1, h2, -, h3⟩
  · have h3 := ofInt_nearest i
    rw [← h2] at h3
    have h4 : (i.natAbs : ℚ) ≤ 2 ^ 16 := by
      have : i.natAbs ≤ 2 ^ 16 := by
        have hb : ∀ b : UInt8, b.toNat < 256 := fun b => b.toNat_lt
        cases h1 with
        | oneByte b0 => omega
        | positive b0 b1 => have := hb b1; omega
        | negative b0 b1 => have := hb b1; omega
        | word => omega
      exact_mod_cast this
    exact absurd (h3.2.trans h4) (by norm_num)
  · have h4 := ofFixed_nearest i
    rw [← h3] at h4
    have h5 : (i.natAbs : ℚ) / 2 ^ 16 ≤ 2 ^ 31 := by
      rw [div_le_iff₀ (by norm_num)]
      have : i.natAbs ≤ 2 ^ 31 * 2 ^ 16 := by omega
      exact_mod_cast this
    exact absurd (h4.2.trans h5) (by norm_num)

theorem run_cons {cfg : Config} {s t : Program} {o : Operation} {w : Option F32} {n : Nat} {l : List Observation}
    {out : Outcome} (h : Next cfg s (.ok (some o)) t) (ht : t.width = w ∧ t.stems = n) (hr : Run cfg t l out) :
    Run cfg s ((o, w, n) :: l) out := by
  obtain ⟨rfl, rfl⟩ := ht
  exact .more h hr

theorem run_nil {cfg : Config} {s t : Program} {w : Option F32} (h : Next cfg s (.ok none) t) (ht : t.width = w) :
    Run cfg s [] (.ended w) := by
  subst ht
  exact .ended h

/-- `1 0 div hmoveto endchar` -/
def toInfinity : Program := Program.new [140, 139, 12, 12, 22, 14] [] []

/-- **C64.**  The condition matters: `1 0 div hmoveto endchar` moves to infinity, and has
no flat equivalent. -/
theorem C64_not_always : ∃ (s : Program) (l : List Observation) (w : Option F32), Run release s l (.ended w) ∧
    ¬ ∃ bs, Flat 0 bs ∧ bs.length < 2 ^ 63 ∧ Run release (Program.new bs [] []) l (.ended w) := by
  refine ⟨toInfinity, [((.opHMoveTo, [F32.inf false]), none, 0)], none,
    run_cons (t := after release toInfinity) ⟨100, by decide +kernel⟩ (by decide +kernel)
      (run_nil (t := after release (after release toInfinity)) ⟨100, by decide +kernel⟩ (by decide +kernel)), ?_⟩
  rintro ⟨bs, h1, h2, h3⟩
  exact infinity_unwritable (C64_only h1 h2 (by simp) (by simp) h3 _ (.inl ⟨_, List.mem_cons_self, List.mem_cons_self⟩))

/-- `-107 callsubr 3 4 add hmoveto endchar`, where the subroutine is `50 10 20 rmoveto return`:
it runs to its end, and the numbers can be written. -/
def sampleCall : Program := Program.new [32, 10, 142, 143, 12, 10, 22, 14] [] [[189, 149, 159, 21, 11]]

example : ∃ l, Run release sampleCall l
    (.ended (some (F32.ofInt 50))) ∧ l.length = 2 ∧ (∀ x, Shown l (some (F32.ofInt 50)) x → Writable x) ∧
    (l.map bulk).sum + 6 < 2 ^ 63 := by
  refine ⟨[((.opRMoveTo, [F32.ofInt 10, F32.ofInt 20]), some (F32.ofInt 50), 0),
    ((.opHMoveTo, [F32.ofInt 7]), some (F32.ofInt 50), 0)],
    run_cons (t := after release sampleCall) ⟨100, by decide +kernel⟩ (by decide +kernel)
      (run_cons (t := after release (after release sampleCall)) ⟨100, by decide +kernel⟩ (by decide +kernel)
        (run_nil (t := after release (after release (after release sampleCall))) ⟨100, by decide +kernel⟩ (by decide +kernel))),
    rfl, ?_, by decide⟩
  have h7 : Writable (F32.ofInt 7) := ⟨_, operand_byte 146 (by decide) (by decide)⟩
  have h10 : Writable (F32.ofInt 10) := ⟨_, operand_byte 149 (by decide) (by decide)⟩
  have h20 : Writable (F32.ofInt 20) := ⟨_, operand_byte 159 (by decide) (by decide)⟩
  have h50 : Writable (F32.ofInt 50) := ⟨_, operand_byte 189 (by decide) (by decide)⟩
  rintro x (⟨o, ho, hx⟩ | hx)
  · simp only [List.mem_cons, List.not_mem_nil, or_false] at ho
    rcases ho with rfl | rfl
    · simp only [List.mem_cons, List.not_mem_nil, or_false] at hx
      rcases hx with rfl | rfl
      · exact h10
      · exact h20
    · simp only [List.mem_cons, List.not_mem_nil, or_false] at hx
      rw [hx]; exact h7
  · cases hx; exact h50

/-- `10 20 rmoveto endchar` is flat, so that all it shows can be written. -/
example (cfg : Config) (l : List Observation) (w : Option F32)
    (h : Run cfg (Program.new [149, 159, 21, 14] [] []) l (.ended w)) : ∀ x, Shown l w x → Writable x := by
  have h10 : Operand (F32.ofInt 10) [149] := operand_byte 149 (by decide) (by decide)
  have h20 : Operand (F32.ofInt 20) [159] := operand_byte 159 (by decide) (by decide)
  refine C64_only (bs := [149, 159, 21, 14]) ?_ (by decide) (by decide) (by decide) h
  exact .path (op := .opRMoveTo) (rest := [14]) (bs := [149, 159]) (by decide)
    (.cons (b := [149]) (bs := [159]) h10 (.cons (b := [159]) (bs := []) h20 .nil)) (.endchar (bs := []) .nil)

/-- A program without escapes, and with a subroutine: it has a flat equivalent. -/
example : ∃ l, Run release (Program.new [32, 10, 14] [] [[149, 22, 11]]) l (.ended none) ∧
    ∃ bs, Flat 0 bs ∧ bs.length < 2 ^ 63 ∧ Run release (Program.new bs [] []) l (.ended none) := by
  have h : Run release (Program.new [32, 10, 14] [] [[149, 22, 11]]) [((.opHMoveTo, [F32.ofInt 10]), none, 0)] (.ended none) :=
    run_cons (t := after release (Program.new [32, 10, 14] [] [[149, 22, 11]])) ⟨100, by decide +kernel⟩ (by decide +kernel)
      (run_nil (t := after release (after release (Program.new [32, 10, 14] [] [[149, 22, 11]]))) ⟨100, by decide +kernel⟩
        (by decide +kernel))
  exact ⟨_, h, C64_subroutines (by decide) (by decide) (by decide) (by decide) h (by decide)⟩

end PS.Type2
