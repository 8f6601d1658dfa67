import Verif.Lemmas.Words
/-!
# Lemmas: programs whose number of stem hints wraps around
-/
namespace PS.Type2
open PS.Spec hiding Operand Operation
open PS.Type2.Spec

namespace Words

/-! ## What does not look at the number of stem hints -/

/-- The number of stem hints is neither used nor changed. -/
def Blind (m : PM α) : Prop := ∀ (cfg : Config) (s : Program) (n : Nat),
  m cfg { s with stems := n } = ((m cfg s).1, { (m cfg s).2 with stems := n })

theorem Blind.pure (a : α) : Blind (PM.pure a) := fun _ _ _ => rfl

theorem Blind.raise (r : Reason) : Blind (PM.raise r : PM α) := fun _ _ _ => rfl

theorem Blind.panic (x : Panic) : Blind (PM.panic x : PM α) := fun _ _ _ => rfl

theorem Blind.cfg : Blind PM.cfg := fun _ _ _ => rfl

theorem Blind.ofRes (r : Res α) : Blind (PM.ofRes r) := fun _ _ _ => rfl

theorem Blind.tape (m : Rd α) : Blind (PM.tape m) := fun _ _ _ => rfl

theorem Blind.modify {f : Program → Program} (h : ∀ s n, f { s with stems := n } = { f s with stems := n }) :
    Blind (PM.modify f) := fun _ s n => by
  show (Res.ok (), f { s with stems := n }) = _
  rw [h]
  rfl

theorem Blind.bind {m : PM α} {f : α → PM β} (hm : Blind m) (hf : ∀ a, Blind (f a)) : Blind (m >>= f) := fun cfg s n => by
  have h := hm cfg s n
  rcases e : m cfg s with ⟨a | x | x, t⟩ <;> rw [e] at h
  · rw [PM.bind_of_ok h, PM.bind_of_ok e]; exact hf a cfg t n
  · rw [PM.bind_of_err h, PM.bind_of_err e]
  · rw [PM.bind_of_panic h, PM.bind_of_panic e]

theorem Blind.get {f : Program → PM β} (hf : ∀ s, Blind (f s)) (h : ∀ s n, f { s with stems := n } = f s) :
    Blind (PM.get >>= f) := fun cfg s n => by
  rw [PM.bind_of_ok (a := { s with stems := n }) (s' := { s with stems := n }) rfl, PM.bind_of_ok (a := s) (s' := s) rfl, h]
  exact hf s cfg s n

theorem Blind.stems {m : PM α} (h : Blind m) (cfg : Config) (s : Program) : (m cfg s).2.stems = s.stems := by
  have := h cfg s s.stems
  exact congrArg (fun q => q.2.stems) this

theorem blind_push (x : F32) : Blind (Type2.push x) := .modify fun _ _ => rfl

theorem blind_pushBool (b : Bool) : Blind (pushBool b) := blind_push _

theorem blind_pop : Blind pop := by
  refine .get (fun s => ?_) fun _ _ => rfl
  try dsimp only
  split
  · exact .bind (.modify fun _ _ => rfl) fun _ => .pure _
  · exact .raise _

theorem blind_popBool : Blind popBool := .bind blind_pop fun _ => .pure _

theorem blind_popInt : Blind popInt := by
  refine .get (fun s => ?_) fun _ _ => rfl
  try dsimp only
  split
  · refine .bind (.modify fun _ _ => rfl) fun _ => ?_
    split
    · exact .pure _
    · exact .raise _
  · exact .raise _

theorem blind_readStack (i : Nat) : Blind (readStack i) := by
  refine .get (fun s => ?_) fun _ _ => rfl
  try dsimp only
  split
  · exact .raise _
  · split
    · exact .pure _
    · exact .panic _

theorem blind_takeOperands : ∀ fuel, Blind (Type2.takeOperands fuel)
  | 0 => .panic _
  | fuel + 1 => by
    refine .bind (.tape _) fun _ => ?_
    try dsimp only
    split
    · exact .bind (.tape _) fun _ => .bind (blind_push _) fun _ => blind_takeOperands fuel
    · exact .pure _

theorem blind_takeOperator (c : UInt8) : Blind (takeOperator c) := by
  unfold takeOperator
  split <;> exact .bind (.tape _) fun _ => .ofRes _

theorem blind_clear (op : Operator) (ps : List (List Pred)) : Blind (clear op ps) := by
  refine .get (fun s => ?_) fun _ _ => rfl
  try dsimp only
  split
  · exact .raise _
  · refine .bind (.modify fun _ _ => rfl) fun _ => .bind ?_ fun _ => .pure _
    split
    · split
      · exact .modify fun _ _ => rfl
      · exact .panic _
    · exact .pure _

theorem blind_times {m : PM Unit} (h : Blind m) : ∀ n, Blind (times n m)
  | 0 => .pure _
  | n + 1 => .bind h fun _ => blind_times h n

theorem blind_rollUp (p : Nat) : Blind (rollUp p) := by
  refine .bind blind_pop fun _ => .get (fun s => ?_) fun _ _ => rfl
  try dsimp only
  split
  · exact .modify fun _ _ => rfl
  · exact .panic _

theorem blind_rollDown (p : Nat) : Blind (rollDown p) := by
  refine .get (fun s => ?_) fun _ _ => rfl
  try dsimp only
  split
  · exact .bind (.modify fun _ _ => rfl) fun _ => blind_push _
  · exact .panic _

theorem blind_roll : Blind roll := by
  refine .bind blind_popInt fun _ => .bind blind_popInt fun _ => .get (fun s => ?_) fun _ _ => rfl
  try dsimp only
  split
  · exact .raise _
  split
  · exact .raise _
  split
  · split
    · exact blind_times (blind_rollUp _) _
    · split
      · exact .bind .cfg fun _ => .bind (.ofRes _) fun _ => blind_times (blind_rollDown _) _
      · exact .pure _
  · exact .pure _

theorem blind_call {f : Program → List (List UInt8)} (h : ∀ s n, f { s with stems := n } = f s) : Blind (call f) := by
  refine .bind blind_popInt fun _ => .get (fun s => .bind .cfg fun _ => .bind (.ofRes _) fun _ => ?_) fun s n => ?_
  · try dsimp only
    split
    · exact .raise _
    · split
      · exact .modify fun _ _ => rfl
      · exact .panic _
  · simp only [h]

/-- Only the hint operators look at it. -/
theorem blind_dispatch {op : Operator} (h1 : ¬ Stem op) (h2 : ¬ Mask op) : Blind (Type2.dispatch op) := by
  cases op <;> first
    | exact absurd (by decide) h1
    | exact absurd (by decide) h2
    | exact blind_clear _ _
    | exact .raise _
    | exact .bind blind_pop fun _ => .bind (blind_push _) fun _ => .pure _
    | exact .bind blind_pop fun _ => .bind blind_pop fun _ => .bind (blind_push _) fun _ => .pure _
    | exact .bind blind_pop fun _ => .pure _
    | exact .bind blind_pop fun _ => .bind blind_pop fun _ => .bind (blind_push _) fun _ => .bind (blind_push _) fun _ => .pure _
    | exact .bind blind_popInt fun _ => .bind (blind_readStack _) fun _ => .bind (blind_push _) fun _ => .pure _
    | exact .bind blind_roll fun _ => .pure _
    | exact .bind (blind_readStack _) fun _ => .bind (blind_push _) fun _ => .pure _
    | exact .bind blind_popBool fun _ => .bind blind_popBool fun _ => .bind (blind_pushBool _) fun _ => .pure _
    | exact .bind blind_popBool fun _ => .bind (blind_pushBool _) fun _ => .pure _
    | exact .bind blind_pop fun _ => .bind blind_pop fun _ => .bind (blind_pushBool _) fun _ => .pure _
    | exact .bind blind_pop fun _ => .bind blind_pop fun _ => .bind blind_pop fun _ => .bind blind_pop fun _ =>
        .bind (blind_push _) fun _ => .pure _
    | exact .bind (blind_call fun _ _ => rfl) fun _ => .pure _
    | skip
  · refine .get (fun s => ?_) fun _ _ => rfl
    try dsimp only
    split
    · exact .bind (.modify fun _ _ => rfl) fun _ => .pure _
    · exact .raise _
  · refine .get (fun s => ?_) fun _ _ => rfl
    refine .bind (.modify fun _ _ => rfl) fun _ => .bind (.ofRes _) fun _ => .bind ?_ fun _ => .pure _
    split
    · exact .modify fun _ _ => rfl
    · exact .pure _

/-! ## The number of stem hints as a word -/

/-- The same program, with the number of stem hints as a word of `bits` bits. -/
def wrap (bits : Nat) (s : Program) : Program := { s with stems := s.stems % 2 ^ bits }

variable {bits : Nat} {cfg : Config}

theorem Blind.wrap {m : PM α} (h : Blind m) (s : Program) : m cfg (wrap bits s) = ((m cfg s).1, wrap bits (m cfg s).2) := by
  rw [Words.wrap, h cfg s, Words.wrap, h.stems]

theorem countStems_wrap (hc : cfg.checks = false) (s : Program) :
    countStems bits cfg (wrap bits s) = (.ok (), wrap bits { s with stems := s.stems + s.stack.length / 2 }) := by
  unfold countStems
  rw [PM.bind_of_ok (a := cfg) (s' := wrap bits s) rfl, PM.bind_of_ok (a := wrap bits s) (s' := wrap bits s) rfl]
  rw [PM.bind_of_ok (a := (s.stems + s.stack.length / 2) % 2 ^ bits) (s' := wrap bits s)]
  · rfl
  · simp only [PM.ofRes, addWord, hc, wrap, Bool.false_eq_true, if_false, Nat.mod_add_mod]
    split
    · next h => rw [← Nat.mod_add_mod, Nat.mod_eq_of_lt h]
    · rfl

/-- No operand and no `dup` ahead finds the stack full, and no mask ahead finds the number of
stem hints in excess. -/
def Ready (bits : Nat) (σ : State) : Prop := ∀ υ, Pushes σ υ → ¬ Exceeds bits υ .capacity ∧
  ∀ op rest, Mask op → υ.code = bytes op ++ rest → υ.stems + υ.stack.length / 2 + 7 < 2 ^ bits

theorem dispatch_wrap (hb : bits ≤ 64) (hc : cfg.checks = false) {op : Operator} {t : Program}
    (h : Ready bits (before op t)) :
    dispatch bits op cfg (wrap bits t) = ((Type2.dispatch op cfg t).1, wrap bits (Type2.dispatch op cfg t).2) := by
  by_cases h1 : Stem op
  · have key : (do countStems bits; clear op [[.equal 2, .maybeModulo 2]] : PM Flow) cfg (wrap bits t) =
        (((do Type2.countStems; clear op [[.equal 2, .maybeModulo 2]] : PM Flow) cfg t).1,
          wrap bits ((do Type2.countStems; clear op [[.equal 2, .maybeModulo 2]] : PM Flow) cfg t).2) := by
      rw [PM.bind_of_ok (countStems_wrap hc t),
        PM.bind_of_ok (a := ()) (s' := { t with stems := t.stems + t.stack.length / 2 }) rfl]
      exact (blind_clear _ _).wrap _
    simp only [Stem, List.mem_cons, List.not_mem_nil, or_false] at h1
    rcases h1 with rfl | rfl | rfl | rfl <;> exact key
  by_cases h2 : Mask op
  · have hl := (h _ .refl).2 op _ h2 rfl
    have hl : t.stems + t.stack.length / 2 + 7 < 2 ^ bits := hl
    have e : wrap bits t = t := by
      rw [wrap, Nat.mod_eq_of_lt (by omega)]
    rw [e, mask_room hb h2 hl]
    have e2 : (Type2.dispatch op cfg t).2.stems = t.stems + t.stack.length / 2 := by
      have key : ((do
          Type2.countStems
          let s ← PM.get
          let _ ← PM.tape (Rd.bytes ((s.stems + 7) / 8))
          clear op [[.equal 0]] : PM Flow) cfg t).2.stems = t.stems + t.stack.length / 2 := by
        rw [PM.bind_of_ok (a := ()) (s' := { t with stems := t.stems + t.stack.length / 2 }) rfl, PM.bind_of_ok rfl]
        exact (Blind.bind (.tape _) fun _ => blind_clear _ _).stems _ _
      simp only [Mask, List.mem_cons, List.not_mem_nil, or_false] at h2
      rcases h2 with rfl | rfl <;> exact key
    refine Prod.ext rfl ?_
    show _ = { (Type2.dispatch op cfg t).2 with stems := (Type2.dispatch op cfg t).2.stems % 2 ^ bits }
    rw [Nat.mod_eq_of_lt (by omega)]
  by_cases h3 : op = .opDup
  · subst h3
    rw [dup_room (by
      by_contra hn
      exact (h _ .refl).1 (.dup rfl (Nat.not_lt.mp hn)))]
    exact (blind_dispatch h1 h2).wrap _
  · have e : dispatch bits op = Type2.dispatch op := by
      cases op <;> first | rfl | exact absurd (by decide) h1 | exact absurd (by decide) h2 | exact absurd rfl h3
    rw [e]
    exact (blind_dispatch h1 h2).wrap _

theorem step_wrap {s : Program} (hs : Sound s) (hb : bits ≤ 64) (hc : cfg.checks = false) (h : Ready bits (view s)) :
    step bits cfg (wrap bits s) = ((Type2.step cfg s).1, wrap bits (Type2.step cfg s).2) := by
  rcases hd : s.routine.done with _ | _
  · have hroom : Room bits (view (wrap bits s)) := by
      intro υ x bs rest hp hx hcd
      obtain ⟨xs, cs, h1, h2, h3⟩ := pushes_iff.mp hp
      by_contra hn
      refine (h { view s with code := υ.code, stack := s.stack ++ xs } (pushes_iff.mpr ⟨xs, cs, h1, h2, rfl⟩)).1
        (.operand hx hcd ?_)
      rw [h3] at hn
      exact Nat.not_lt.mp hn
    rw [step_room (s := wrap bits s) hd hroom]
    unfold Type2.step
    rw [PM.bind_of_ok (m := PM.get) (a := s) (s' := s) rfl, hd]
    simp only [Bool.false_eq_true, if_false]
    have h1 := (blind_takeOperands (s.routine.code.length + 1)).wrap (cfg := cfg) (bits := bits) s
    rcases hr : Type2.takeOperands (s.routine.code.length + 1) cfg s with ⟨c | e | x, s2⟩
    · rw [hr] at h1
      rw [PM.bind_of_ok hr, PM.bind_of_ok (m := Type2.takeOperands ((wrap bits s).routine.code.length + 1)) h1]
      obtain ⟨xs, bs, l, g1, h2, rfl⟩ := takeOperands_ok _ hr
      have h5 := (blind_takeOperator c).wrap (cfg := cfg) (bits := bits) (adv s xs bs.length)
      rcases ho : takeOperator c cfg (adv s xs bs.length) with ⟨op | e | x, s3⟩
      · rw [ho] at h5
        rw [PM.bind_of_ok ho, PM.bind_of_ok h5]
        obtain ⟨rest, h3, rfl⟩ := takeOperator_ok (left_adv h2 xs) ho
        have h4 : left s.routine = bs ++ bytes op ++ rest := by
          rw [left_adv h2] at h3
          rw [h2, h3, List.append_assoc]
        rw [adv_adv, List.append_nil, ← List.length_append]
        refine dispatch_wrap hb hc ?_
        intro υ hp
        refine h υ (Relation.ReflTransGen.trans ?_ hp)
        rw [(fetched hs g1 h4).2]
        exact pushes_iff.mpr ⟨xs, bs, g1, by simp [view, h4], rfl⟩
      · rw [ho] at h5
        rw [PM.bind_of_err ho, PM.bind_of_err h5]
      · rw [ho] at h5
        rw [PM.bind_of_panic ho, PM.bind_of_panic h5]
    · rw [hr] at h1
      rw [PM.bind_of_err hr, PM.bind_of_err (m := Type2.takeOperands ((wrap bits s).routine.code.length + 1)) h1]
    · rw [hr] at h1
      rw [PM.bind_of_panic hr, PM.bind_of_panic (m := Type2.takeOperands ((wrap bits s).routine.code.length + 1)) h1]
  · unfold step Type2.step
    rw [PM.bind_of_ok (a := wrap bits s) (s' := wrap bits s) rfl, show (wrap bits s).routine.done = true from hd]
    rw [PM.bind_of_ok (m := PM.get) (a := s) (s' := s) rfl, hd]
    rfl

theorem nextFuel_wrap (hb : bits ≤ 64) (hc : cfg.checks = false) : ∀ (fuel : Nat) {s : Program}, Sound s →
    (∀ τ, Turns cfg.checks (view s) τ → Ready bits τ) →
    nextFuel bits fuel cfg (wrap bits s) = (Type2.nextFuel fuel cfg s).map fun q => (q.1, wrap bits q.2) := by
  intro fuel
  induction fuel with
  | zero => intro s _ _; rfl
  | succ fuel ih =>
    intro s hs h
    rw [nextFuel, Type2.nextFuel, step_wrap hs hb hc (h _ .refl)]
    rcases hst : Type2.step cfg s with ⟨(o | _) | e | x, s1⟩
    · rfl
    · obtain ⟨ht, hs1⟩ := step_again_turn hs hst
      exact ih hs1 fun τ hτ => h τ (.head ht hτ)
    · rfl
    · rfl

theorem next_wrap (hb : bits ≤ 64) (hc : cfg.checks = false) {s : Program} (hs : Sound s)
    (h : ∀ τ, Turns cfg.checks (view s) τ → Ready bits τ) (r : Res (Option Operation)) (t' : Program) :
    Next bits cfg (wrap bits s) r t' ↔ ∃ t, Type2.Next cfg s r t ∧ t' = wrap bits t := by
  unfold Next Type2.Next
  simp only [nextFuel_wrap hb hc _ hs h, Option.map_eq_some_iff, Prod.mk.injEq]
  constructor
  · rintro ⟨fuel, ⟨r, t⟩, h1, rfl, rfl⟩
    exact ⟨t, ⟨fuel, h1⟩, rfl⟩
  · rintro ⟨t, ⟨fuel, h1⟩, rfl⟩
    exact ⟨fuel, (r, t), h1, rfl, rfl⟩

/-! ## Masks -/

theorem replicate_cases (n : Nat) (s : Program) :
    (n ≤ (left s.routine).length ∧ ∃ a, PM.tape (Rd.replicate n Rd.u8) cfg s = (.ok a, adv s [] n)) ∨
    ((left s.routine).length < n ∧ ∃ s', PM.tape (Rd.replicate n Rd.u8) cfg s = (.err .eof, s')) := by
  by_cases hle : n ≤ (left s.routine).length
  · left
    refine ⟨hle, (left s.routine).take n, ?_⟩
    have hlen : ((left s.routine).take n).length = n := by rw [List.length_take]; omega
    have := tape_of_exact (exact_replicate exact_u8 n) (a := (left s.routine).take n) (bs := (left s.routine).take n)
      (r := (left s.routine).drop n)
      ⟨hlen, by
        have := seq_singleton_iff (f := fun b : UInt8 => b) (as := (left s.routine).take n) (bs := (left s.routine).take n)
        simp only [List.map_id', iff_true] at this
        exact this⟩ cfg (s := s) (by simp)
    rw [this, hlen]
  · right
    refine ⟨by omega, ?_⟩
    rcases hr : Rd.replicate n Rd.u8 { cfg, data := s.routine.code } s.routine.pos with ⟨a | e | x, q⟩
    · exfalso
      obtain ⟨bs, ⟨h1, h2⟩, h3, h4⟩ := (exact_replicate exact_u8 n _ _ _ _).mp hr
      have h5 : bs.length = n := by
        have := seq_singleton_iff (f := fun b : UInt8 => b) (as := a) (bs := bs)
        simp only [List.map_id'] at this
        rw [this] at h2
        rw [h2, h1]
      have := h3.length_le
      rw [h5] at this
      exact hle this
    · have he : e = .eof := Errs.replicate (Errs.u8 (E := fun e => e = .eof) rfl) n _ _ _ _ hr
      subst he
      exact ⟨_, tape_of_err hr⟩
    · exact absurd hr (NoPanic.replicate NoPanic.u8 n _ _ _ _)

theorem addWord_free (hc : cfg.checks = false) (a b : Nat) : addWord bits cfg.checks a b = .ok ((a + b) % 2 ^ bits) := by
  unfold addWord
  split
  · next h => rw [Nat.mod_eq_of_lt h]
  · simp [hc]

theorem mask_free (hc : cfg.checks = false) {op : Operator} (hop : Mask op) {t : Program} {n k : Nat}
    (hn : n = (t.stems + t.stack.length / 2) % 2 ^ bits) (hk : k = (n + 7) % 2 ^ bits / 8) :
    (k ≤ (left t.routine).length ∧ dispatch bits op cfg t = (.ok (.ret (some (op, []))),
      { t with
        routine := { t.routine with pos := t.routine.pos + k }, stack := [], width := newWidth t.width t.stack, stems := n })) ∨
    ((left t.routine).length < k ∧ ∃ s', dispatch bits op cfg t = (.err .eof, s')) := by
  have key : dispatch bits op = (do
      countStems bits
      let c ← PM.cfg
      let s ← PM.get
      let n ← PM.ofRes (addWord bits c.checks s.stems 7)
      let _ ← PM.tape (Rd.replicate (n / 8) Rd.u8)
      clear op [[.equal 0]] : PM Flow) := by
    simp only [Mask, List.mem_cons, List.not_mem_nil, or_false] at hop
    rcases hop with rfl | rfl <;> rfl
  let t1 : Program := { t with stems := n }
  have h0 : countStems bits cfg t = (.ok (), t1) := by
    unfold countStems
    rw [PM.bind_of_ok (a := cfg) (s' := t) rfl, PM.bind_of_ok (a := t) (s' := t) rfl]
    rw [PM.bind_of_ok (a := n) (s' := t) (by rw [addWord_free hc, ← hn]; rfl)]
    rfl
  rw [key, PM.bind_of_ok h0, PM.bind_of_ok (a := cfg) (s' := t1) rfl, PM.bind_of_ok (a := t1) (s' := t1) rfl]
  rw [PM.bind_of_ok (a := (n + 7) % 2 ^ bits) (s' := t1) (by rw [addWord_free hc]; rfl), ← hk]
  rcases replicate_cases (cfg := cfg) k t1 with ⟨h1, a, h2⟩ | ⟨h1, s', h2⟩
  · refine .inl ⟨h1, ?_⟩
    rw [PM.bind_of_ok h2]
    refine (clear_some (below := t.stack) (args := []) (by simp [adv, t1]) (by simp [reduce, adv, t1])).trans ?_
    simp [adv, t1]
  · exact .inr ⟨h1, s', PM.bind_of_err h2⟩

theorem step_mask (hc : cfg.checks = false) {s : Program} (hs : Sound s) (hr : Room bits (view s)) {xs : List F32} {op : Operator}
    {rest : List UInt8} (hop : Mask op) (ha : Ahead s xs op rest) {n k : Nat}
    (hn : n = (s.stems + (s.stack ++ xs).length / 2) % 2 ^ bits) (hk : k = (n + 7) % 2 ^ bits / 8) :
    (k ≤ rest.length ∧ ∃ t, step bits cfg s = (.ok (.ret (some (op, []))), t) ∧ Sound t ∧ view t =
      { view s with code := rest.drop k, stack := [], width := newWidth s.width (s.stack ++ xs), stems := n }) ∨
    (rest.length < k ∧ ∃ s', step bits cfg s = (.err .eof, s')) := by
  obtain ⟨bs, h1, hl⟩ := ha
  have hd : s.routine.done = false := not_done (by rw [hl]; simp [bytes_ne_nil])
  rw [step_room hd hr]
  obtain ⟨c, l, hb1, hb2, hb3⟩ := takeOperator_of (cfg := cfg) (s := adv s xs bs.length)
    (left_adv (by rw [hl, List.append_assoc]) xs)
  have hlen := seq_operand_length h1
  have hlen' := congrArg List.length hl
  rw [left_length] at hlen'
  simp only [List.length_append] at hlen'
  rw [PM.bind_of_ok (takeOperands_of h1 hb2 (l := l ++ rest) (by rw [hl, hb1]; simp) (by omega)), PM.bind_of_ok hb3]
  rw [adv_adv, List.append_nil, ← List.length_append]
  have hleft : left (adv s xs (bs ++ bytes op).length).routine = rest := left_adv hl xs
  obtain ⟨ht, -⟩ := fetched hs h1 hl
  rcases mask_free (bits := bits) hc hop (t := adv s xs (bs ++ bytes op).length) hn hk with ⟨g1, g2⟩ | ⟨g1, s', g2⟩
  · rw [hleft] at g1
    refine .inl ⟨g1, _, g2, ?_, ?_⟩
    · exact sound_with (sound_adv ht (xs := []) (n := k) (by simp) (by rw [hleft]; exact g1)) (st := []) (by simp) n _
    · simp only [view, State.mk.injEq]
      refine ⟨?_, rfl, rfl, rfl, trivial, trivial, rfl⟩
      rw [← hleft]
      simp [left, List.drop_drop]
  · rw [hleft] at g1
    exact .inr ⟨g1, s', g2⟩

end Words
end PS.Type2
