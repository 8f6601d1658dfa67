import Verif.Spec.Source
import Verif.Lemmas.Agree
/-!
# Lemmas: sources that hesitate and fail
-/
namespace PS
open Spec

namespace Source
open Fd hiding pure bind

/-- However the source answers, the reader does as the other one, or reports its failure. -/
def Follow (env : Env) (w : Fd α) (m : Rd α) : Prop :=
  env.cfg.eofPos = (fun p n => max p n) → ∀ p answers,
    Follows (m env p).1 (m env p).2 answers (w env ⟨p, answers⟩).1 (w env ⟨p, answers⟩).2

theorem calm_nil : Calm [] := fun _ h => nomatch h

theorem calm_append {l m : List Answer} (h : Calm l) (h' : Calm m) : Calm (l ++ m) := fun f hf => by
  rcases List.mem_append.mp hf with x | x
  · exact h f x
  · exact h' f x

theorem calm_cons {a : Answer} {l : List Answer} (ha : ∀ f, a ≠ .failure f) (h : Calm l) : Calm (a :: l) := fun f hf => by
  rcases List.mem_cons.mp hf with x | x
  · exact ha f x.symm
  · exact h f x

variable {env : Env}

theorem Follow.still (w : Fd α) (m : Rd α) (r : Res α) (h : ∀ p answers, w env ⟨p, answers⟩ = (.done r, ⟨p, answers⟩))
    (h' : ∀ p, m env p = (r, p)) : Follow env w m := fun _ p answers => by
  rw [h, h']
  exact .inl ⟨[], rfl, calm_nil, rfl, rfl⟩

theorem Follow.pure (a : α) : Follow env (Pure.pure a) (Pure.pure a) := .still _ _ _ (fun _ _ => rfl) fun _ => rfl
theorem Follow.raise (r : Reason) : Follow env (Fd.raise r : Fd α) (Rd.raise r) := .still _ _ _ (fun _ _ => rfl) fun _ => rfl
theorem Follow.panic (r : Panic) : Follow env (Fd.panic r : Fd α) (Rd.panic r) := .still _ _ _ (fun _ _ => rfl) fun _ => rfl
theorem Follow.ofRes (r : Res α) : Follow env (Fd.ofRes r) (Rd.ofRes r) := .still _ _ _ (fun _ _ => rfl) fun _ => rfl
theorem Follow.size : Follow env Fd.size Rd.size := .still _ _ _ (fun _ _ => rfl) fun _ => rfl

theorem Follow.bind {w : Fd α} {m : Rd α} {f : α → Fd β} {g : α → Rd β} (h : Follow env w m) (hf : ∀ a, Follow env (f a) (g a)) :
    Follow env (w >>= f) (m >>= g) := fun he p answers => by
  have h1 := h he p answers
  show Follows (Rd.bind m g env p).1 (Rd.bind m g env p).2 answers (Fd.bind w f env ⟨p, answers⟩).1 (Fd.bind w f env ⟨p, answers⟩).2
  unfold Fd.bind Rd.bind
  rcases e : w env ⟨p, answers⟩ with ⟨o, ⟨q, rest⟩⟩
  rcases e' : m env p with ⟨r, q'⟩
  rw [e, e'] at h1
  rcases h1 with ⟨used, h1, h2, h3, h4⟩ | ⟨used, x, h1, h2, h3⟩ | ⟨used, x, y, h1, h2, h3⟩
  · cases h3
    cases h4
    cases r with
    | err x => exact .inl ⟨used, h1, h2, rfl, rfl⟩
    | panic x => exact .inl ⟨used, h1, h2, rfl, rfl⟩
    | ok a =>
      dsimp only at h1 ⊢
      rw [h1]
      rcases hf a he q rest with ⟨u, k1, k2, k3, k4⟩ | ⟨u, x, k1, k2, k3⟩ | ⟨u, x, y, k1, k2, k3⟩
      · exact .inl ⟨used ++ u, by rw [List.append_assoc, ← k1], calm_append h2 k2, k3, k4⟩
      · exact .inr (.inl ⟨used ++ u, x, by rw [List.append_assoc, ← k1], calm_append h2 k2, k3⟩)
      · exact .inr (.inr ⟨used ++ u, x, y, by rw [List.append_assoc, ← k1], calm_append h2 k2, k3⟩)
  · cases h3
    exact .inr (.inl ⟨used, x, h1, h2, rfl⟩)
  · cases h3
    exact .inr (.inr ⟨used, x, y, h1, h2, rfl⟩)

theorem Follow.cfg {f : Config → Fd β} {g : Config → Rd β} (h : Follow env (f env.cfg) (g env.cfg)) :
    Follow env (Fd.cfg >>= f) (Rd.cfg >>= g) := fun he p => h he p

/-! ## Requests -/

/-- The loop of `read_exact` comes to the same in the end. -/
theorem fill_follows (data : List UInt8) : ∀ (answers : List Answer) (n : Nat) (got : List UInt8) (p : Nat),
    (∃ used, answers = used ++ (fill data n got p answers).2.answers ∧ Calm used ∧
      (fill data n got p answers).1 = .done (if n ≤ data.length - p then .ok (got ++ (data.drop p).take n) else .err .eof) ∧
      (fill data n got p answers).2.position = if n ≤ data.length - p then p + n else max p data.length) ∨
    (∃ used f, answers = used ++ .failure f :: (fill data n got p answers).2.answers ∧ Calm used ∧
      (fill data n got p answers).1 = .failed f)
  | answers, 0, got, p => by
    unfold fill
    refine .inl ⟨[], rfl, calm_nil, ?_, ?_⟩ <;> simp
  | [], n + 1, got, p => by
    unfold fill
    refine .inl ⟨[], ?_, calm_nil, ?_, ?_⟩ <;> simp only [Nat.add_one_ne_zero, if_false] <;> split <;> rfl
  | .failure f :: answers, n + 1, got, p => .inr ⟨[], f, rfl, calm_nil, rfl⟩
  | .interrupted :: answers, n + 1, got, p => by
    rw [show fill data (n + 1) got p (.interrupted :: answers) = fill data (n + 1) got p answers from rfl]
    rcases fill_follows data answers (n + 1) got p with ⟨u, h1, h2, h3⟩ | ⟨u, f, h1, h2, h3⟩
    · exact .inl ⟨.interrupted :: u, by rw [List.cons_append, ← h1], calm_cons (fun _ h => nomatch h) h2, h3⟩
    · exact .inr ⟨.interrupted :: u, f, by rw [List.cons_append, ← h1], calm_cons (fun _ h => nomatch h) h2, h3⟩
  | .upTo k :: answers, n + 1, got, p => by
    have hl : ((data.drop p).take (min (n + 1) (k + 1))).length = min (min (n + 1) (k + 1)) (data.length - p) := by simp
    generalize hc : (data.drop p).take (min (n + 1) (k + 1)) = chunk at hl
    have e : fill data (n + 1) got p (.upTo k :: answers) = if chunk = [] then (.done (.err .eof), ⟨p, answers⟩)
        else fill data (n + 1 - chunk.length) (got ++ chunk) (p + chunk.length) answers := by
      subst hc
      rfl
    rw [e]
    by_cases h0 : chunk = []
    · rw [if_pos h0]
      rw [h0, List.length_nil] at hl
      refine .inl ⟨[.upTo k], rfl, calm_cons (fun _ h => nomatch h) calm_nil, ?_, ?_⟩
      · rw [if_neg (by omega)]
      · rw [if_neg (by omega)]
        dsimp only
        omega
    · rw [if_neg h0]
      have h0' : 0 < chunk.length := List.length_pos_iff.mpr h0
      have hw : got ++ chunk ++ (data.drop (p + chunk.length)).take (n + 1 - chunk.length) = got ++ (data.drop p).take (n + 1) := by
        rw [List.append_assoc]
        congr 1
        have : chunk = (data.drop p).take chunk.length := by
          rw [hl]
          rw [← hc]
          rw [show min (min (n + 1) (k + 1)) (data.length - p) = min (min (n + 1) (k + 1)) (data.drop p).length by simp]
          rw [← List.take_eq_take_min]
        rw [show (data.drop p).take (n + 1) = (data.drop p).take (chunk.length + (n + 1 - chunk.length)) by congr 1; omega]
        rw [List.take_add, ← this, List.drop_drop]
      rcases fill_follows data answers (n + 1 - chunk.length) (got ++ chunk) (p + chunk.length) with ⟨u, h1, h2, h3, h4⟩ | ⟨u, f, h1, h2, h3⟩
      · refine .inl ⟨.upTo k :: u, by rw [List.cons_append, ← h1], calm_cons (fun _ h => nomatch h) h2, ?_, ?_⟩
        · rw [h3, hw]
          by_cases h : n + 1 ≤ data.length - p
          · rw [if_pos h, if_pos (by omega)]
          · rw [if_neg h, if_neg (by omega)]
        · rw [h4]
          by_cases h : n + 1 ≤ data.length - p
          · rw [if_pos h, if_pos (by omega)]
            omega
          · rw [if_neg h, if_neg (by omega)]
            omega
      · exact .inr ⟨.upTo k :: u, f, by rw [List.cons_append, ← h1], calm_cons (fun _ h => nomatch h) h2, h3⟩

/-- Without the seek of a `peek`. -/
def Prompt (env : Env) (w : Fd α) (m : Rd α) : Prop :=
  env.cfg.eofPos = (fun p n => max p n) → ∀ p answers,
    (∃ used, answers = used ++ (w env ⟨p, answers⟩).2.answers ∧ Calm used ∧ (w env ⟨p, answers⟩).1 = .done (m env p).1 ∧
      (w env ⟨p, answers⟩).2.position = (m env p).2) ∨
    (∃ used f, answers = used ++ .failure f :: (w env ⟨p, answers⟩).2.answers ∧ Calm used ∧ (w env ⟨p, answers⟩).1 = .failed f)

theorem Prompt.follow {w : Fd α} {m : Rd α} (h : Prompt env w m) : Follow env w m := fun he p answers => by
  rcases h he p answers with h | h
  · exact .inl h
  · exact .inr (.inl h)

theorem prompt_readExact (n : Nat) : Prompt env (Fd.readExact n) (Rd.readExact n) := fun he p answers => by
  have h := fill_follows env.data answers n [] p
  have e : Rd.readExact n env p = (if n ≤ env.data.length - p then .ok ((env.data.drop p).take n) else .err .eof,
      if n ≤ env.data.length - p then p + n else max p env.data.length) := by
    unfold Rd.readExact
    rw [he]
    split <;> rfl
  rw [e]
  simp only [List.nil_append] at h
  exact h

theorem prompt_seek (move : Env → Nat → Res α × Nat) : Prompt env (Fd.seek move) move := fun _ p answers => by
  unfold Fd.seek
  rcases answers with _ | ⟨_ | _ | f, answers⟩
  · exact .inl ⟨[], rfl, calm_nil, rfl, rfl⟩
  · exact .inl ⟨[_], rfl, calm_cons (fun _ h => nomatch h) calm_nil, rfl, rfl⟩
  · exact .inl ⟨[_], rfl, calm_cons (fun _ h => nomatch h) calm_nil, rfl, rfl⟩
  · exact .inr ⟨[], f, rfl, calm_nil, rfl⟩

theorem follow_readExact (n : Nat) : Follow env (Fd.readExact n) (Rd.readExact n) := (prompt_readExact n).follow
theorem follow_position : Follow env Fd.position Rd.position := (prompt_seek _).follow
theorem follow_jump (q : Nat) : Follow env (Fd.jump q) (Rd.jump q) := (prompt_seek _).follow

theorem Prompt.map {w : Fd α} {m : Rd α} (h : Prompt env w m) (f : α → β) :
    Prompt env (w >>= fun a => Pure.pure (f a)) (m >>= fun a => Pure.pure (f a)) := fun he p answers => by
  have h1 := h he p answers
  have e1 : (w >>= fun a => Pure.pure (f a)) env ⟨p, answers⟩ = Fd.bind w (fun a => Fd.pure (f a)) env ⟨p, answers⟩ := rfl
  have e2 : (m >>= fun a => Pure.pure (f a)) env p = Rd.bind m (fun a => Rd.pure (f a)) env p := rfl
  rw [e1, e2]
  unfold Fd.bind Rd.bind
  rcases e : w env ⟨p, answers⟩ with ⟨o, ⟨q, rest⟩⟩
  rcases e' : m env p with ⟨r, q'⟩
  rw [e, e'] at h1
  rcases h1 with ⟨used, h1, h2, h3, h4⟩ | ⟨used, x, h1, h2, h3⟩
  · cases h3
    cases h4
    cases r <;> exact .inl ⟨used, h1, h2, rfl, rfl⟩
  · cases h3
    exact .inr ⟨used, x, h1, h2, rfl⟩

theorem prompt_u8 : Prompt env Fd.u8 Rd.u8 := (prompt_readExact 1).map _

theorem follow_peek {w : Fd α} {m : Rd α} (h : Prompt env w m) : Follow env (Fd.peek w) (Rd.peek m) := fun he p answers => by
  unfold Fd.peek Rd.peek
  have h0 := prompt_seek (env := env) (fun _ p => (.ok p, p)) he p answers
  rw [show Fd.seek (fun _ p => (.ok p, p)) = Fd.position from rfl] at h0
  rcases e0 : Fd.position env ⟨p, answers⟩ with ⟨o, ⟨q, rest⟩⟩
  rw [e0] at h0
  rcases h0 with ⟨u, h1, h2, h3, h4⟩ | ⟨u, x, h1, h2, h3⟩
  · cases h3
    cases h4
    dsimp only at h1 ⊢
    have k := h he p rest
    rcases e1 : w env ⟨p, rest⟩ with ⟨o, ⟨q, more⟩⟩
    rw [e1] at k
    have j := prompt_seek (env := env) (fun _ _ => (.ok (), p)) he q more
    rcases e2 : Fd.seek (fun _ _ => (.ok (), p)) env ⟨q, more⟩ with ⟨o', ⟨q', last⟩⟩
    rw [e2] at j
    dsimp only at k j ⊢
    rcases k with ⟨v, k1, k2, k3, k4⟩ | ⟨v, x, k1, k2, k3⟩
    · rcases j with ⟨t, j1, j2, j3, j4⟩ | ⟨t, y, j1, j2, j3⟩
      · cases j3
        exact .inl ⟨u ++ v ++ t, by rw [h1, k1, j1]; simp, calm_append (calm_append h2 k2) j2, k3, j4⟩
      · cases j3
        exact .inr (.inl ⟨u ++ v ++ t, y, by rw [h1, k1, j1]; simp, calm_append (calm_append h2 k2) j2, rfl⟩)
    · cases k3
      have j' : more = [] ∧ (o', (⟨q', last⟩ : Feed)) = (.done (.ok ()), ⟨p, []⟩) ∨
          ∃ a, more = a :: last ∧ ((∀ g, a ≠ .failure g) ∧ o' = .done (.ok ()) ∨ ∃ g, a = .failure g ∧ o' = .failed g) := by
        unfold Fd.seek at e2
        rcases more with _ | ⟨_ | _ | f, more⟩
        · exact .inl ⟨rfl, e2.symm⟩
        · cases e2
          exact .inr ⟨_, rfl, .inl ⟨(fun _ h => nomatch h), rfl⟩⟩
        · cases e2
          exact .inr ⟨_, rfl, .inl ⟨(fun _ h => nomatch h), rfl⟩⟩
        · cases e2
          exact .inr ⟨_, rfl, .inr ⟨f, rfl, rfl⟩⟩
      rcases j' with ⟨j1, j2⟩ | ⟨a, j1, ⟨ja, j2⟩ | ⟨g, ja, j2⟩⟩
      · cases j2
        exact .inr (.inl ⟨u ++ v, x, by rw [h1, k1, j1]; simp, calm_append h2 k2, rfl⟩)
      · cases j2
        refine .inr (.inr ⟨u ++ v, x, a, by rw [h1, k1, j1]; simp, calm_append h2 k2, ?_⟩)
        cases a with
        | failure g => exact absurd rfl (ja g)
        | upTo _ => rfl
        | interrupted => rfl
      · cases j2
        cases ja
        exact .inr (.inr ⟨u ++ v, x, .failure g, by rw [h1, k1, j1]; simp, calm_append h2 k2, rfl⟩)
  · cases h3
    exact .inr (.inl ⟨u, x, h1, h2, rfl⟩)

/-! ## Readers -/

theorem follow_u8 : Follow env Fd.u8 Rd.u8 := prompt_u8.follow
theorem follow_peek8 : Follow env (Fd.peek Fd.u8) (Rd.peek Rd.u8) := follow_peek prompt_u8
theorem follow_u16 : Follow env Fd.u16 Rd.u16 := .bind (follow_readExact _) fun _ => .pure _
theorem follow_u32 : Follow env Fd.u32 Rd.u32 := .bind (follow_readExact _) fun _ => .pure _
theorem follow_i32 (z : Int) : Follow env (Fd.i32 z) (Rd.i32 z) := .cfg (.ofRes _)

theorem follow_positiveTwoByte (b : UInt8) : Follow env (positiveTwoByte b) (Rd.positiveTwoByte b) :=
  .bind (follow_i32 _) fun _ => .bind (follow_i32 _) fun _ => .bind follow_u8 fun _ => .bind (follow_i32 _) fun _ => follow_i32 _

theorem follow_negativeTwoByte (b : UInt8) : Follow env (negativeTwoByte b) (Rd.negativeTwoByte b) :=
  .bind (follow_i32 _) fun _ => .bind (follow_i32 _) fun _ => .bind (follow_i32 _) fun _ => .bind follow_u8 fun _ =>
    .bind (follow_i32 _) fun _ => follow_i32 _

theorem follow_readOffset (size : UInt8) : Follow env (readOffset size) (PS.readOffset size) := by
  unfold readOffset PS.readOffset
  repeat' split
  · exact .bind follow_u8 fun _ => .pure _
  · exact .bind follow_u16 fun _ => .pure _
  · exact .bind (follow_readExact _) fun _ => .pure _
  · exact follow_u32
  · exact .raise _

theorem follow_readCharRange1 : Follow env readCharRange1 CharacterSet.readRange1 := .bind follow_u16 fun _ => .bind follow_u8 fun _ => .pure _
theorem follow_readCharRange2 : Follow env readCharRange2 CharacterSet.readRange2 := .bind follow_u16 fun _ => .bind follow_u16 fun _ => .pure _
theorem follow_readEncRange1 : Follow env readEncRange1 Encoding.readRange1 := .bind follow_u8 fun _ => .bind follow_u8 fun _ => .pure _
theorem follow_readSupplement : Follow env readSupplement Encoding.readSupplement := .bind follow_u8 fun _ => .bind follow_u16 fun _ => .pure _
theorem follow_readRange3 : Follow env readRange3 DictEncoding.readRange3 := .bind follow_u16 fun _ => .bind follow_u8 fun _ => .pure _
theorem follow_readHeader : Follow env readHeader Header.read :=
  .bind follow_u8 fun _ => .bind follow_u8 fun _ => .bind follow_u8 fun _ => .bind follow_u8 fun _ => .pure _
theorem follow_jumpTo (position : Nat) (offset : Int) : Follow env (jumpTo position offset) (PS.jumpTo position offset) :=
  .cfg (.bind (.ofRes _) fun _ => follow_jump _)

/-- A reader without loops. -/
local macro "leaf" : tactic => `(tactic| first
  | exact Follow.pure _ | exact Follow.raise _ | exact Follow.panic _ | exact Follow.ofRes _ | exact Follow.size
  | exact follow_u8 | exact follow_u16 | exact follow_u32 | exact follow_peek8 | exact follow_i32 _ | exact follow_position
  | exact follow_jumpTo _ _ | exact follow_readOffset _ | exact follow_positiveTwoByte _ | exact follow_negativeTwoByte _
  | exact follow_readHeader | exact follow_readCharRange1 | exact follow_readCharRange2 | exact follow_readEncRange1
  | exact follow_readSupplement | exact follow_readRange3)

theorem follow_replicate {w : Fd α} {m : Rd α} (h : Follow env w m) : ∀ n, Follow env (replicate n w) (Rd.replicate n m)
  | 0 => .pure _
  | n + 1 => .bind h fun _ => .bind (follow_replicate h n) fun _ => .pure _

theorem follow_vec {w : Fd α} {m : Rd α} (h : Follow env w m) (width count : Nat) : Follow env (vec width count w) (Rd.vec width count m) := by
  refine .cfg ?_
  split
  · leaf
  · exact follow_replicate h _

theorem follow_parseLoop : ∀ (fuel : Nat) (byte : UInt8) (high : Bool) (buffer : List Char),
    Follow env (parseLoop fuel byte high buffer) (Number.parseLoop fuel byte high buffer)
  | 0, _, _, _ => by leaf
  | fuel + 1, byte, high, buffer => by
    refine .bind ?_ fun byte => ?_
    · split
      · leaf
      · exact .pure _
    dsimp only
    repeat' split
    all_goals first
      | exact follow_parseLoop fuel _ _ _
      | exact .pure _
      | leaf

theorem follow_parse : Follow env parse Number.parse := by
  refine .bind (by leaf) fun _ => .bind (follow_parseLoop _ _ _ _) fun b => ?_
  cases parseF32 b
  · leaf
  · exact .pure _

theorem follow_readNumber : Follow env readNumber Number.read := by
  refine .bind follow_u8 fun first => ?_
  split
  · exact .bind (follow_i32 _) fun _ => .pure _
  split
  · exact .bind (follow_positiveTwoByte _) fun _ => .pure _
  split
  · exact .bind (follow_negativeTwoByte _) fun _ => .pure _
  split
  · exact .bind follow_u16 fun _ => .pure _
  split
  · exact .bind follow_u32 fun _ => .pure _
  split
  · exact .bind follow_parse fun _ => .pure _
  · exact .raise _

theorem follow_readOperationLoop : ∀ (fuel : Nat) (operands : List Number),
    Follow env (readOperationLoop fuel operands) (Operations.readOperationLoop fuel operands)
  | 0, _ => by leaf
  | fuel + 1, operands => by
    refine .bind (by leaf) fun code => ?_
    split
    · exact .bind follow_readNumber fun _ => follow_readOperationLoop fuel _
    · refine .bind ?_ fun _ => .bind (.ofRes _) fun _ => .pure _
      split
      · exact follow_u16
      · exact .bind follow_u8 fun _ => .pure _

theorem follow_readOperation : Follow env readOperation Operations.readOperation :=
  .bind (by leaf) fun _ => follow_readOperationLoop _ _

theorem follow_readLoop : ∀ (fuel : Nat) (o : Operations), Follow env (readLoop fuel o) (Operations.readLoop fuel o)
  | 0, _ => by leaf
  | fuel + 1, o => fun he p answers => by
    have h1 := follow_readOperation (env := env) he p answers
    unfold readLoop Operations.readLoop
    rcases e : readOperation env ⟨p, answers⟩ with ⟨out, ⟨q, rest⟩⟩
    rcases e' : Operations.readOperation env p with ⟨r, q'⟩
    rw [e, e'] at h1
    rcases h1 with ⟨used, h1, h2, h3, h4⟩ | ⟨used, x, h1, h2, h3⟩ | ⟨used, x, y, h1, h2, h3⟩
    · cases h3
      cases h4
      rcases r with ⟨op, xs⟩ | x | x
      · dsimp only at h1 ⊢
        rw [h1]
        rcases follow_readLoop fuel (o.insert op xs) he q rest with ⟨u, k1, k2, k3, k4⟩ | ⟨u, x, k1, k2, k3⟩ | ⟨u, x, y, k1, k2, k3⟩
        · exact .inl ⟨used ++ u, by rw [List.append_assoc, ← k1], calm_append h2 k2, k3, k4⟩
        · exact .inr (.inl ⟨used ++ u, x, by rw [List.append_assoc, ← k1], calm_append h2 k2, k3⟩)
        · exact .inr (.inr ⟨used ++ u, x, y, by rw [List.append_assoc, ← k1], calm_append h2 k2, k3⟩)
      · cases x <;> exact .inl ⟨used, h1, h2, rfl, rfl⟩
      · exact .inl ⟨used, h1, h2, rfl, rfl⟩
    · cases h3
      exact .inr (.inl ⟨used, x, h1, h2, rfl⟩)
    · cases h3
      exact .inr (.inr ⟨used, x, y, h1, h2, rfl⟩)

theorem follow_readOperations : Follow env readOperations Operations.read := .bind (by leaf) fun _ => follow_readLoop _ _

theorem follow_bytes (n : Nat) : Follow env (bytes n) (Rd.bytes n) := follow_vec (by leaf) _ _

theorem follow_readData : ∀ l : List UInt32, Follow env (readData l) (Index.readData l)
  | [] => .pure _
  | [_] => .pure _
  | a :: b :: rest => by
    unfold readData Index.readData
    split
    · leaf
    · exact .bind (by leaf) fun _ => .bind (by leaf) fun _ => .bind (follow_bytes _) fun _ => .bind (follow_readData _) fun _ => .pure _

theorem follow_readIndex : Follow env readIndex Index.read := by
  refine .bind (by leaf) fun count => ?_
  split
  · exact .pure _
  refine .bind (by leaf) fun size => .bind (follow_replicate (by leaf) _) fun offsets => ?_
  cases offsets with
  | nil => leaf
  | cons first rest =>
    dsimp only
    split
    · leaf
    · exact .bind (follow_readData _) fun _ => .pure _

theorem follow_readCharacterStrings (format : Int) : Follow env (readCharacterStrings format) (PS.readCharacterStrings format) := by
  unfold readCharacterStrings PS.readCharacterStrings
  split
  · exact follow_readIndex
  · leaf

theorem follow_readSet0 (n : Nat) : Follow env (readSet0 n) (CharacterSet.read0 n) := by
  refine .bind (by leaf) fun format => ?_
  split
  · leaf
  refine .cfg ?_
  split
  · leaf
  · exact .bind (follow_vec (by leaf) _ _) fun _ => .pure _

theorem follow_readRanges1 : ∀ fuel n k, Follow env (readRanges1 fuel n k) (CharacterSet.readRanges1 fuel n k)
  | 0, n, k => by
    unfold readRanges1 CharacterSet.readRanges1
    split
    · leaf
    · exact .pure _
  | fuel + 1, n, k => by
    unfold readRanges1 CharacterSet.readRanges1
    split
    · exact .bind (by leaf) fun _ => .bind (follow_readRanges1 fuel _ _) fun _ => .pure _
    · exact .pure _

theorem follow_readSet1 (n : Nat) : Follow env (readSet1 n) (CharacterSet.read1 n) := by
  refine .bind (by leaf) fun format => ?_
  split
  · leaf
  refine .bind (follow_readRanges1 _ _ _) fun _ => ?_
  dsimp only
  split
  · leaf
  · exact .pure _

theorem follow_readRanges2 : ∀ fuel n k, Follow env (readRanges2 fuel n k) (CharacterSet.readRanges2 fuel n k)
  | 0, n, k => by
    unfold readRanges2 CharacterSet.readRanges2
    split
    · leaf
    · exact .pure _
  | fuel + 1, n, k => by
    unfold readRanges2 CharacterSet.readRanges2
    split
    · exact .bind (by leaf) fun _ => .bind (follow_readRanges2 fuel _ _) fun _ => .pure _
    · exact .pure _

theorem follow_readSet2 (n : Nat) : Follow env (readSet2 n) (CharacterSet.read2 n) := by
  refine .bind (by leaf) fun format => ?_
  split
  · leaf
  refine .bind (follow_readRanges2 _ _ _) fun _ => ?_
  dsimp only
  split
  · leaf
  · exact .pure _

theorem follow_readSet (n : Nat) : Follow env (readSet n) (CharacterSet.read n) := by
  refine .bind (by leaf) fun format => ?_
  repeat' split
  · exact follow_readSet0 _
  · exact follow_readSet1 _
  · exact follow_readSet2 _
  · leaf

theorem follow_readEncoding : Follow env readEncoding Encoding.read := by
  refine .bind (by leaf) fun format => ?_
  repeat' split
  · refine .bind (by leaf) fun _ => ?_
    split
    · leaf
    · exact .bind (by leaf) fun _ => .bind (follow_vec (by leaf) _ _) fun _ => .pure _
  · refine .bind (by leaf) fun _ => ?_
    split
    · leaf
    · exact .bind (by leaf) fun _ => .bind (follow_vec (by leaf) _ _) fun _ => .pure _
  · exact .bind (by leaf) fun _ => .bind (by leaf) fun _ => .bind (follow_vec (by leaf) _ _) fun _ => .pure _
  · leaf

theorem follow_readPrivate (position : Nat) (top : Operations) : Follow env (readPrivate position top) (PrivateRecord.read position top) := by
  refine .cfg (.bind (by leaf) fun x => ?_)
  refine .bind (by leaf) fun _ => .bind (follow_bytes _) fun _ => .bind (by leaf) fun _ => .bind (by leaf) fun another => ?_
  refine .bind ?_ fun _ => .pure _
  cases another with
  | none => exact .pure _
  | some o => exact .bind (by leaf) fun _ => .bind (by leaf) fun _ => follow_readIndex

theorem follow_readSelect (ix : Index) : Follow env (readSelect ix) (DictEncoding.read ix) := by
  refine .bind (by leaf) fun format => ?_
  repeat' split
  · exact .bind (by leaf) fun _ => .bind (follow_vec (by leaf) _ _) fun _ => .pure _
  · refine .bind (by leaf) fun _ => ?_
    split
    · leaf
    · exact .bind (by leaf) fun _ => .bind (follow_vec (by leaf) _ _) fun _ => .bind (by leaf) fun _ => .pure _
  · leaf

theorem follow_readPrivateRecords (position : Nat) : ∀ l, Follow env (readPrivateRecords position l) (PS.readPrivateRecords position l)
  | [] => .pure _
  | _ :: l => .bind (follow_readPrivate _ _) fun _ => .bind (follow_readPrivateRecords position l) fun _ => .pure _

theorem follow_readCIDRecord (position : Nat) (top : Operations) (ix : Index) :
    Follow env (readCIDRecord position top ix) (CIDRecord.read position top ix) := by
  unfold readCIDRecord CIDRecord.read
  rcases top.get .opROS with _ | _ | ⟨a, _ | ⟨b, _ | ⟨c, _ | ⟨d, l⟩⟩⟩⟩
  case some.cons.cons.cons.nil =>
    refine .cfg ?_
    exact .bind (by leaf) fun _ => .bind (by leaf) fun _ => .bind (follow_readSelect _) fun _ => .bind (by leaf) fun _ =>
      .bind (by leaf) fun _ => .bind follow_readIndex fun _ => .bind (by leaf) fun _ =>
      .bind (follow_readPrivateRecords _ _) fun _ => .bind (by leaf) fun _ => .bind (by leaf) fun _ => .pure _
  all_goals leaf

theorem follow_readRecord (position : Nat) (top : Operations) (ix : Index) :
    Follow env (readRecord position top ix) (Record.read position top ix) := by
  unfold readRecord Record.read
  split
  · exact .bind (follow_readCIDRecord _ _ _) fun _ => .pure _
  · exact .bind (follow_readPrivate _ _) fun _ => .pure _

theorem follow_readEntry (position : Nat) (top : Operations) : Follow env (readEntry position top) (FontEntry.read position top) := by
  refine .bind (by leaf) fun _ => .bind (by leaf) fun _ => .bind (by leaf) fun _ => .bind (follow_readCharacterStrings _) fun _ =>
    .bind (by leaf) fun _ => .bind ?_ fun _ => .bind (by leaf) fun _ => .bind ?_ fun _ => .bind (follow_readRecord _ _ _) fun _ => .pure _
  · repeat' split
    · exact .pure _
    · exact .pure _
    · exact .pure _
    · exact .bind (by leaf) fun _ => follow_readSet _
  · repeat' split
    · exact .pure _
    · exact .pure _
    · exact .bind (by leaf) fun _ => follow_readEncoding

theorem follow_readEntries (position : Nat) : ∀ l, Follow env (readEntries position l) (PS.readEntries position l)
  | [] => .pure _
  | _ :: l => .bind (follow_readEntry _ _) fun _ => .bind (follow_readEntries position l) fun _ => .pure _

theorem follow_readFontSet : Follow env readFontSet FontSet.read := by
  refine .cfg ?_
  exact .bind (by leaf) fun _ => .bind (by leaf) fun _ => .bind (by leaf) fun _ => .bind follow_readIndex fun _ =>
    .bind follow_readIndex fun _ => .bind (by leaf) fun _ => .bind follow_readIndex fun _ => .bind follow_readIndex fun _ =>
    .bind (follow_readEntries _ _) fun _ => .pure _

theorem follow_readCount : Follow env readCount FontSet.count :=
  .bind (by leaf) fun _ => .bind (by leaf) fun _ => .bind (by leaf) fun _ => .bind (by leaf) fun _ => .pure _

/-! ## The end of the tape -/

/-- The same bytes, and the same build, but for what is left of the tape at its end. -/
def settled : Link where
  env e e' := e.data = e'.data ∧ e.cfg.checks = e'.cfg.checks ∧ e.cfg.prealloc = e'.cfg.prealloc ∧ e.cfg.maxSeek = e'.cfg.maxSeek
  base b b' := b = b'
  k := 0
  P := False
  S := False
  T := False
  read n e e' p h := by
    unfold Rd.readExact
    rw [h.1]
    simp only [Nat.add_zero]
    split
    · exact .ok _ _
    · exact .err _ _ _
  jump e e' b b' o p h hb ho := by
    subst hb
    obtain ⟨-, h1, -, h2⟩ := h
    rw [jumpTo_eq, jumpTo_eq, ← h2, ← h1]
    split
    · split
      · exact .ok _ _
      · exact .err _ _ _
    · by_cases hc : e.cfg.checks = true
      · rw [if_pos hc, if_pos hc]
        exact .panic _ _ _
      · rw [if_neg hc, if_neg hc]
        split
        · exact .ok _ _
        · exact .err _ _ _
  cfg e e' h := .inl ⟨h.2.1, h.2.2.1⟩

theorem alike_settled {r r' : Res α × Nat} (h : Alike 0 False False False r r') : r.1 = r'.1 := by
  cases h with
  | ok => rfl
  | err => rfl
  | panic => rfl
  | left x q r h => exact h.elim
  | seek q r h => exact h.elim
  | right q r h => exact h.elim

/-- What is left of the tape at its end does not change what is read. -/
theorem read_atEnd (cfg : Config) (data : List UInt8) (base : Nat) :
    (FontSet.read (tape (atEnd cfg) data) base).1 = (FontSet.read (tape cfg data) base).1 := by
  rw [fontSet_from, fontSet_from]
  exact alike_settled (like_fontSet (L := settled) rfl (tape (atEnd cfg) data) (tape cfg data) base ⟨rfl, rfl, rfl, rfl⟩)

end Source
end PS
