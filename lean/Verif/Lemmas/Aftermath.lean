import Verif.Spec.Aftermath
import Verif.Props.Fault
import Verif.Props.Final
/-!
# Lemmas about what failures leave
-/
namespace PS.Type2
open PS.Spec hiding Operand Operation
open PS.Type2.Spec

namespace Aftermath

/-! ## Failed reads -/

/-- A read that fails for want of bytes fails where it began. -/
def FailsAt (m : Rd α) : Prop := ∀ env p, (m env p).1 = .err .eof → (m env p).2 = env.cfg.eofPos p env.data.length

/-- The position does not matter and stays. -/
def Still (m : Rd α) : Prop := ∀ env p, (m env p).2 = p ∧ (m env p).1 ≠ .err .eof

theorem FailsAt.readExact (n : Nat) : FailsAt (Rd.readExact n) := by
  intro env p
  unfold Rd.readExact
  split
  · intro h; cases h
  · intro _; rfl

theorem FailsAt.map {m : Rd α} (h : FailsAt m) {f : α → Rd β} (hf : ∀ a, Still (f a)) : FailsAt (m >>= f) := by
  intro env p
  have h1 := h env p
  show (Rd.bind m f env p).1 = _ → (Rd.bind m f env p).2 = _
  unfold Rd.bind
  rcases hm : m env p with ⟨a | e | x, q⟩ <;> rw [hm] at h1
  · exact fun h => absurd h (hf a env q).2
  · exact fun h => h1 (by cases h; rfl)
  · intro h; cases h

theorem Still.bind {m : Rd α} {f : α → Rd β} (h : Still m) (hf : ∀ a, Still (f a)) : Still (m >>= f) := by
  intro env p
  have h1 := h env p
  show (Rd.bind m f env p).2 = _ ∧ (Rd.bind m f env p).1 ≠ _
  unfold Rd.bind
  rcases hm : m env p with ⟨a | e | x, q⟩ <;> rw [hm] at h1
  · have h2 := hf a env q
    exact ⟨h2.1.trans h1.1, h2.2⟩
  · exact ⟨h1.1, fun h => h1.2 (by cases h; rfl)⟩
  · exact ⟨h1.1, by nofun⟩

theorem FailsAt.bind {m : Rd α} {f : α → Rd β} (h : Still m) (hf : ∀ a, FailsAt (f a)) : FailsAt (m >>= f) := by
  intro env p
  have h1 := h env p
  show (Rd.bind m f env p).1 = _ → (Rd.bind m f env p).2 = _
  unfold Rd.bind
  rcases hm : m env p with ⟨a | e | x, q⟩ <;> rw [hm] at h1
  · obtain rfl : q = p := h1.1
    exact hf a env q
  · exact fun h => absurd (by cases h; rfl) h1.2
  · intro h; cases h

theorem Still.pure (a : α) : Still (Pure.pure a : Rd α) := fun _ _ => ⟨rfl, by nofun⟩
theorem Still.cfg : Still Rd.cfg := fun _ _ => ⟨rfl, by nofun⟩
theorem Still.raise (r : Reason) : Still (Rd.raise r : Rd α) := fun _ _ => ⟨rfl, by nofun⟩

theorem Still.i32 (z : Int) : Still (Rd.i32 z) := by
  refine bind cfg fun c => ?_
  intro env p
  refine ⟨rfl, ?_⟩
  intro h
  change wrapI32 c.checks z = _ at h
  unfold wrapI32 at h
  split at h
  · cases h
  · split at h <;> cases h

theorem Still.failsAt {m : Rd α} (h : Still m) : FailsAt m := fun env p he => absurd he (h env p).2

theorem FailsAt.u8 : FailsAt Rd.u8 := map (readExact 1) fun _ => .pure _
theorem FailsAt.u16 : FailsAt Rd.u16 := map (readExact 2) fun _ => .pure _
theorem FailsAt.u32 : FailsAt Rd.u32 := map (readExact 4) fun _ => .pure _

theorem FailsAt.ite {p : Prop} [Decidable p] {m n : Rd α} (hm : FailsAt m) (hn : FailsAt n) : FailsAt (if p then m else n) := by
  split
  · exact hm
  · exact hn

/-- An operand that is cut off fails behind its first byte. -/
theorem readNumber_pos {env : Env} {p q : Nat} {b : UInt8} {l : List UInt8} (hd : env.data.drop p = b :: l)
    (h : readNumber env p = (.err .eof, q)) : q = env.cfg.eofPos (p + 1) env.data.length := by
  have hb : Rd.u8 env p = (.ok b, p + 1) := (exact_u8 _ _ _ _).mpr ⟨[b], rfl, ⟨l, by simp [hd]⟩, by simp⟩
  unfold readNumber at h
  rw [Rd.bind_of_ok hb] at h
  have key : ∀ m : Rd F32, FailsAt m → m env (p + 1) = (.err .eof, q) → q = env.cfg.eofPos (p + 1) env.data.length := by
    intro m hm h
    have := hm env (p + 1) (by rw [h])
    rw [h] at this
    exact this
  refine key _ ?_ h
  · refine FailsAt.ite (FailsAt.bind (.i32 _) fun _ => (Still.pure _).failsAt)
      (.ite ?_ (.ite ?_ (.ite (.map .u16 fun _ => .pure _) (.ite (.map .u32 fun _ => .pure _) (Still.raise _).failsAt))))
    · refine FailsAt.map ?_ fun _ => .pure _
      exact .bind (.i32 _) fun _ => .bind (.i32 _) fun _ => .map .u8 fun _ => .bind (.i32 _) fun _ => .i32 _
    · refine FailsAt.map ?_ fun _ => .pure _
      exact .bind (.i32 _) fun _ => .bind (.i32 _) fun _ => .bind (.i32 _) fun _ => .map .u8 fun _ =>
        .bind (.i32 _) fun _ => .i32 _

/-- A mask that is cut off has been read to the end. -/
theorem replicate_pos {stays : Bool} {env : Env} (he : FailedRead stays env.cfg) :
    ∀ (n p : Nat) (q : Nat), p ≤ env.data.length → Rd.replicate n Rd.u8 env p = (.err .eof, q) → q = env.data.length := by
  intro n
  induction n with
  | zero => intro p q _ h; cases h
  | succ n ih =>
    intro p q hp h
    unfold Rd.replicate at h
    rcases hd : env.data.drop p with _ | ⟨b, l⟩
    · have hp' : p = env.data.length := by have := List.drop_eq_nil_iff.mp hd; omega
      rcases hu : Rd.u8 env p with ⟨r, q'⟩
      have : r = .err .eof := by
        have : (Rd.u8 env p).1 = .err .eof := by
          unfold Rd.u8
          rw [Rd.bind_of_err (e := .eof)]
          unfold Rd.readExact
          rw [if_neg]
          show ¬ 1 ≤ env.data.length - p
          omega
        rw [hu] at this
        exact this
      subst this
      rw [Rd.bind_of_err hu] at h
      have h1 := FailsAt.u8 env p (by rw [hu])
      rw [hu] at h1
      cases h
      rw [show q = env.cfg.eofPos p env.data.length from h1, he, hp']
      cases stays <;> simp
    · have hb : Rd.u8 env p = (.ok b, p + 1) := (exact_u8 _ _ _ _).mpr ⟨[b], rfl, ⟨l, by simp [hd]⟩, by simp⟩
      have hlt : p + 1 ≤ env.data.length := by
        by_contra hh
        have : env.data.drop p = [] := List.drop_eq_nil_iff.mpr (by omega)
        rw [this] at hd
        cases hd
      rw [Rd.bind_of_ok hb] at h
      rcases hr : Rd.replicate n Rd.u8 env (p + 1) with ⟨a | e | x, q'⟩
      · rw [Rd.bind_of_ok hr] at h; cases h
      · rw [Rd.bind_of_err hr] at h
        cases h
        exact ih _ _ hlt hr
      · rw [Rd.bind_of_panic hr] at h; cases h

/-! ## Operators -/

theorem view_routine {s : Program} {r : Routine} (h : left r = left s.routine) : view { s with routine := r } = view s := by
  simp only [view, h]

theorem pop_two_short {cfg : Config} {s : Program} (h : s.stack.length < 2) (f : F32 → F32 → PM α) :
    (do let right ← pop; let left ← pop; f right left : PM α) cfg s =
      (.err (.raised .expectedOperand), { s with stack := [] }) := by
  rcases snoc_cases s.stack with h0 | ⟨st, y, h1⟩
  · rw [PM.bind_of_err (pop_nil h0)]
    rw [show ({ s with stack := [] } : Program) = s by rw [← h0]]
  · have : st = [] := by
      rw [h1] at h
      simp only [List.length_append, List.length_cons, List.length_nil] at h
      exact List.length_eq_zero_iff.mp (by omega)
    subst this
    rw [PM.bind_of_ok (pop_snoc h1)]
    exact PM.bind_of_err (pop_nil rfl)

theorem popBool_two_short {cfg : Config} {s : Program} (h : s.stack.length < 2) (f : Bool → Bool → PM α) :
    (do let right ← popBool; let left ← popBool; f right left : PM α) cfg s =
      (.err (.raised .expectedOperand), { s with stack := [] }) := by
  rcases snoc_cases s.stack with h0 | ⟨st, y, h1⟩
  · rw [PM.bind_of_err (popBool_nil h0)]
    rw [show ({ s with stack := [] } : Program) = s by rw [← h0]]
  · have : st = [] := by
      rw [h1] at h
      simp only [List.length_append, List.length_cons, List.length_nil] at h
      exact List.length_eq_zero_iff.mp (by omega)
    subst this
    rw [PM.bind_of_ok (popBool_snoc h1)]
    exact PM.bind_of_err (popBool_nil rfl)

theorem dispatch_fewer {cfg : Config} {op : Operator} {n : Nat} {t : Program} (h : operandsOf op = some n)
    (hop : op ∉ [Operator.opDup, .opIndex, .opRoll]) (hl : t.stack.length < n) :
    dispatch op cfg t = (.err (.raised .expectedOperand), { t with stack := [] }) := by
  have one : t.stack.length < 1 → t.stack = [] := fun h => List.length_eq_zero_iff.mp (by omega)
  have same : t.stack = [] → { t with stack := [] } = t := fun h => by rw [← h]
  cases op <;> simp only [operandsOf, Option.some.injEq, reduceCtorEq] at h <;> subst h <;>
    first
    | (rw [same (one hl)]; exact PM.bind_of_err (pop_nil (one hl)))
    | (rw [same (one hl)]; exact PM.bind_of_err (popBool_nil (one hl)))
    | exact pop_two_short hl _
    | exact popBool_two_short hl _
    | exact absurd (by decide) hop
    | skip
  rcases two_cases t.stack with h | ⟨st, v1, v2, h⟩
  · exact pop_two_short h _
  · have h2 : st.length < 2 := by
      rw [h] at hl
      simp only [List.length_append, List.length_cons, List.length_nil] at hl
      omega
    have h' := pop_two_short (cfg := cfg) (s := { t with stack := st }) h2 (fun no yes => do
          push (if F32.le v1 v2 then yes else no)
          PM.pure .again : F32 → F32 → PM Flow)
    unfold dispatch
    simp only [pop_two h]
    exact h'

/-- The topmost operand is gone in any case. -/
theorem popInt_bad {cfg : Config} {t : Program} (hw : ∀ x ∈ t.stack, x.WF)
    (hn : ∀ st x i, t.stack = st ++ [x] → ¬ IntArg x i) :
    popInt cfg t = (.err (.raised .expectedOtherOperand), { t with stack := t.stack.dropLast }) := by
  rcases snoc_cases t.stack with h | ⟨st, x, h⟩
  · rw [popInt_nil h, h]
    rw [show ({ t with stack := [].dropLast } : Program) = t by rw [List.dropLast_nil, ← h]]
  · rw [popInt_err h (hw x (by simp [h])) (fun i => hn st x i h), h, List.dropLast_concat]

theorem call_absent {cfg : Config} (subs : Program → List (List UInt8)) (hsubs : ∀ s st, subs { s with stack := st } = subs s)
    {s : Program} (hw : ∀ x ∈ s.stack, x.WF) {st : List F32} {x : F32} {a : Int} (h : s.stack = st ++ [x]) (ha : IntArg x a)
    {s' : Program} {r : Reason} (he : call subs cfg s = (.err (.raised r), s')) : s' = { s with stack := st } := by
  have hxw : x.WF := hw x (by simp [h])
  unfold call at he
  rw [PM.bind_of_ok (popInt_ok h hxw ha), PM.bind_of_ok rfl, PM.bind_of_ok rfl] at he
  simp only [hsubs, bias_eq] at he
  rcases hadd : addI32 cfg.checks a (callBias (subs s).length) with i | e | x
  · rw [hadd, PM.bind_of_ok (a := i) (s' := { s with stack := st }) rfl] at he
    split at he
    · cases he; rfl
    · rcases hg : (subs s)[i.toNat]? with _ | b <;> rw [hg] at he <;> cases he
  · rw [hadd, PM.bind_of_err (e := e) (s' := { s with stack := st }) rfl] at he
    cases he; rfl
  · rw [hadd, PM.bind_of_panic (e := x) (s' := { s with stack := st }) rfl] at he
    cases he

theorem unwind_left (r : Routine) (cs : List Routine) (hp : ∀ x ∈ r :: cs, x.pos ≤ x.code.length) {e : Err} {r' : Routine}
    {cs' : List Routine} (h : unwind r cs = (.err e, r', cs')) :
    cs' = [] ∧ left r' = firstLeft (left r :: cs.map left) := by
  induction cs generalizing r with
  | nil => cases h
  | cons c cs ih =>
    unfold unwind at h
    by_cases hd : r.done = true
    · rw [if_pos hd] at h
      obtain ⟨h1, h2⟩ := ih c (fun x hx => hp x (by simp at hx ⊢; tauto)) h
      refine ⟨h1, ?_⟩
      rw [h2, (done_iff (hp r (by simp))).mp hd]
      simp [firstLeft]
    · rw [if_neg hd] at h
      have : left r ≠ [] := fun h => hd ((done_iff (hp r (by simp))).mpr h)
      cases h
      refine ⟨rfl, ?_⟩
      simp [firstLeft, this]

theorem mask_left {stays : Bool} {cfg : Config} (he : FailedRead stays cfg) {op : Operator} (hop : Mask op) {s s' : Program}
    (hs : Sound s) (h : dispatch op cfg s = (.err .eof, s')) :
    view s' = { view s with code := [], stems := s.stems + s.stack.length / 2 } := by
  have hd : dispatch op = (do
      countStems
      let s ← PM.get
      let _ ← PM.tape (Rd.bytes ((s.stems + 7) / 8))
      clear op [[.equal 0]]) := by
    simp only [Mask, List.mem_cons, List.not_mem_nil, or_false] at hop
    rcases hop with rfl | rfl <;> rfl
  rw [hd, PM.bind_of_ok (a := ()) (s' := { s with stems := s.stems + s.stack.length / 2 }) rfl, PM.bind_of_ok rfl] at h
  simp only [] at h
  generalize (s.stems + s.stack.length / 2 + 7) / 8 = n at h
  rcases hb : Rd.bytes n { cfg, data := s.routine.code } s.routine.pos with ⟨a | e | x, q⟩
  · have ht : PM.tape (Rd.bytes n) cfg { s with stems := s.stems + s.stack.length / 2 } =
        (.ok a, { s with stems := s.stems + s.stack.length / 2, routine := { s.routine with pos := q } }) := by
      unfold PM.tape
      simp only [hb]
    rw [PM.bind_of_ok ht] at h
    exfalso
    rw [clear_some (below := s.stack) (args := []) (by simp) (by simp [reduce])] at h
    cases h
  · have ht : PM.tape (Rd.bytes n) cfg { s with stems := s.stems + s.stack.length / 2 } =
        (.err e, { s with stems := s.stems + s.stack.length / 2, routine := { s.routine with pos := q } }) := by
      unfold PM.tape
      simp only [hb]
    rw [PM.bind_of_err ht] at h
    cases h
    have hq : q = s.routine.code.length := by
      change Rd.vec 1 n Rd.u8 _ _ = _ at hb
      unfold Rd.vec at hb
      rw [Rd.bind_of_ok (a := cfg) (p' := s.routine.pos) rfl] at hb
      split at hb
      · cases hb
      · exact replicate_pos (env := { cfg, data := s.routine.code }) he _ _ _ hs.routine hb
    simp [view, left, hq]
  · have ht : PM.tape (Rd.bytes n) cfg { s with stems := s.stems + s.stack.length / 2 } =
        (.panic x, { s with stems := s.stems + s.stack.length / 2, routine := { s.routine with pos := q } }) := by
      unfold PM.tape
      simp only [hb]
    rw [PM.bind_of_panic ht] at h
    cases h

theorem view_stack (t : Program) (st : List F32) : view { t with stack := st } = { view t with stack := st } := rfl

/-- A fault is reported, and the operator leaves what it should. -/
theorem dispatch_left {stays : Bool} {cfg : Config} (hr : FailedRead stays cfg) {op : Operator} {t : Program} (ht : Sound t) {e : Err}
    (h : Fault cfg (before op t) e) : ∃ s', dispatch op cfg t = (.err e, s') ∧ view s' = leftover op (view t) := by
  obtain ⟨s0, h0⟩ := dispatch_of_fault ht h
  refine ⟨s0, h0, ?_⟩
  suffices hs : ∃ s', dispatch op cfg t = (.err e, s') ∧ view s' = leftover op (view t) by
    obtain ⟨s', h1, h2⟩ := hs
    rw [h0] at h1
    cases h1
    exact h2
  have stack : (view t).stack = t.stack := rfl
  cases h with
  | cut h => exact absurd h (not_cut op _)
  | mask hm hc hl hcap =>
    obtain ⟨rfl, rfl⟩ := before_code hc
    refine ⟨s0, h0, ?_⟩
    rw [mask_left hr hm ht h0]
    simp only [Mask, List.mem_cons, List.not_mem_nil, or_false] at hm
    rcases hm with rfl | rfl <;> rfl
  | unknown h =>
    exact absurd (List.prefix_append _ _) (h.2.1 op)
  | unsupported hop h =>
    obtain rfl := ordered_before h
    simp only [List.mem_cons, List.not_mem_nil, or_false] at hop
    rcases hop with rfl | rfl | rfl <;> exact ⟨_, rfl, rfl⟩
  | arguments hop h ha =>
    obtain rfl := ordered_before h
    rcases hop with hop | hop
    · rcases dispatch_path hop cfg t with ⟨b, a, ⟨h1, h2, _⟩, _⟩ | ⟨_, he⟩
      · exact absurd h2 (ha a ⟨b, h1.symm⟩)
      · refine ⟨_, he, ?_⟩
        simp only [Path, List.mem_cons, List.not_mem_nil, or_false] at hop
        rcases hop with rfl | rfl | rfl | rfl | rfl | rfl | rfl | rfl | rfl | rfl | rfl | rfl | rfl | rfl | rfl | rfl | rfl <;>
          rfl
    · rcases dispatch_stem hop cfg t with ⟨b, a, ⟨h1, h2, _⟩, _⟩ | ⟨_, he⟩
      · exact absurd h2 (ha a ⟨b, h1.symm⟩)
      · refine ⟨_, he, ?_⟩
        simp only [Stem, List.mem_cons, List.not_mem_nil, or_false] at hop
        rcases hop with rfl | rfl | rfl | rfl <;> rfl
  | fewer hn hop h hl =>
    obtain rfl := ordered_before h
    refine ⟨_, dispatch_fewer hn hop hl, ?_⟩
    cases op <;> first | rfl | (exact absurd (by decide) hop) | (simp [operandsOf] at hn)
  | dup h hs =>
    obtain rfl := ordered_before h
    have hs : t.stack = [] := hs
    exact ⟨_, PM.bind_of_err (readStack_err (by simp [hs])), rfl⟩
  | type hop h hn =>
    obtain rfl := ordered_before h
    have h' := popInt_bad (cfg := cfg) ht.stack hn
    simp only [List.mem_cons, List.not_mem_nil, or_false] at hop
    rcases hop with rfl | rfl | rfl | rfl
    · exact ⟨_, PM.bind_of_err h', rfl⟩
    · refine ⟨_, PM.bind_of_err (PM.bind_of_err h'), ?_⟩
      simp only [leftover]
      rw [if_neg]
      · rfl
      · rintro ⟨st, x, i, h1, h2⟩
        exact hn st x i h1 h2
    all_goals exact ⟨_, PM.bind_of_err (PM.bind_of_err h'), rfl⟩
  | @rollType st y j h hs hj hn =>
    obtain rfl := ordered_before h
    have hs : t.stack = st ++ [y] := hs
    have hr : roll cfg t = (.err (.raised .expectedOtherOperand), { t with stack := st.dropLast }) := by
      unfold roll
      rw [PM.bind_of_ok (popInt_ok hs (ht.stack y (by simp [hs])) hj)]
      have := popInt_bad (cfg := cfg) (t := { t with stack := st }) (fun x hx => ht.stack x (by simp [hs, hx])) hn
      rw [PM.bind_of_err this]
    refine ⟨_, PM.bind_of_err hr, ?_⟩
    simp only [leftover]
    rw [if_pos ⟨st, y, j, hs, hj⟩, view_stack, stack, hs, List.dropLast_concat]
  | @index st x i h hs hi hl =>
    obtain rfl := ordered_before h
    have hs : t.stack = st ++ [x] := hs
    unfold dispatch
    simp only [PM.bind_of_ok (popInt_ok hs (ht.stack x (by simp [hs])) hi)]
    refine ⟨_, PM.bind_of_err (readStack_err (s := { t with stack := st }) ?_), ?_⟩
    · rcases hl with hl | rfl
      · rw [if_pos (by omega)]; show st.length ≤ _; omega
      · simp
    · simp only [leftover]
      rw [view_stack, stack, hs, List.dropLast_concat]
  | @rollFewer st x y n j h hs hn hj hl =>
    obtain rfl := ordered_before h
    have hs : t.stack = st ++ [x, y] := hs
    have hr : roll cfg t = (.err (.raised .expectedMoreOperands), { t with stack := st }) := by
      unfold roll
      rw [PM.bind_of_ok (popInt_ok (st := st ++ [x]) (by simp [hs]) (ht.stack y (by simp [hs])) hj),
        PM.bind_of_ok (popInt_ok rfl (ht.stack x (by simp [hs])) hn), PM.bind_of_ok rfl]
      simp only []
      rw [if_neg (by omega), if_pos (by omega)]
      rfl
    refine ⟨_, PM.bind_of_err hr, ?_⟩
    simp only [leftover]
    rw [if_pos ⟨st ++ [x], y, j, by rw [stack, hs]; simp, hj⟩, view_stack, stack, hs,
      show st ++ [x, y] = st ++ [x] ++ [y] by simp, List.dropLast_concat, List.dropLast_concat]
  | @rollNegative st x y n j h hs hn hj hl =>
    obtain rfl := ordered_before h
    have hs : t.stack = st ++ [x, y] := hs
    have hr : roll cfg t = (.err (.raised .invalidOperand), { t with stack := st }) := by
      unfold roll
      rw [PM.bind_of_ok (popInt_ok (st := st ++ [x]) (by simp [hs]) (ht.stack y (by simp [hs])) hj),
        PM.bind_of_ok (popInt_ok rfl (ht.stack x (by simp [hs])) hn), PM.bind_of_ok rfl]
      simp only []
      rw [if_pos hl]
      rfl
    refine ⟨_, PM.bind_of_err hr, ?_⟩
    simp only [leftover]
    rw [if_pos ⟨st ++ [x], y, j, by rw [stack, hs]; simp, hj⟩, view_stack, stack, hs,
      show st ++ [x, y] = st ++ [x] ++ [y] by simp, List.dropLast_concat, List.dropLast_concat]
  | @subroutine op' subs st x a h hsub hs ha ho hf =>
    obtain rfl := ordered_before h
    have hs' : t.stack = st ++ [x] := hs
    cases op <;> simp only [Callable, Option.some.injEq, reduceCtorEq] at hsub
    · subst hsub
      obtain ⟨s', h'⟩ := Type2.call_absent Program.local (fun _ _ => rfl) ht.stack hs ha ho hf
      have := call_absent Program.local (fun _ _ => rfl) ht.stack hs ha h'
      refine ⟨_, PM.bind_of_err h', ?_⟩
      rw [this]
      simp only [leftover]
      rw [view_stack, stack, hs', List.dropLast_concat]
    · subst hsub
      obtain ⟨s', h'⟩ := Type2.call_absent Program.global (fun _ _ => rfl) ht.stack hs ha ho hf
      have := call_absent Program.global (fun _ _ => rfl) ht.stack hs ha h'
      refine ⟨_, PM.bind_of_err h', ?_⟩
      rw [this]
      simp only [leftover]
      rw [view_stack, stack, hs', List.dropLast_concat]
  | caller h hc =>
    obtain rfl := ordered_before h
    have hc : t.callers = [] := by simpa [before, view] using hc
    exact ⟨_, dispatch_return_nil hc, rfl⟩
  | @trailing rest code hc hm hne =>
    obtain ⟨rfl, rfl⟩ := before_code hc
    refine ⟨s0, h0, ?_⟩
    rcases hu : unwind t.routine t.callers with ⟨a | e | x, r', cs'⟩
    · exfalso
      rcases dispatch_end cfg (sound_pos ht) with ⟨k, main, _, he, _⟩ | ⟨hn, _⟩
      · have hm : code ∈ (left t.routine :: t.callers.map left).dropLast := hm
        rw [he, List.dropLast_concat] at hm
        exact hne (List.eq_of_mem_replicate hm)
      · rcases unwind_cases t.routine t.callers (sound_pos ht) with ⟨k, main, _, he, _⟩ | ⟨_, r1, hu'⟩
        · exact hn _ _ he
        · rw [hu] at hu'; cases hu'
    · obtain ⟨h1, h2⟩ := unwind_left _ _ (sound_pos ht) hu
      have h3 : dispatch .opEndChar cfg t = (.err e, { t with routine := r', callers := cs' }) := by
        refine (PM.bind_of_ok (m := PM.get) (a := t) (s' := t) rfl).trans ?_
        simp only [hu]
        rw [PM.bind_of_ok (a := ()) (s' := { t with routine := r', callers := cs' }) rfl]
        exact PM.bind_of_err rfl
      rw [h3] at h0
      cases h0
      subst h1
      simp only [leftover, view, h2]
      rfl
    · exfalso
      rcases unwind_cases t.routine t.callers (sound_pos ht) with ⟨k, main, _, he, hu'⟩ | ⟨_, r1, hu'⟩ <;>
        · rw [hu] at hu'; cases hu'

/-! ## Code that is cut off, and unknown operators -/

/-- An operand is cut off: whatever is before it is on the stack. -/
theorem takeOperands_left {stays : Bool} {cfg : Config} (hr : FailedRead stays cfg) {xs : List F32} {bs : List UInt8}
    (hs : Seq Operand xs bs) {tail : List UInt8} (ht : tail = [] ∨ ∃ x b, Operand x b ∧ tail <+: b ∧ tail ≠ b) {fuel : Nat}
    {s : Program} (hp : s.routine.pos ≤ s.routine.code.length) (h : left s.routine = bs ++ tail) (hf : xs.length < fuel) :
    ∃ s', takeOperands fuel cfg s = (.err .eof, s') ∧
      view s' = { view s with code := unread stays tail, stack := s.stack ++ xs } := by
  induction hs generalizing fuel s with
  | nil =>
    obtain ⟨fuel, rfl⟩ : ∃ k, fuel = k + 1 := ⟨fuel - 1, by omega⟩
    unfold takeOperands
    rcases tail with _ | ⟨b, tail⟩
    · refine ⟨_, PM.bind_of_err (tape_of_err (q := s.routine.pos) ?_), ?_⟩
      · exact peek_u8_eof _ _ h
      · have h : left s.routine = [] := h
        simp only [view, List.append_nil, unread]
        rw [show left { s.routine with pos := s.routine.pos } = [] from h]
        simp
    · rcases ht with ht | ⟨x, bs, hx, h1, h2⟩
      · simp at ht
      · obtain ⟨b', l', rfl, hb'⟩ := operand_head hx
        have hbb : b = b' := by
          obtain ⟨t, ht⟩ := h1
          simp only [List.cons_append, List.cons.injEq] at ht
          exact ht.1
        subst hbb
        rw [PM.bind_of_ok (tape_peek h), if_pos hb']
        obtain ⟨q, hq⟩ := readNumber_cut (env := { cfg, data := s.routine.code }) (p := s.routine.pos) hx h1 h2 hp h
        have hq' := readNumber_pos (env := { cfg, data := s.routine.code }) h hq
        refine ⟨_, PM.bind_of_err (tape_of_err hq), ?_⟩
        have h12 : b ≠ 12 := by rintro rfl; exact absurd hb' (by decide)
        rw [hq', hr]
        simp only [view, List.append_nil, unread, left]
        cases stays
        · simp
        · simp only [if_true, List.head?_cons, Option.some.injEq, if_neg h12, List.tail_cons]
          have h : s.routine.code.drop s.routine.pos = b :: tail := h
          rw [← List.drop_drop, h]
          rfl
  | cons hx hs ih =>
    rename_i x b xs bs
    obtain ⟨fuel, rfl⟩ : ∃ k, fuel = k + 1 := ⟨fuel - 1, by omega⟩
    obtain ⟨b0, l0, rfl, hb⟩ := operand_head hx
    unfold takeOperands
    rw [PM.bind_of_ok (tape_peek (b := b0) (l := l0 ++ bs ++ tail) (by simp [h])), if_pos hb]
    have hh : left s.routine = (b0 :: l0) ++ (bs ++ tail) := by simp [h]
    rw [PM.bind_of_ok (tape_of_exact exact_readNumber hx cfg hh)]
    rw [PM.bind_of_ok (show push x cfg (adv s [] (b0 :: l0).length) = (.ok (), adv s [x] (b0 :: l0).length) by
      simp [push, PM.modify, adv])]
    obtain ⟨s', h1, h2⟩ := ih (s := adv s [x] (b0 :: l0).length) (fuel := fuel) (by
        have := congrArg List.length hh
        rw [left_length, List.length_append] at this
        simp only [adv]
        omega) (left_adv hh [x]) (by simpa using hf)
    refine ⟨s', h1, h2.trans ?_⟩
    simp [view, adv]

theorem step_cut {stays : Bool} {cfg : Config} (hr : FailedRead stays cfg) {s : Program} {xs : List F32} {bs tail : List UInt8}
    (hs : Seq Operand xs bs) (hp : s.routine.pos ≤ s.routine.code.length) (h : left s.routine = bs ++ tail)
    (hne : bs ++ tail ≠ []) (ht : Cut tail) :
    ∃ s', step cfg s = (.err .eof, s') ∧ view s' = { view s with code := unread stays tail, stack := s.stack ++ xs } := by
  have hd : s.routine.done = false := not_done (by rw [h]; exact hne)
  have hlen := seq_operand_length hs
  have hl := congrArg List.length h
  rw [left_length] at hl
  simp only [List.length_append] at hl
  unfold step
  rw [PM.bind_of_ok (a := s) (s' := s) rfl, hd]
  simp only [Bool.false_eq_true, if_false]
  by_cases h12 : tail = [12]
  · subst h12
    rw [PM.bind_of_ok (takeOperands_of hs (c := 12) (by decide) h (by omega))]
    have hl' := left_adv h xs
    have : (Rd.u16 { cfg, data := (adv s xs bs.length).routine.code } (adv s xs bs.length).routine.pos).1 = .err .eof := by
      unfold Rd.u16
      rw [Rd.bind_of_err (e := .eof)]
      unfold Rd.readExact
      rw [if_neg]
      have := congrArg List.length hl'
      rw [left_length] at this
      simp only [List.length_cons, List.length_nil] at this
      show ¬ 2 ≤ (adv s xs bs.length).routine.code.length - _
      omega
    have hq := FailsAt.u16 _ _ this
    rcases hu : Rd.u16 { cfg, data := (adv s xs bs.length).routine.code } (adv s xs bs.length).routine.pos with ⟨r, q⟩
    rw [hu] at this hq
    simp only at this hq
    subst this
    refine ⟨_, PM.bind_of_err (s' := { adv s xs bs.length with routine := { (adv s xs bs.length).routine with pos := q } }) ?_, ?_⟩
    · unfold takeOperator
      rw [if_pos rfl, PM.bind_of_err (tape_of_err hu)]
    · rw [hq, hr]
      cases stays
      · simp [view, adv, left, unread]
      · have hl' : s.routine.code.drop (s.routine.pos + bs.length) = [12] := hl'
        simp [view, adv, left, unread, hl']
  · have ht' : tail = [] ∨ ∃ x b, Operand x b ∧ tail <+: b ∧ tail ≠ b := by
      rcases ht with ht | ⟨op, ⟨t, ht⟩, hne⟩
      · exact .inr ht
      · left
        rcases bytes_cases op with ⟨b, h1, _⟩ | ⟨b, h1, _⟩
        · rw [h1] at ht hne
          rcases tail with _ | ⟨c, tail⟩
          · rfl
          · simp at ht hne
            exact absurd ht.2.1 (hne ht.1)
        · rw [h1] at ht hne
          rcases tail with _ | ⟨c, _ | ⟨d, tail⟩⟩
          · rfl
          · simp at ht; exact absurd (by rw [ht.1]) h12
          · simp at ht hne
            exact absurd ht.2.2.1 (hne ht.1 ht.2.1)
    obtain ⟨s', hs', hv⟩ := takeOperands_left hr hs ht' hp h (fuel := s.routine.code.length + 1) (by omega)
    exact ⟨s', PM.bind_of_err hs', hv⟩

theorem step_unknown {cfg : Config} {s : Program} {xs : List F32} {bs tail : List UInt8} (hs : Seq Operand xs bs)
    (h : left s.routine = bs ++ tail) (ht : Unknown tail) :
    ∃ s', step cfg s = (.err (.raised .unknownOperator), s') ∧
      view s' = { view s with code := tail.drop (if tail.head? = some 12 then 2 else 1), stack := s.stack ++ xs } := by
  have hne : tail ≠ [] := by
    rintro rfl
    exact ht.2.2 (.inr ⟨.opHStem, by simp, by simp [bytes]⟩)
  have hd : s.routine.done = false := not_done (by rw [h]; simp [hne])
  have hlen := seq_operand_length hs
  have hl := congrArg List.length h
  rw [left_length] at hl
  simp only [List.length_append] at hl
  unfold step
  rw [PM.bind_of_ok (a := s) (s' := s) rfl, hd]
  simp only [Bool.false_eq_true, if_false]
  rcases tail with _ | ⟨c, tail⟩
  · simp at hne
  have hc : isOperandByte c = false := by
    rcases hc : isOperandByte c with _ | _
    · rfl
    · rcases operand_cases hc tail with ⟨x, b, hx, hp⟩ | h'
      · exact absurd hp (ht.1 x b hx)
      · exact absurd (.inl h') ht.2.2
  rw [PM.bind_of_ok (takeOperands_of hs hc h (by omega))]
  have hl' := left_adv h xs
  by_cases h12 : c = 12
  · subst h12
    rcases tail with _ | ⟨b, tail⟩
    · exact absurd (.inr ⟨.opAnd, ⟨[3], rfl⟩, by simp [bytes]⟩) ht.2.2
    · have hb := b.toNat_lt
      have e : beNat [12, b] = 12 * 256 + b.toNat := by simp [beNat]
      have e' : (UInt16.ofNat (beNat [12, b])).toNat = beNat [12, b] := by
        rw [UInt16.toNat_ofNat_of_lt']
        rw [e]; simp [UInt16.size]; omega
      have hbe : [12, b] = be 2 (UInt16.ofNat (beNat [12, b])).toNat := by
        rw [e']; exact (be_beNat [12, b]).symm
      refine ⟨_, PM.bind_of_err (s' := adv (adv s xs bs.length) [] 2) ?_, ?_⟩
      · unfold takeOperator
        rw [if_pos rfl]
        rw [PM.bind_of_ok (tape_of_exact exact_u16 (a := UInt16.ofNat (beNat [12, b])) (bs := [12, b]) (r := tail) hbe cfg hl')]
        unfold PM.ofRes
        rcases from_total (UInt16.ofNat (beNat [12, b])) with ⟨op, ho⟩ | ho
        · exact absurd ⟨tail, by rw [codeOf_two (from_ok.mp ho)]; rfl⟩ (ht.2.1 op)
        · rw [ho]; rfl
      · have h2 : left (adv (adv s xs bs.length) [] 2).routine = tail :=
          left_adv (s := adv s xs bs.length) (bs := [12, b]) hl' []
        simp only [view, h2]
        simp [adv]
  · refine ⟨_, PM.bind_of_err (s' := adv (adv s xs bs.length) [] 1) ?_, ?_⟩
    · unfold takeOperator
      rw [if_neg h12]
      rw [PM.bind_of_ok (tape_of_exact exact_u8 (a := c) (bs := [c]) (r := tail) rfl cfg hl')]
      unfold PM.ofRes
      rcases from_total (UInt16.ofNat c.toNat) with ⟨op, ho⟩ | ho
      · exact absurd ⟨tail, by rw [codeOf_one h12 (from_ok.mp ho)]; rfl⟩ (ht.2.1 op)
      · rw [ho]; rfl
    · have h2 : left (adv (adv s xs bs.length) [] 1).routine = tail :=
        left_adv (s := adv s xs bs.length) (bs := [c]) hl' []
      simp only [view, h2]
      simp [adv, h12]

/-! ## Failures -/

/-- There is one state only that a failure can leave. -/
theorem leaves_unique {stays : Bool} {σ τ τ' : State} (h : LeftBehind stays σ τ) (h' : LeftBehind stays σ τ') : τ = τ' := by
  cases h with
  | cut h =>
    cases h' with
    | cut h' => rfl
    | unknown h' => exact absurd h h'.2.2
    | operator hc => rw [hc] at h; exact absurd h (not_cut _ _)
  | unknown h =>
    cases h' with
    | cut h' => exact absurd h' h.2.2
    | unknown h' => rfl
    | @operator op rest hc => exact absurd (hc ▸ List.prefix_append _ _) (h.2.1 op)
  | @operator op rest hc =>
    cases h' with
    | cut h' => rw [hc] at h'; exact absurd h' (not_cut _ _)
    | unknown h' => exact absurd (hc ▸ List.prefix_append _ _) (h'.2.1 op)
    | operator hc' =>
      obtain ⟨rfl, rfl⟩ := bytes_unique (hc.symm.trans hc')
      rfl

/-- A fault is reported, and leaves what it should. -/
theorem step_left {stays : Bool} {cfg : Config} (hr : FailedRead stays cfg) {s : Program} (hs : Sound s) {υ : State}
    (hne : (view s).code ≠ []) (hp : Pushes (view s) υ) {e : Err} (hf : Fault cfg υ e) :
    ∃ s', step cfg s = (.err e, s') ∧ LeftBehind stays υ (view s') := by
  have order : ∀ {op rest}, υ.code = bytes op ++ rest → ∃ s', step cfg s = (.err e, s') ∧ LeftBehind stays υ (view s') := by
    intro op rest hc
    obtain ⟨t, rfl, ht, he⟩ := step_of_pushes cfg hs hp hc
    obtain ⟨s', h1, h2⟩ := dispatch_left hr ht hf
    refine ⟨s', he.trans h1, ?_⟩
    rw [h2]
    exact .operator (rest := left t.routine) rfl
  obtain ⟨xs, bs, hx, hc, hv⟩ := pushes_iff.mp hp
  cases hf with
  | cut h =>
    obtain ⟨s', h1, h2⟩ := step_cut hr hx hs.routine hc (by rw [← hc]; exact hne) h
    refine ⟨s', h1, ?_⟩
    rw [h2]
    have := LeftBehind.cut (stays := stays) h
    rw [hv] at this ⊢
    exact this
  | unknown h =>
    obtain ⟨s', h1, h2⟩ := step_unknown (cfg := cfg) hx hc h
    refine ⟨s', h1, ?_⟩
    rw [h2]
    have := LeftBehind.unknown (stays := stays) h
    rw [hv] at this ⊢
    exact this
  | mask _ h => exact order h
  | unsupported _ h | arguments _ h | fewer _ _ h | dup h | type _ h | rollType h | index h | rollFewer h | rollNegative h
  | subroutine h | caller h => obtain ⟨rest, h⟩ := h; exact order h
  | trailing h => exact order h

theorem onTape {stays : Bool} {cfg : Config} (hr : FailedRead stays cfg) : OnTape cfg := by
  intro p n h
  rw [hr]
  cases stays
  · simp
  · simpa using h

end Aftermath
end PS.Type2
