import Verif.Lemmas.FontSet
import Verif.Spec.Agree
/-!
# Lemmas: readers on two tapes

One reader on two related tapes: the same bytes under another configuration, a tape
that is cut short, or a tape with other bytes in front.
-/
namespace PS
open Spec

/-- Two outcomes are alike: the same value with positions `k` apart, or the same
failure.  If `P` holds, a panic on the left is like anything; if `S` holds, so is a
failure to seek on the left; if `T` holds, so is an end of file on the right. -/
inductive Alike (k : Nat) (P S T : Prop) : Res α × Nat → Res α × Nat → Prop
  | ok (a q) : Alike k P S T (.ok a, q) (.ok a, q + k)
  | err (e q q') : Alike k P S T (.err e, q) (.err e, q')
  | panic (x q q') : Alike k P S T (.panic x, q) (.panic x, q')
  | left (x q r) : P → Alike k P S T (.panic x, q) r
  | seek (q r) : S → Alike k P S T (.err .seek, q) r
  | right (q r) : T → Alike k P S T r (.err .eof, q)

/-- Related tapes. -/
structure Link where
  env : Env → Env → Prop
  base : Nat → Nat → Prop
  k : Nat
  P : Prop
  S : Prop
  T : Prop
  read : ∀ n e e' p, env e e' → Alike k P S T (Rd.readExact n e p) (Rd.readExact n e' (p + k))
  jump : ∀ e e' b b' o p, env e e' → base b b' → -2 ^ 31 ≤ o ∧ o < 2 ^ 31 →
    Alike k P S T (jumpTo b o e p) (jumpTo b' o e' (p + k))
  cfg : ∀ e e', env e e' → (e.cfg.checks = e'.cfg.checks ∧ e.cfg.prealloc = e'.cfg.prealloc) ∨ (P ∧ Milder e.cfg e'.cfg)

/-- Configurations of related tapes. -/
def Link.Cfg (L : Link) (c c' : Config) : Prop :=
  (c.checks = c'.checks ∧ c.prealloc = c'.prealloc) ∨ (L.P ∧ Milder c c')

/-- Two readers have outcomes that are alike. -/
def Like (L : Link) (m m' : Rd α) : Prop := ∀ e e' p, L.env e e' → Alike L.k L.P L.S L.T (m e p) (m' e' (p + L.k))

namespace Like
variable {L : Link}

theorem pure (a : α) : Like L (Pure.pure a : Rd α) (Pure.pure a) := fun _ _ _ _ => .ok _ _
theorem raise (r : Reason) : Like L (Rd.raise r : Rd α) (Rd.raise r) := fun _ _ _ _ => .err _ _ _
theorem panic (x : Panic) : Like L (Rd.panic x : Rd α) (Rd.panic x) := fun _ _ _ _ => .panic _ _ _

theorem bindOf {m m' : Rd α} {f f' : α → Rd β} (h : Like L m m')
    (hf : ∀ a, (∃ e p q, m e p = (.ok a, q)) → Like L (f a) (f' a)) : Like L (m >>= f) (m' >>= f') := by
  intro e e' p he
  have h := h e e' p he
  have hf : ∀ a, (∃ q, m e p = (.ok a, q)) → Like L (f a) (f' a) := fun a ⟨q, hq⟩ => hf a ⟨e, p, q, hq⟩
  show Alike _ _ _ _ (Rd.bind m f e p) (Rd.bind m' f' e' (p + L.k))
  unfold Rd.bind
  generalize m e p = r at h hf
  generalize m' e' (p + L.k) = r' at h
  cases h with
  | ok a q => exact hf a ⟨q, rfl⟩ e e' q he
  | err => exact .err _ _ _
  | panic => exact .panic _ _ _
  | left x q r h => exact .left _ _ _ h
  | seek q r h => exact .seek _ _ h
  | right q r h => exact .right _ _ h

theorem bind {m m' : Rd α} {f f' : α → Rd β} (h : Like L m m') (hf : ∀ a, Like L (f a) (f' a)) :
    Like L (m >>= f) (m' >>= f') := bindOf h (fun a _ => hf a)

theorem bindRes {r : Res α} {f f' : α → Rd β} (hf : ∀ a, r = .ok a → Like L (f a) (f' a)) :
    Like L (Rd.ofRes r >>= f) (Rd.ofRes r >>= f') := by
  refine bindOf (fun e e' p he => ?_) (fun a ⟨e, p, q, h⟩ => hf a (congrArg Prod.fst h))
  rcases r with a | a | a
  · exact .ok _ _
  · exact .err _ _ _
  · exact .panic _ _ _

theorem cfg_bind {f f' : Config → Rd α} (h : ∀ c c', L.Cfg c c' → Like L (f c) (f' c')) :
    Like L (Rd.cfg >>= f) (Rd.cfg >>= f') :=
  fun e e' p he => h e.cfg e'.cfg (L.cfg e e' he) e e' p he

theorem ite {c : Prop} [Decidable c] {m m' n n' : Rd α} (hm : c → Like L m m') (hn : ¬ c → Like L n n') :
    Like L (if c then m else n) (if c then m' else n') := by
  by_cases hc : c
  · rw [if_pos hc, if_pos hc]; exact hm hc
  · rw [if_neg hc, if_neg hc]; exact hn hc

theorem ofRes {r r' : Res α} (h : r = r' ∨ (L.P ∧ ∃ x, r = .panic x)) : Like L (Rd.ofRes r) (Rd.ofRes r') := by
  intro e e' p he
  rcases h with rfl | ⟨h, x, rfl⟩
  · rcases r with a | a | a
    · exact .ok _ _
    · exact .err _ _ _
    · exact .panic _ _ _
  · exact .left _ _ _ h

theorem readExact (n : Nat) : Like L (Rd.readExact n) (Rd.readExact n) := L.read n

theorem u8 : Like L Rd.u8 Rd.u8 := bind (readExact 1) (fun _ => pure _)
theorem u16 : Like L Rd.u16 Rd.u16 := bind (readExact 2) (fun _ => pure _)
theorem u32 : Like L Rd.u32 Rd.u32 := bind (readExact 4) (fun _ => pure _)

theorem peek {m m' : Rd α} (h : Like L m m') : Like L (Rd.peek m) (Rd.peek m') := by
  intro e e' p he
  have h := h e e' p he
  show Alike _ _ _ _ ((m e p).1, p) ((m' e' (p + L.k)).1, p + L.k)
  generalize m e p = r at h
  generalize m' e' (p + L.k) = r' at h
  cases h with
  | ok a q => exact .ok _ _
  | err => exact .err _ _ _
  | panic => exact .panic _ _ _
  | left x q r h => exact .left _ _ _ h
  | seek q r h => exact .seek _ _ h
  | right q r h => exact .right _ _ h

theorem replicate {m m' : Rd α} (h : Like L m m') (n : Nat) : Like L (Rd.replicate n m) (Rd.replicate n m') := by
  induction n with
  | zero => exact pure _
  | succ n ih => exact bind h (fun _ => bind ih (fun _ => pure _))

theorem vec {m m' : Rd α} (h : Like L m m') (w n : Nat) : Like L (Rd.vec w n m) (Rd.vec w n m') := by
  refine cfg_bind (fun c c' hc => ?_)
  rcases hc with ⟨-, h1⟩ | ⟨hP, -, hp, -⟩
  · rw [h1]
    exact ite (fun _ => panic _) (fun _ => replicate h n)
  · by_cases h1 : c.prealloc = true ∧ n * w > 2 ^ 63 - 1
    · rw [if_pos h1]
      exact fun _ _ _ _ => .left _ _ _ hP
    · rw [if_neg h1, if_neg (fun h2 => h1 ⟨hp h2.1, h2.2⟩)]
      exact replicate h n

theorem checked {c c' : Config} (h : L.Cfg c c') {ok : Prop} [Decidable ok] (a b : α) :
    (if ok then Res.ok a else if c.checks then .panic .overflow else .ok b) =
      (if ok then Res.ok a else if c'.checks then .panic .overflow else .ok b) ∨
    (L.P ∧ ∃ x, (if ok then Res.ok a else if c.checks then .panic .overflow else .ok b) = .panic x) := by
  rcases h with ⟨h1, -⟩ | ⟨hP, hc, -⟩
  · rw [h1]
    exact .inl rfl
  · by_cases ho : ok
    · simp only [if_pos ho, true_or]
    · simp only [if_neg ho]
      by_cases h1 : c.checks = true
      · exact .inr ⟨hP, .overflow, if_pos h1⟩
      · have : ¬ c'.checks = true := fun h => h1 (hc h)
        rw [if_neg h1, if_neg this]
        exact .inl rfl

theorem i32 (z : Int) : Like L (Rd.i32 z) (Rd.i32 z) :=
  cfg_bind (fun _ _ hc => ofRes (checked hc _ _))

theorem addI32 {c c' : Config} (h : L.Cfg c c') (a b : Int) :
    Like L (Rd.ofRes (addI32 c.checks a b)) (Rd.ofRes (addI32 c'.checks a b)) := ofRes (checked h _ _)

theorem addI32_small {checks : Bool} {a b c : Int} (h : PS.addI32 checks a b = .ok c) : -2 ^ 31 ≤ c ∧ c < 2 ^ 31 := by
  unfold PS.addI32 wrapI32 at h
  split at h
  · injection h with h; omega
  · split at h
    · simp at h
    · injection h with h
      subst h
      unfold toS toU
      dsimp only
      split <;> omega

theorem subU32 {c c' : Config} (h : L.Cfg c c') (a b : UInt32) :
    Like L (Rd.ofRes (subU32 c.checks a b)) (Rd.ofRes (subU32 c'.checks a b)) := ofRes (checked h _ _)

theorem jumpTo {b b' : Nat} (h : L.base b b') {o : Int} (ho : -2 ^ 31 ≤ o ∧ o < 2 ^ 31) :
    Like L (jumpTo b o) (jumpTo b' o) :=
  fun e e' p he => L.jump e e' b b' o p he h ho

end Like

/-- Steps through a reader whose parts are alike. -/
macro "like" : tactic => `(tactic| repeat' first
  | exact Like.pure _
  | exact Like.raise _
  | exact Like.panic _
  | exact Like.u8
  | exact Like.u16
  | exact Like.u32
  | exact Like.readExact _
  | exact Like.i32 _
  | exact Like.ofRes (.inl rfl)
  | refine Like.vec ?_ _ _
  | refine Like.replicate ?_ _
  | refine Like.peek ?_
  | refine Like.ite (fun _ => ?_) (fun _ => ?_)
  | refine Like.bind ?_ (fun _ => ?_))

section
variable {L : Link}

theorem like_offset (size : UInt8) : Like L (readOffset size) (readOffset size) := by
  unfold readOffset; like

theorem like_bytes (n : Nat) : Like L (Rd.bytes n) (Rd.bytes n) := by
  unfold Rd.bytes; like

theorem like_readData (offsets : List UInt32) : Like L (Index.readData offsets) (Index.readData offsets) := by
  match offsets with
  | [] => exact Like.pure _
  | [a] => exact Like.pure _
  | a :: b :: rest =>
    unfold Index.readData
    refine Like.ite (fun _ => Like.raise _) (fun _ => Like.cfg_bind (fun c c' hc => ?_))
    exact Like.bind (Like.subU32 hc _ _) (fun _ => Like.bind (like_bytes _) (fun _ => Like.bind (like_readData _)
      (fun _ => Like.pure _)))

theorem like_index : Like L Index.read Index.read := by
  unfold Index.read
  refine Like.bind Like.u16 (fun count => Like.ite (fun _ => Like.pure _) (fun _ => Like.bind Like.u8 (fun size =>
    Like.bind (Like.replicate (like_offset size) _) (fun offsets => ?_))))
  match offsets with
  | [] => exact Like.panic _
  | first :: rest => exact Like.ite (fun _ => Like.raise _) (fun _ => Like.bind (like_readData _) (fun _ => Like.pure _))

theorem like_header : Like L Header.read Header.read := by unfold Header.read; like

theorem like_characterStrings (format : Int) : Like L (readCharacterStrings format) (readCharacterStrings format) := by
  unfold readCharacterStrings
  exact Like.ite (fun _ => like_index) (fun _ => Like.raise _)

namespace CharacterSet

theorem like_readRange1 : Like L readRange1 readRange1 := by unfold readRange1; like
theorem like_readRange2 : Like L readRange2 readRange2 := by unfold readRange2; like

theorem like_read0 (n : Nat) : Like L (read0 n) (read0 n) := by
  unfold read0
  refine Like.bind Like.u8 (fun f => Like.ite (fun _ => Like.raise _) (fun _ => Like.cfg_bind (fun c c' hc => ?_)))
  generalize (if n = 0 then 2 ^ 64 - 1 else n - 1) = m
  have key : Like L (do
      let glyphs ← Rd.vec 2 m Rd.u16
      pure (format0 f glyphs) : Rd CharacterSet) (do
      let glyphs ← Rd.vec 2 m Rd.u16
      pure (format0 f glyphs) : Rd CharacterSet) := by like
  rcases hc with ⟨h1, -⟩ | ⟨hP, hc, -⟩
  · rw [h1]
    exact Like.ite (fun _ => Like.panic _) (fun _ => key)
  · by_cases h1 : n = 0 ∧ c.checks = true
    · rw [if_pos h1]
      exact fun _ _ _ _ => .left _ _ _ hP
    · rw [if_neg h1, if_neg (fun h2 => h1 ⟨h2.1, hc h2.2⟩)]
      exact key

theorem like_readRanges1 (fuel n found : Nat) : Like L (readRanges1 fuel n found) (readRanges1 fuel n found) := by
  induction fuel generalizing found with
  | zero => unfold readRanges1; like
  | succ fuel ih =>
    unfold readRanges1
    exact Like.ite (fun _ => Like.bind like_readRange1 (fun _ => Like.bind (ih _) (fun _ => Like.pure _))) (fun _ => Like.pure _)

theorem like_readRanges2 (fuel n found : Nat) : Like L (readRanges2 fuel n found) (readRanges2 fuel n found) := by
  induction fuel generalizing found with
  | zero => unfold readRanges2; like
  | succ fuel ih =>
    unfold readRanges2
    exact Like.ite (fun _ => Like.bind like_readRange2 (fun _ => Like.bind (ih _) (fun _ => Like.pure _))) (fun _ => Like.pure _)

theorem like_read (n : Nat) : Like L (read n) (read n) := by
  unfold read
  refine Like.bind (Like.peek Like.u8) (fun _ => Like.ite (fun _ => like_read0 n) (fun _ => Like.ite (fun _ => ?_) (fun _ =>
    Like.ite (fun _ => ?_) (fun _ => Like.raise _))))
  · unfold read1
    refine Like.bind Like.u8 (fun _ => Like.ite (fun _ => Like.raise _) (fun _ => Like.bind (like_readRanges1 _ _ _)
      (fun _ => ?_)))
    like
  · unfold read2
    refine Like.bind Like.u8 (fun _ => Like.ite (fun _ => Like.raise _) (fun _ => Like.bind (like_readRanges2 _ _ _)
      (fun _ => ?_)))
    like

end CharacterSet

namespace Encoding

theorem like_read : Like L read read := by
  unfold read read0 read1 readSupplemental readRange1 readSupplement; like

end Encoding

namespace DictEncoding

theorem like_read (cs : Index) : Like L (read cs) (read cs) := by
  unfold read read0 read3 readRange3; like

end DictEncoding

/-- What dictionaries are read as does not depend on the configuration. -/
theorem ofBytes_cfg (c c' : Config) (chunk : List UInt8) : Operations.ofBytes c chunk = Operations.ofBytes c' chunk := by
  show (Operations.read (tape c chunk) 0).1 = (Operations.read (tape c' chunk) 0).1
  rcases operations_total (tape c chunk) 0 with ⟨o, q, h⟩ | ⟨q, h⟩ | ⟨q, h⟩
  · have h1 := (operations_ok (env := tape c chunk)).mp ⟨q, h⟩
    obtain ⟨q', h'⟩ := (operations_ok (env := tape c' chunk)).mpr h1
    rw [h, h']
  · have h1 := (operations_err (env := tape c chunk) (by simp)).mp ⟨q, h⟩
    obtain ⟨q', h'⟩ := (operations_err (env := tape c' chunk) (by simp)).mpr h1
    rw [h, h']
  · have h1 := (operations_err (env := tape c chunk) (by simp)).mp ⟨q, h⟩
    obtain ⟨q', h'⟩ := (operations_err (env := tape c' chunk) (by simp)).mpr h1
    rw [h, h']

theorem toOperations_cfg (c c' : Config) (ix : Index) : ix.toOperations c = ix.toOperations c' := by
  have key : ∀ n i, ix.toOperationsFrom c i n = ix.toOperationsFrom c' i n := by
    intro n
    induction n with
    | zero => intro i; rfl
    | succ n ih =>
      intro i
      unfold Index.toOperationsFrom Index.getOperations
      simp only [ih, ofBytes_cfg c c']
  exact key _ _

theorem getI_small {o : Operations} (h : Small o) {op : Operator} {i : Int} (hi : getI o op = .ok i) :
    -2 ^ 31 ≤ i ∧ i < 2 ^ 31 := by
  exact intOf_int32 h (getI_ok.mp hi)

theorem like_private {b b' : Nat} (hb : L.base b b') {top : Operations} (ht : Small top) :
    Like L (PrivateRecord.read b top) (PrivateRecord.read b' top) := by
  unfold PrivateRecord.read
  refine Like.cfg_bind (fun c c' hc => Like.bindRes (fun x hx => ?_))
  obtain ⟨size, offset⟩ := x
  obtain ⟨rest, hr⟩ := getPrivate_ok.mp hx
  refine Like.bind (Like.jumpTo hb (ht _ _ _ hr (by simp))) (fun _ =>
    Like.bind (like_bytes _) (fun chunk => Like.bind (Like.ofRes (.inl (ofBytes_cfg c c' chunk))) (fun o =>
    Like.bind (Like.ofRes (.inl rfl)) (fun another => Like.bind ?_ (fun _ => Like.pure _)))))
  rcases another with _ | another
  · exact Like.pure _
  · refine Like.bindOf (Like.addI32 hc _ _) (fun s hs => ?_)
    obtain ⟨e, p, q, hs⟩ := hs
    exact Like.bind (Like.jumpTo hb (Like.addI32_small (congrArg Prod.fst hs))) (fun _ => like_index)

theorem like_privates {b b' : Nat} (hb : L.base b b') {tops : List Operations} (ht : ∀ x ∈ tops, Small x) :
    Like L (readPrivateRecords b tops) (readPrivateRecords b' tops) := by
  induction tops with
  | nil => exact Like.pure _
  | cons top tops ih =>
    exact Like.bind (like_private hb (ht _ (by simp))) (fun _ => Like.bind (ih (fun x hx => ht x (by simp [hx])))
      (fun _ => Like.pure _))

theorem toOperations_small {c : Config} {ix : Index} {xs : List Operations} (h : ix.toOperations c = .ok xs) :
    ∀ x ∈ xs, Small x := by
  have h := toOperations_ok.mp h
  intro x hx
  obtain ⟨i, hi, rfl⟩ := List.getElem_of_mem hx
  have := (List.forall₂_iff_get.mp h).2 i (by rw [(List.forall₂_iff_get.mp h).1]; exact hi) hi
  exact dictOf_small this

theorem like_operations {c c' : Config} {ix : Index} {f f' : List Operations → Rd β}
    (hf : ∀ xs, (∀ x ∈ xs, Small x) → Like L (f xs) (f' xs)) :
    Like L (Rd.ofRes (ix.toOperations c) >>= f) (Rd.ofRes (ix.toOperations c') >>= f') := by
  rw [toOperations_cfg c' c]
  exact Like.bindRes (fun xs hx => hf xs (toOperations_small hx))

theorem like_cid {b b' : Nat} (hb : L.base b b') {top : Operations} (ht : Small top) (cs : Index) :
    Like L (CIDRecord.read b top cs) (CIDRecord.read b' top cs) := by
  unfold CIDRecord.read
  split
  · refine Like.cfg_bind (fun c c' hc => Like.bindRes (fun o ho => Like.bind (Like.jumpTo hb (getI_small ht ho)) (fun _ =>
      Like.bind (DictEncoding.like_read cs) (fun _ => Like.bindRes (fun o ho => Like.bind (Like.jumpTo hb (getI_small ht ho))
      (fun _ => Like.bind like_index (fun dicts => like_operations (fun xs hx =>
      Like.bind (like_privates hb hx) (fun _ => ?_)))))))))
    like
  · exact Like.raise _

theorem like_record {b b' : Nat} (hb : L.base b b') {top : Operations} (ht : Small top) (cs : Index) :
    Like L (Record.read b top cs) (Record.read b' top cs) := by
  unfold Record.read
  exact Like.ite (fun _ => Like.bind (like_cid hb ht _) (fun _ => Like.pure _))
    (fun _ => Like.bind (like_private hb ht) (fun _ => Like.pure _))

theorem like_entry {b b' : Nat} (hb : L.base b b') {top : Operations} (ht : Small top) :
    Like L (FontEntry.read b top) (FontEntry.read b' top) := by
  unfold FontEntry.read
  refine Like.bindRes (fun o ho => Like.bind (Like.jumpTo hb (getI_small ht ho)) (fun _ => Like.bindRes
    (fun _ _ => Like.bind (like_characterStrings _) (fun cs => Like.bindRes (fun o ho => Like.bind ?_ (fun _ =>
    Like.bindRes (fun o ho => Like.bind ?_ (fun _ => Like.bind (like_record hb ht _) (fun _ => Like.pure _)))))))))
  · exact Like.ite (fun _ => Like.pure _) (fun _ => Like.ite (fun _ => Like.pure _) (fun _ =>
      Like.ite (fun _ => Like.pure _) (fun _ => Like.bind (Like.jumpTo hb (getI_small ht ho)) (fun _ =>
      CharacterSet.like_read _))))
  · exact Like.ite (fun _ => Like.pure _) (fun _ => Like.ite (fun _ => Like.pure _) (fun _ =>
      Like.bind (Like.jumpTo hb (getI_small ht ho)) (fun _ => Encoding.like_read)))

theorem like_entries {b b' : Nat} (hb : L.base b b') {tops : List Operations} (ht : ∀ x ∈ tops, Small x) :
    Like L (readEntries b tops) (readEntries b' tops) := by
  induction tops with
  | nil => exact Like.pure _
  | cons top tops ih =>
    exact Like.bind (like_entry hb (ht _ (by simp))) (fun _ => Like.bind (ih (fun x hx => ht x (by simp [hx])))
      (fun _ => Like.pure _))

/-- `FontSet.read` with its starting position given. -/
def FontSet.readFrom (position : Nat) : Rd FontSet := do
  let c ← Rd.cfg
  let header ← Header.read
  jumpTo position header.headerSize.toNat
  let names ← Index.read
  let dictionaries ← Index.read
  let operations ← Rd.ofRes (dictionaries.toOperations c)
  let strings ← Index.read
  let subroutines ← Index.read
  let entries ← readEntries position operations
  pure {
    header, names, operations, strings, subroutines
    encodings := entries.map FontEntry.encoding
    characterStrings := entries.map FontEntry.characterStrings
    characterSets := entries.map FontEntry.characterSet
    records := entries.map FontEntry.record }

/-- `FontSet.count` with its starting position given. -/
def FontSet.countFrom (position : Nat) : Rd Nat := do
  let header ← Header.read
  jumpTo position header.headerSize.toNat
  let count ← Rd.u16
  pure count.toNat

theorem fontSet_from (e : Env) (p : Nat) : FontSet.read e p = FontSet.readFrom p e p := by
  unfold FontSet.read FontSet.readFrom
  rw [cfg_bind, cfg_bind]
  rfl

theorem count_from (e : Env) (p : Nat) : FontSet.count e p = FontSet.countFrom p e p := rfl

theorem like_fontSet {b b' : Nat} (hb : L.base b b') : Like L (FontSet.readFrom b) (FontSet.readFrom b') := by
  unfold FontSet.readFrom
  refine Like.cfg_bind (fun c c' hc => Like.bind like_header (fun h =>
    Like.bind (Like.jumpTo hb (by have := h.headerSize.toNat_lt; omega)) (fun _ => Like.bind like_index (fun _ =>
    Like.bind like_index (fun dicts => like_operations (fun xs hx => Like.bind like_index (fun _ =>
    Like.bind like_index (fun _ => Like.bind (like_entries hb hx) (fun _ => Like.pure _)))))))))

theorem like_count {b b' : Nat} (hb : L.base b b') : Like L (FontSet.countFrom b) (FontSet.countFrom b') := by
  unfold FontSet.countFrom
  exact Like.bind like_header (fun h => Like.bind (Like.jumpTo hb (by have := h.headerSize.toNat_lt; omega)) (fun _ =>
    Like.bind Like.u16 (fun _ => Like.pure _)))

end

/-- The same bytes under another configuration. -/
def mildened : Link where
  env e e' := e.data = e'.data ∧ Milder e.cfg e'.cfg
  base b b' := b = b'
  k := 0
  P := True
  S := False
  T := False
  read n e e' p h := by
    unfold Rd.readExact
    rw [h.1]
    simp only [Nat.add_zero]
    split
    · exact .ok _ _
    · exact .err _ _ _
  jump e e' b b' o p h hb ho := by
    subst hb
    obtain ⟨-, h1, -, h2⟩ := h
    rw [jumpTo_eq, jumpTo_eq, ← h2]
    split
    · split
      · exact .ok _ _
      · exact .err _ _ _
    · by_cases hc : e.cfg.checks = true
      · rw [if_pos hc]
        exact .left _ _ _ trivial
      · rw [if_neg hc, if_neg (fun h => hc (h1 h))]
        split
        · exact .ok _ _
        · exact .err _ _ _
  cfg e e' h := .inr ⟨trivial, h.2⟩

/-- A tape that is cut short. -/
def shortened : Link where
  env e e' := e.cfg = e'.cfg ∧ ∃ n, e'.data = e.data.take n
  base b b' := b = b'
  k := 0
  P := False
  S := False
  T := True
  read n e e' p h := by
    obtain ⟨h1, k, h2⟩ := h
    unfold Rd.readExact
    by_cases h3 : n ≤ e'.data.length - p
    · have h4 : n ≤ e.data.length - p := by rw [h2, List.length_take] at h3; omega
      simp only [Nat.add_zero]
      rw [if_pos h3, if_pos h4]
      have : (e'.data.drop p).take n = (e.data.drop p).take n := by
        rw [h2, List.drop_take, List.take_take]
        congr 1
        rw [h2, List.length_take] at h3
        omega
      rw [this]
      exact .ok _ _
    · simp only [Nat.add_zero]
      rw [if_neg h3]
      exact .right _ _ trivial
  jump e e' b b' o p h hb ho := by
    subst hb
    rw [jumpTo_eq, jumpTo_eq, ← h.1]
    split
    · split
      · exact .ok _ _
      · exact .err _ _ _
    · split
      · exact .panic _ _ _
      · split
        · exact .ok _ _
        · exact .err _ _ _
  cfg e e' h := .inl (by rw [h.1]; exact ⟨rfl, rfl⟩)

/-- A tape with other bytes in front, where at least as much can be sought. -/
def moved (cfg : Config) (k : Nat) : Link where
  env e e' := e.cfg = cfg ∧ (∃ m, cfg.maxSeek ≤ m ∧ e'.cfg = { cfg with maxSeek := m }) ∧ (∃ junk : List UInt8, junk.length = k ∧ e'.data = junk ++ e.data) ∧
    cfg.maxSeek < 2 ^ 64 - 2 ^ 31
  base b b' := b' = b + k ∧ b' + 2 ^ 31 ≤ cfg.maxSeek
  k := k
  P := False
  S := True
  T := False
  read n e e' p h := by
    obtain ⟨-, -, ⟨junk, rfl, h⟩, -⟩ := h
    unfold Rd.readExact
    rw [h, List.length_append, show junk.length + e.data.length - (p + junk.length) = e.data.length - p by omega,
      Nat.add_comm p junk.length, List.drop_append, List.drop_eq_nil_of_le (as := junk) (by omega), List.nil_append,
      Nat.add_sub_cancel_left]
    split
    · rw [show junk.length + p + n = p + n + junk.length by omega]
      exact .ok _ _
    · exact .err _ _ _
  jump e e' b b' o p h hb ho := by
    obtain ⟨rfl, ⟨m, hm, h2⟩, -, h3⟩ := h
    obtain ⟨rfl, h4⟩ := hb
    rw [jumpTo_eq, jumpTo_eq, h2]
    dsimp only
    have hw : (0 ≤ o ∧ (toU 64 o : Int) = o) ∨ (o < 0 ∧ (toU 64 o : Int) = 2 ^ 64 + o) := by unfold toU; omega
    generalize toU 64 o = w at hw
    rcases hw with ⟨h5, h6⟩ | ⟨h5, h6⟩
    · rw [if_pos (by omega), if_pos (by omega), if_pos (by omega), if_pos (by omega),
        show b + k + w = b + w + k by omega]
      exact .ok _ _
    · by_cases h7 : b + w < 2 ^ 64
      · rw [if_pos h7, if_neg (by omega)]
        exact .seek _ _ trivial
      · rw [if_neg h7, if_neg (show ¬ b + k + w < 2 ^ 64 by omega)]
        split
        · exact .panic _ _ _
        · rw [if_pos (by omega), if_pos (by omega), show (b + k + w) % 2 ^ 64 = (b + w) % 2 ^ 64 + k by omega]
          exact .ok _ _
  cfg e e' h := by
    obtain ⟨rfl, ⟨m, -, h⟩, -⟩ := h
    exact .inl (by rw [h]; exact ⟨rfl, rfl⟩)

end PS
