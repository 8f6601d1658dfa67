import Verif.Model.Metered
import Verif.Lemmas.Writer
import Verif.Props.Size
import Verif.Lemmas.Agree
/-!
# Lemmas: the work of reading font sets
-/
namespace PS
open Spec

namespace Metered
open Md

/-! ## Counting does not change anything -/

/-- Without the count, it is the same. -/
def Erases (env : Env) (w : Md α) (m : Rd α) : Prop := ∀ p, (w env p).1 = m env p

variable {env : Env}

theorem Erases.lift (m : Rd α) : Erases env (lift m) m := fun _ => rfl
theorem Erases.once (m : Rd α) : Erases env (once m) m := fun _ => rfl
theorem Erases.pure (a : α) : Erases env (Md.lift (Rd.pure a)) (Pure.pure a) := fun _ => rfl

theorem Erases.bind {w : Md α} {m : Rd α} {f : α → Md β} {g : α → Rd β} (h : Erases env w m) (hf : ∀ a, Erases env (f a) (g a)) :
    Erases env (w >>= f) (m >>= g) := fun p => by
  have h1 := h p
  show (Md.bind w f env p).1 = Rd.bind m g env p
  unfold Md.bind Rd.bind
  rcases e : w env p with ⟨⟨a | x | x, t⟩, n⟩ <;> rw [e] at h1 <;> rw [← h1]
  exact hf a t

theorem Erases.spend (a : Nat) {f : Unit → Md β} {m : Rd β} (h : Erases env (f ()) m) : Erases env (Md.spend a >>= f) m :=
  fun p => h p

theorem Erases.reserve (a : Nat) {f : Unit → Md β} {m : Rd β} (h : Erases env (f ()) m) : Erases env (Md.reserve a >>= f) m :=
  fun p => h p

theorem Erases.cfg {f : Config → Md β} {g : Config → Rd β} (h : Erases env (f env.cfg) (g env.cfg)) :
    Erases env (Md.lift Rd.cfg >>= f) (Rd.cfg >>= g) := fun p => h p

theorem Erases.cfg' {w : Md β} {g : Config → Rd β} (h : Erases env w (g env.cfg)) : Erases env w (Rd.cfg >>= g) := fun p => h p

theorem erases_replicate {w : Md α} {m : Rd α} (h : Erases env w m) : ∀ n, Erases env (replicate n w) (Rd.replicate n m)
  | 0 => .pure _
  | n + 1 => .bind h fun _ => .bind (erases_replicate h n) fun _ => .pure _

theorem erases_vec {w : Md α} {m : Rd α} (h : Erases env w m) (width count : Nat) : Erases env (vec width count w) (Rd.vec width count m) := by
  refine .cfg ?_
  split
  · exact .lift _
  · exact .reserve _ (erases_replicate h _)

theorem erases_parseLoop : ∀ (fuel : Nat) (byte : UInt8) (high : Bool) (buffer : List Char),
    Erases env (parseLoop fuel byte high buffer) (Number.parseLoop fuel byte high buffer)
  | 0, _, _, _ => .lift _
  | fuel + 1, byte, high, buffer => by
    refine .spend _ (.bind ?_ fun byte => ?_)
    · split
      · exact .once _
      · exact .pure _
    dsimp only
    repeat' split
    all_goals first
      | exact erases_parseLoop fuel _ _ _
      | exact .pure _
      | exact .lift _

theorem erases_parse : Erases env parse Number.parse := by
  refine .bind (.lift _) fun _ => .bind (erases_parseLoop _ _ _ _) fun b => ?_
  cases parseF32 b
  · exact .lift _
  · exact .pure _

theorem erases_readNumber : Erases env readNumber Number.read := by
  refine .bind (.once _) fun first => ?_
  repeat' split
  all_goals first
    | exact .bind (.lift _) fun _ => .pure _
    | exact .bind (.once _) fun _ => .pure _
    | exact .bind erases_parse fun _ => .pure _
    | exact .lift _

theorem erases_readOperationLoop : ∀ (fuel : Nat) (operands : List Number),
    Erases env (readOperationLoop fuel operands) (Operations.readOperationLoop fuel operands)
  | 0, _ => .lift _
  | fuel + 1, operands => by
    refine .bind (.once _) fun code => ?_
    split
    · exact .bind erases_readNumber fun _ => erases_readOperationLoop fuel _
    · exact .bind (.once _) fun _ => .bind (.lift _) fun _ => .pure _

theorem erases_readOperation : Erases env readOperation Operations.readOperation :=
  .bind (.lift _) fun _ => erases_readOperationLoop _ _

theorem erases_readLoop : ∀ (fuel : Nat) (o : Operations), Erases env (readLoop fuel o) (Operations.readLoop fuel o)
  | 0, _ => .lift _
  | fuel + 1, o => fun p => by
    have h1 := erases_readOperation (env := env) p
    unfold readLoop Operations.readLoop
    rcases e : readOperation env p with ⟨⟨⟨op, xs⟩ | x | x, t⟩, n⟩ <;> rw [e] at h1 <;> simp only [← h1]
    · exact erases_readLoop fuel _ t
    · cases x <;> rfl

theorem erases_readOperations : Erases env readOperations Operations.read := .bind (.lift _) fun _ => erases_readLoop _ _

theorem erases_ofBytes (chunk : List UInt8) : Erases env (ofBytes chunk) (Rd.ofRes (Operations.ofBytes env.cfg chunk)) := fun p => by
  unfold ofBytes Rd.ofRes Operations.ofBytes
  rw [erases_readOperations (env := { env with data := chunk })]

theorem ofRes_bind (r : Res α) (f : α → Rd β) : (Rd.ofRes r >>= f) = match r with
    | .ok a => f a
    | .err e => Rd.fail e
    | .panic x => Rd.panic x := by
  funext env p
  show Rd.bind _ _ _ _ = _
  unfold Rd.bind Rd.ofRes
  cases r <;> rfl

theorem toOperationsFrom_shift (cfg : Config) (ix : Index) : ∀ (l : List (List UInt8)) (i : Nat), (∀ j, l[j]? = ix.data[i + j]?) →
    Erases ⟨cfg, d⟩ (toOperationsFrom l) (Rd.ofRes (ix.toOperationsFrom cfg i l.length))
  | [], i, _ => .lift _
  | c :: l, i, h => by
    have h0 : ix.data[i]? = some c := by simpa using (h 0).symm
    have ih := toOperationsFrom_shift (d := d) cfg ix l (i + 1) fun j => by
      have := h (j + 1)
      rw [List.getElem?_cons_succ] at this
      rw [this]
      congr 1
      omega
    have h1 : Rd.ofRes (ix.toOperationsFrom cfg i (c :: l).length) = (Rd.ofRes (Operations.ofBytes cfg c) >>= fun o =>
        Rd.ofRes (ix.toOperationsFrom cfg (i + 1) l.length) >>= fun rest => Pure.pure (o :: rest)) := by
      rw [List.length_cons, Index.toOperationsFrom, Index.getOperations, h0]
      simp only [ofRes_bind]
      cases Operations.ofBytes cfg c with
      | ok o => cases ix.toOperationsFrom cfg (i + 1) l.length <;> rfl
      | err e => rfl
      | panic x => rfl
    rw [h1]
    exact .spend _ (.bind (erases_ofBytes (env := ⟨cfg, d⟩) c) fun o => .bind ih fun _ => .pure _)

theorem erases_toOperations (ix : Index) : Erases env (toOperations ix) (Rd.ofRes (ix.toOperations env.cfg)) :=
  .reserve _ (toOperationsFrom_shift (d := env.data) env.cfg ix ix.data 0 fun j => by rw [Nat.zero_add])

theorem erases_bytes (n : Nat) : Erases env (bytes n) (Rd.bytes n) := erases_vec (.once _) _ _

theorem erases_readData : ∀ l : List UInt32, Erases env (readData l) (Index.readData l)
  | [] => .pure _
  | [_] => .pure _
  | a :: b :: rest => by
    unfold readData Index.readData
    refine .spend _ ?_
    split
    · exact .lift _
    · exact .bind (.lift _) fun _ => .bind (.lift _) fun _ => .bind (erases_bytes _) fun _ => .bind (erases_readData _) fun _ => .pure _

theorem erases_readIndex : Erases env readIndex Index.read := by
  refine .bind (.once _) fun count => ?_
  split
  · exact .pure _
  refine .bind (.once _) fun size => .reserve _ (.bind (erases_replicate (.once _) _) fun offsets => ?_)
  cases offsets with
  | nil => exact .lift _
  | cons first rest =>
    dsimp only
    split
    · exact .lift _
    · exact .reserve _ (.bind (erases_readData _) fun _ => .pure _)

theorem erases_readCharacterStrings (format : Int) : Erases env (readCharacterStrings format) (PS.readCharacterStrings format) := by
  unfold readCharacterStrings PS.readCharacterStrings
  split
  · exact erases_readIndex
  · exact .lift _

theorem erases_readSet0 (n : Nat) : Erases env (readSet0 n) (CharacterSet.read0 n) := by
  refine .bind (.once _) fun format => ?_
  split
  · exact .lift _
  refine .cfg ?_
  split
  · exact .lift _
  · exact .bind (erases_vec (.once _) _ _) fun _ => .pure _

theorem erases_readRanges1 : ∀ fuel n k, Erases env (readRanges1 fuel n k) (CharacterSet.readRanges1 fuel n k)
  | 0, n, k => by
    unfold readRanges1 CharacterSet.readRanges1
    split
    · exact .lift _
    · exact .pure _
  | fuel + 1, n, k => by
    unfold readRanges1 CharacterSet.readRanges1
    split
    · exact .bind (.once _) fun _ => .bind (erases_readRanges1 fuel _ _) fun _ => .pure _
    · exact .pure _

theorem erases_readSet1 (n : Nat) : Erases env (readSet1 n) (CharacterSet.read1 n) := by
  refine .bind (.once _) fun format => ?_
  split
  · exact .lift _
  refine .bind (erases_readRanges1 _ _ _) fun _ => ?_
  dsimp only
  split
  · exact .lift _
  · exact .pure _

theorem erases_readRanges2 : ∀ fuel n k, Erases env (readRanges2 fuel n k) (CharacterSet.readRanges2 fuel n k)
  | 0, n, k => by
    unfold readRanges2 CharacterSet.readRanges2
    split
    · exact .lift _
    · exact .pure _
  | fuel + 1, n, k => by
    unfold readRanges2 CharacterSet.readRanges2
    split
    · exact .bind (.once _) fun _ => .bind (erases_readRanges2 fuel _ _) fun _ => .pure _
    · exact .pure _

theorem erases_readSet2 (n : Nat) : Erases env (readSet2 n) (CharacterSet.read2 n) := by
  refine .bind (.once _) fun format => ?_
  split
  · exact .lift _
  refine .bind (erases_readRanges2 _ _ _) fun _ => ?_
  dsimp only
  split
  · exact .lift _
  · exact .pure _

theorem erases_readSet (n : Nat) : Erases env (readSet n) (CharacterSet.read n) := by
  refine .bind (.once _) fun format => ?_
  repeat' split
  · exact erases_readSet0 _
  · exact erases_readSet1 _
  · exact erases_readSet2 _
  · exact .lift _

theorem erases_readEncoding : Erases env readEncoding Encoding.read := by
  refine .bind (.once _) fun format => ?_
  repeat' split
  · refine .bind (.once _) fun _ => ?_
    split
    · exact .lift _
    · exact .bind (.once _) fun _ => .bind (erases_vec (.once _) _ _) fun _ => .pure _
  · refine .bind (.once _) fun _ => ?_
    split
    · exact .lift _
    · exact .bind (.once _) fun _ => .bind (erases_vec (.once _) _ _) fun _ => .pure _
  · exact .bind (.once _) fun _ => .bind (.once _) fun _ => .bind (erases_vec (.once _) _ _) fun _ => .pure _
  · exact .lift _

theorem erases_readPrivate (position : Nat) (top : Operations) : Erases env (readPrivate position top) (PrivateRecord.read position top) := by
  refine .cfg (.bind (.lift _) fun x => ?_)
  refine .bind (.once _) fun _ => .bind (erases_bytes _) fun _ => .bind (erases_ofBytes _) fun _ => .bind (.lift _) fun another => ?_
  refine .bind ?_ fun _ => .pure _
  cases another with
  | none => exact .pure _
  | some o => exact .bind (.lift _) fun _ => .bind (.once _) fun _ => erases_readIndex

theorem erases_readSelect (ix : Index) : Erases env (readSelect ix) (DictEncoding.read ix) := by
  refine .bind (.once _) fun format => ?_
  repeat' split
  · exact .bind (.once _) fun _ => .bind (erases_vec (.once _) _ _) fun _ => .pure _
  · refine .bind (.once _) fun _ => ?_
    split
    · exact .lift _
    · exact .bind (.once _) fun _ => .bind (erases_vec (.once _) _ _) fun _ => .bind (.once _) fun _ => .pure _
  · exact .lift _

theorem erases_readPrivateRecords (position : Nat) : ∀ l, Erases env (readPrivateRecords position l) (PS.readPrivateRecords position l)
  | [] => .pure _
  | _ :: l => .spend _ (.bind (erases_readPrivate _ _) fun _ => .bind (erases_readPrivateRecords position l) fun _ => .pure _)

theorem erases_readCIDRecord (position : Nat) (top : Operations) (ix : Index) :
    Erases env (readCIDRecord position top ix) (CIDRecord.read position top ix) := by
  unfold readCIDRecord CIDRecord.read
  rcases top.get .opROS with _ | _ | ⟨a, _ | ⟨b, _ | ⟨c, _ | ⟨d, l⟩⟩⟩⟩
  case some.cons.cons.cons.nil =>
    refine .cfg' ?_
    exact .bind (.lift _) fun _ => .bind (.once _) fun _ => .bind (erases_readSelect _) fun _ => .bind (.lift _) fun _ =>
      .bind (.once _) fun _ => .bind erases_readIndex fun _ => .bind (erases_toOperations _) fun _ =>
      .bind (erases_readPrivateRecords _ _) fun _ => .bind (.lift _) fun _ => .bind (.lift _) fun _ => .pure _
  all_goals exact .lift _

theorem erases_readRecord (position : Nat) (top : Operations) (ix : Index) :
    Erases env (readRecord position top ix) (Record.read position top ix) := by
  unfold readRecord Record.read
  split
  · exact .bind (erases_readCIDRecord _ _ _) fun _ => .pure _
  · exact .bind (erases_readPrivate _ _) fun _ => .pure _

theorem erases_readEntry (position : Nat) (top : Operations) : Erases env (readEntry position top) (FontEntry.read position top) := by
  refine .bind (.lift _) fun _ => .bind (.once _) fun _ => .bind (.lift _) fun _ => .bind (erases_readCharacterStrings _) fun _ =>
    .bind (.lift _) fun _ => .bind ?_ fun _ => .bind (.lift _) fun _ => .bind ?_ fun _ => .bind (erases_readRecord _ _ _) fun _ => .pure _
  · repeat' split
    · exact .pure _
    · exact .pure _
    · exact .pure _
    · exact .bind (.once _) fun _ => erases_readSet _
  · repeat' split
    · exact .pure _
    · exact .pure _
    · exact .bind (.once _) fun _ => erases_readEncoding

theorem erases_readEntries (position : Nat) : ∀ l, Erases env (readEntries position l) (PS.readEntries position l)
  | [] => .pure _
  | _ :: l => .spend _ (.bind (erases_readEntry _ _) fun _ => .bind (erases_readEntries position l) fun _ => .pure _)

theorem erases_readFontSet : Erases env readFontSet FontSet.read := by
  refine .cfg' ?_
  exact .bind (.lift _) fun _ => .bind (.once _) fun _ => .bind (.once _) fun _ => .bind erases_readIndex fun _ =>
    .bind erases_readIndex fun _ => .bind (erases_toOperations _) fun _ => .bind erases_readIndex fun _ => .bind erases_readIndex fun _ =>
    .bind (erases_readEntries _ _) fun _ => .pure _

/-! ## Work is paid for by bytes -/

/-- What is left of the tape. -/
def rest (env : Env) (p : Nat) : Int := ((env.data.length - p : Nat) : Int)

/-- Sixteen steps for each byte that is consumed pay for the work, up to `g` of the value if there
is one, and up to `e` otherwise. -/
def Pays (env : Env) (w : Md α) (g : α → Int) (e : Int) : Prop := ∀ p,
  (∀ a p', (w env p).1 = (.ok a, p') → ((w env p).2.steps : Int) + 16 * rest env p' ≤ 16 * rest env p + g a) ∧
  ((∀ a, (w env p).1.1 ≠ .ok a) → ((w env p).2.steps : Int) ≤ 16 * rest env p + e)

theorem steps_add (a b : Toll) : (a + b).steps = a.steps + b.steps := rfl
theorem reserved_add (a b : Toll) : (a + b).reserved = max a.reserved b.reserved := rfl

theorem bind_cases (w : Md α) (f : α → Md β) (env : Env) (p : Nat) :
    (∃ a p', (w env p).1 = (.ok a, p') ∧ (w >>= f) env p = ((f a env p').1, (w env p).2 + (f a env p').2)) ∨
    ((∀ a, (w env p).1.1 ≠ .ok a) ∧ (∀ b, ((w >>= f) env p).1.1 ≠ .ok b) ∧ ((w >>= f) env p).2 = (w env p).2) := by
  show (∃ a p', _ ∧ Md.bind w f env p = _) ∨ (_ ∧ (∀ b, (Md.bind w f env p).1.1 ≠ .ok b) ∧ (Md.bind w f env p).2 = _)
  unfold Md.bind
  rcases w env p with ⟨⟨a | x | x, t⟩, n⟩
  · exact .inl ⟨a, t, rfl, rfl⟩
  · exact .inr ⟨fun _ h => Res.noConfusion rfl (heq_of_eq h), fun _ h => Res.noConfusion rfl (heq_of_eq h), rfl⟩
  · exact .inr ⟨fun _ h => Res.noConfusion rfl (heq_of_eq h), fun _ h => Res.noConfusion rfl (heq_of_eq h), rfl⟩

theorem Pays.bind {w : Md α} {f : α → Md β} {g : α → Int} {e : Int} {G : β → Int} {E : Int} (h : Pays env w g e) (he : e ≤ E)
    (hf : ∀ a, Pays env (f a) (fun b => G b - g a) (E - g a)) : Pays env (w >>= f) G E := by
  intro p
  obtain ⟨h1, h2⟩ := h p
  rcases bind_cases w f env p with ⟨a, p', e1, e2⟩ | ⟨e1, e2, e3⟩
  · obtain ⟨h3, h4⟩ := hf a p'
    have h5 := h1 a p' e1
    rw [e2]
    dsimp only
    rw [steps_add]
    push_cast
    refine ⟨fun b q hb => ?_, fun hb => ?_⟩
    · have := h3 b q hb; dsimp only at this; omega
    · have := h4 hb; omega
  · rw [e3]
    refine ⟨fun b q hb => absurd (congrArg Prod.fst hb) (e2 b), fun _ => ?_⟩
    have := h2 e1
    omega

theorem Pays.mono {w : Md α} {g G : α → Int} {e E : Int} (h : Pays env w g e) (hg : ∀ a, g a ≤ G a) (he : e ≤ E) : Pays env w G E :=
  fun p => ⟨fun a q ha => by have := (h p).1 a q ha; have := hg a; omega, fun ha => by have := (h p).2 ha; omega⟩

/-- A reader that stays where it is and is free. -/
theorem Pays.free {m : Rd α} (h : ∀ p, (m env p).2 = p) : Pays env (lift m) (fun _ => 0) 0 := by
  intro p
  have h1 : ((lift m env p).2.steps : Int) = 0 := rfl
  rw [h1]
  refine ⟨fun a q ha => ?_, fun _ => by unfold rest; omega⟩
  have : m env p = (.ok a, q) := ha
  have h2 := h p
  rw [this] at h2
  dsimp only at h2
  subst h2
  dsimp only
  omega

theorem Pays.freed {m : Rd α} (h : ∀ p, (m env p).2 = p) {G : α → Int} {E : Int} (hG : ∀ a, 0 ≤ G a) (hE : 0 ≤ E) : Pays env (lift m) G E :=
  (Pays.free h).mono hG hE

theorem Pays.pure {a : α} {G : α → Int} {E : Int} (hG : 0 ≤ G a) : Pays env (lift (Rd.pure a)) G E := by
  intro p
  refine ⟨fun b q hb => ?_, fun h => absurd rfl (h a)⟩
  cases hb
  have h1 : ((lift (Rd.pure a) env p).2.steps : Int) = 0 := rfl
  rw [h1]
  omega

theorem Pays.stop {m : Rd α} {G : α → Int} {E : Int} (h : ∀ p a, (m env p).1 ≠ .ok a) (hE : 0 ≤ E) : Pays env (lift m) G E := by
  intro p
  refine ⟨fun b q hb => absurd (congrArg Prod.fst hb) (h p b), fun _ => ?_⟩
  have h1 : ((lift m env p).2.steps : Int) = 0 := rfl
  rw [h1]
  unfold rest
  omega

theorem Pays.raise {r : Reason} {G : α → Int} {E : Int} (hE : 0 ≤ E) : Pays env (lift (Rd.raise r)) G E := .stop (fun _ _ h => nomatch h) hE
theorem Pays.panic {x : Panic} {G : α → Int} {E : Int} (hE : 0 ≤ E) : Pays env (lift (Rd.panic x)) G E := .stop (fun _ _ h => nomatch h) hE

theorem Pays.spend (n : Nat) : Pays env (Md.spend n) (fun _ => (n : Int)) 0 := by
  intro p
  refine ⟨fun a q ha => ?_, fun h => absurd rfl (h ())⟩
  cases ha
  have h1 : (Md.spend n env p).2.steps = n := rfl
  rw [h1]
  dsimp only
  omega

theorem Pays.reserve (n : Nat) : Pays env (Md.reserve n) (fun _ => 0) 0 := by
  intro p
  refine ⟨fun a q ha => ?_, fun h => absurd rfl (h ())⟩
  cases ha
  have h1 : (Md.reserve n env p).2.steps = 0 := rfl
  rw [h1]
  dsimp only
  omega

/-- A reader consumes at least `k` bytes, unless it fails. -/
def Takes (env : Env) (m : Rd α) (k : Nat) : Prop := ∀ p a q, m env p = (.ok a, q) → rest env q + k ≤ rest env p

theorem Takes.bind {m : Rd α} {f : α → Rd β} {k : Nat} (h : Takes env m k) (hf : ∀ a, Takes env (f a) 0) : Takes env (m >>= f) k := by
  intro p b q hb
  have hb' : Rd.bind m f env p = (.ok b, q) := hb
  unfold Rd.bind at hb'
  rcases e : m env p with ⟨a | x | x, t⟩ <;> rw [e] at hb'
  · have := h p a t e
    have := hf a t b q hb'
    omega
  · cases hb'
  · cases hb'

theorem takes_pure (a : α) : Takes env (Pure.pure a) 0 := by
  intro p b q hb
  have hb' : (Res.ok a, p) = (Res.ok b, q) := hb
  cases hb'
  omega

theorem takes_readExact (n : Nat) (hn : 0 < n) : Takes env (Rd.readExact n) n := by
  intro p b q hb
  unfold Rd.readExact at hb
  split at hb
  · cases hb
    unfold rest
    omega
  · cases hb

theorem Takes.weaken {m : Rd α} {k l : Nat} (h : Takes env m k) (hl : l ≤ k) : Takes env m l := fun p a q e => by
  have := h p a q e; omega

theorem takes_u8 : Takes env Rd.u8 1 := .bind (takes_readExact 1 (by decide)) fun _ => takes_pure _
theorem takes_u16 : Takes env Rd.u16 2 := .bind (takes_readExact 2 (by decide)) fun _ => takes_pure _
theorem takes_u32 : Takes env Rd.u32 4 := .bind (takes_readExact 4 (by decide)) fun _ => takes_pure _

theorem takes_ofRes (r : Res α) : Takes env (Rd.ofRes r) 0 := by
  intro p b q hb
  have hb' : (r, p) = (Res.ok b, q) := hb
  cases hb'
  omega

theorem takes_i32 (z : Int) : Takes env (Rd.i32 z) 0 :=
  Takes.bind (k := 0) (m := Rd.cfg) (fun p b q hb => by cases hb; omega) fun _ => takes_ofRes _

theorem takes_raise (r : Reason) (k : Nat) : Takes env (Rd.raise r : Rd α) k := fun _ _ _ h => nomatch h

theorem takes_readOffset (s : UInt8) : Takes env (readOffset s) 1 := by
  unfold readOffset
  split
  · exact .bind takes_u8 fun _ => takes_pure _
  split
  · exact .bind (takes_u16.weaken (by omega)) fun _ => takes_pure _
  split
  · exact .bind ((takes_readExact 3 (by decide)).weaken (by omega)) fun _ => takes_pure _
  split
  · exact takes_u32.weaken (by omega)
  · exact takes_raise _ _

theorem Pays.once {m : Rd α} {k : Nat} (h : Takes env m k) : Pays env (Md.once m) (fun _ => 1 - 16 * (k : Int)) 1 := by
  intro p
  have h1 : (Md.once m env p).2.steps = 1 := rfl
  rw [h1]
  refine ⟨fun a q ha => ?_, fun _ => by unfold rest; omega⟩
  have := h p a q ha
  dsimp only
  omega

theorem Pays.once' {m : Rd α} {k : Nat} (h : Takes env m k) {G : α → Int} {E : Int} (hG : ∀ a, 1 - 16 * (k : Int) ≤ G a) (hE : 1 ≤ E) :
    Pays env (Md.once m) G E := (Pays.once h).mono hG hE

theorem takes_peek {m : Rd α} : Takes env (Rd.peek m) 0 := by
  intro p b q hb
  have : p = q := congrArg Prod.snd hb
  subst this
  omega

theorem Pays.replicate {w : Md α} {k : Int} {e : Int} (h : Pays env w (fun _ => -k) e) (hk : 0 ≤ k) (he : 0 ≤ e) : ∀ n,
    Pays env (Md.replicate n w) (fun l => - (k * l.length)) e
  | 0 => .pure (by simp)
  | n + 1 => by
    refine .bind h (Int.le_refl _) fun a => .bind (Pays.replicate h hk he n) (by omega) fun l => .pure ?_
    simp only [List.length_cons, Nat.cast_add, Nat.cast_one, Int.mul_add]
    omega

theorem Pays.vec {w : Md α} {k : Int} {e : Int} (h : Pays env w (fun _ => -k) e) (hk : 0 ≤ k) (he : 0 ≤ e) (width n : Nat) :
    Pays env (Md.vec width n w) (fun l => - (k * l.length)) e := by
  refine .bind (.free fun _ => rfl) he fun c => ?_
  split
  · exact .panic (by omega)
  · exact .bind (.reserve _) (by omega) fun _ => (Pays.replicate h hk he n).mono (fun _ => by omega) (by omega)

theorem pays_parseLoop : ∀ (fuel : Nat) (byte : UInt8) (buffer : List Char),
    Pays env (parseLoop fuel byte true buffer) (fun _ => 0) 2 ∧ Pays env (parseLoop fuel byte false buffer) (fun _ => 1) 3
  | 0, _, _ => ⟨.panic (by omega), .panic (by omega)⟩
  | fuel + 1, byte, buffer => by
    have ih := pays_parseLoop fuel
    constructor
    · refine .bind (.spend 1) (by omega) fun _ => .bind (g := fun _ => -15) (e := 1) ?_ (by norm_num) fun byte => ?_
      · rw [if_pos rfl]; exact (Pays.once takes_u8).mono (fun _ => by norm_num) (by omega)
      dsimp only
      repeat' split
      all_goals first
        | exact (ih _ _).2.mono (fun _ => by norm_num) (by norm_num)
        | exact .pure (by norm_num)
        | exact .raise (by norm_num)
    · refine .bind (.spend 1) (by omega) fun _ => .bind (g := fun _ => 0) (e := 0) ?_ (by norm_num) fun byte => ?_
      · rw [if_neg (by decide)]; exact .pure (by omega)
      dsimp only
      repeat' split
      all_goals first
        | exact (ih _ _).1.mono (fun _ => by norm_num) (by norm_num)
        | exact .pure (by norm_num)
        | exact .raise (by norm_num)

theorem pays_parse : Pays env parse (fun _ => 0) 2 := by
  refine .bind (.free fun _ => rfl) (by omega) fun _ => .bind (pays_parseLoop _ _ _).1 (by norm_num) fun b => ?_
  split
  · exact .pure (by norm_num)
  · exact .raise (by norm_num)

theorem i32_still (z : Int) (p : Nat) : (Rd.i32 z env p).2 = p := rfl

theorem takes_positive (b : UInt8) : Takes env (Rd.positiveTwoByte b) 0 :=
  .bind (takes_i32 _) fun _ => .bind (takes_i32 _) fun _ => .bind (takes_u8.weaken (by omega)) fun _ => .bind (takes_i32 _) fun _ => takes_i32 _

theorem takes_negative (b : UInt8) : Takes env (Rd.negativeTwoByte b) 0 :=
  .bind (takes_i32 _) fun _ => .bind (takes_i32 _) fun _ => .bind (takes_i32 _) fun _ => .bind (takes_u8.weaken (by omega)) fun _ =>
    .bind (takes_i32 _) fun _ => takes_i32 _

theorem pays_readNumber : Pays env readNumber (fun _ => -14) 1 := by
  refine .bind (.once takes_u8) (by omega) fun first => ?_
  repeat' split
  · exact .bind (.free fun p => i32_still _ p) (by norm_num) fun _ => .pure (by norm_num)
  · exact .bind (.once (takes_positive _)) (by norm_num) fun _ => .pure (by norm_num)
  · exact .bind (.once (takes_negative _)) (by norm_num) fun _ => .pure (by norm_num)
  · exact .bind (.once takes_u16) (by norm_num) fun _ => .pure (by norm_num)
  · exact .bind (.once takes_u32) (by norm_num) fun _ => .pure (by norm_num)
  · exact .bind pays_parse (by norm_num) fun _ => .pure (by norm_num)
  · exact .raise (by norm_num)

theorem pays_readOperationLoop : ∀ (fuel : Nat) (operands : List Number), Pays env (readOperationLoop fuel operands) (fun _ => -13) 2
  | 0, _ => .panic (by omega)
  | fuel + 1, operands => by
    refine .bind (.once takes_peek) (by omega) fun code => ?_
    split
    · exact .bind pays_readNumber (by norm_num) fun _ => (pays_readOperationLoop fuel _).mono (fun _ => by norm_num) (by norm_num)
    · refine .bind (.once (k := 1) ?_) (by norm_num) fun _ => .bind (.free fun _ => rfl) (by norm_num) fun _ => .pure (by norm_num)
      split
      · exact takes_u16.weaken (by omega)
      · exact .bind takes_u8 fun _ => takes_pure _

theorem pays_readOperation : Pays env readOperation (fun _ => -13) 2 :=
  .bind (.free fun _ => rfl) (by omega) fun _ => (pays_readOperationLoop _ _).mono (fun _ => by norm_num) (by norm_num)

theorem rest_nonneg (p : Nat) : 0 ≤ rest env p := by unfold rest; omega

theorem readLoop_steps : ∀ (fuel : Nat) (o : Operations) (p : Nat), ((readLoop fuel o env p).2.steps : Int) ≤ 16 * rest env p + 2
  | 0, o, p => by
    have h1 : (readLoop 0 o env p).2.steps = 0 := rfl
    have := rest_nonneg (env := env) p
    rw [h1]
    omega
  | fuel + 1, o, p => by
    obtain ⟨h1, h2⟩ := pays_readOperation (env := env) p
    have := rest_nonneg (env := env) p
    unfold readLoop
    rcases e : readOperation env p with ⟨⟨⟨op, xs⟩ | x | x, t⟩, n⟩ <;> rw [e] at h1 h2 <;> dsimp only at h1 h2 ⊢
    · have h3 := h1 _ _ rfl
      have h4 := readLoop_steps fuel (o.insert op xs) t
      rw [steps_add]
      push_cast
      omega
    · have h3 := h2 (fun _ h => nomatch h)
      cases x <;> exact h3
    · exact h2 (fun _ h => nomatch h)

theorem readOperations_steps (p : Nat) : ((readOperations env p).2.steps : Int) ≤ 16 * rest env p + 2 := by
  have h : (readOperations env p).2 = .zero + (readLoop (env.data.length + 1) .empty env p).2 := rfl
  rw [h, steps_add]
  have := readLoop_steps (env := env) (env.data.length + 1) .empty p
  have h0 : Toll.zero.steps = 0 := rfl
  omega

theorem pays_ofBytes (chunk : List UInt8) : Pays env (ofBytes chunk) (fun _ => 16 * (chunk.length : Int) + 2) (16 * (chunk.length : Int) + 2) := by
  intro p
  have h := readOperations_steps (env := { env with data := chunk }) 0
  have h1 : (ofBytes chunk env p).2 = (readOperations { env with data := chunk } 0).2 := rfl
  have h2 : rest { env with data := chunk } 0 = chunk.length := by unfold rest; simp
  have := rest_nonneg (env := env) p
  rw [h1]
  refine ⟨fun a q ha => ?_, fun _ => by omega⟩
  have : p = q := congrArg Prod.snd ha
  subst this
  dsimp only
  omega

theorem pays_u8 : Pays env (once Rd.u8) (fun _ => -15) 1 := (Pays.once takes_u8).mono (fun _ => by norm_num) (by omega)

theorem pays_bytes (n : Nat) : Pays env (bytes n) (fun l => -(15 * (l.length : Int))) 1 := .vec pays_u8 (by omega) (by omega) _ _

theorem pays_readData : ∀ l : List UInt32, Pays env (readData l) (fun _ => (l.length : Int)) ((l.length : Int) + 1)
  | [] => .pure (by omega)
  | [_] => .pure (by simp)
  | a :: b :: rest => by
    unfold readData
    have ih := pays_readData (b :: rest)
    simp only [List.length_cons] at ih ⊢
    push_cast at ih ⊢
    refine .bind (.spend 1) (by omega) fun _ => ?_
    split
    · exact .raise (by omega)
    refine .bind (.free fun _ => rfl) (by omega) fun _ => .bind (.free fun _ => rfl) (by omega) fun _ => .bind (pays_bytes _) (by omega) fun chunk =>
      .bind (ih.mono (fun _ => Int.le_refl _) (Int.le_refl _)) (by omega) fun _ => .pure (by omega)

theorem pays_readIndex : Pays env readIndex (fun _ => 0) 1 := by
  refine .bind (.once takes_u16) (by omega) fun count => ?_
  split
  · exact .pure (by norm_num)
  refine .bind pays_u8 (by norm_num) fun size => .bind (.reserve _) (by norm_num) fun _ =>
    .bind (Pays.replicate (k := 15) ((Pays.once (takes_readOffset _)).mono (fun _ => by norm_num) (Int.le_refl _)) (by omega) (by omega) _) (by norm_num)
    fun offsets => ?_
  cases offsets with
  | nil => exact .panic (by norm_num)
  | cons first rest =>
    dsimp only
    split
    · exact .raise (by omega)
    · exact .bind (.reserve _) (by omega) fun _ => .bind ((pays_readData _).mono (fun _ => Int.le_refl _) (Int.le_refl _)) (by omega)
        fun _ => .pure (by omega)

theorem pays_readSet0 (n : Nat) : Pays env (readSet0 n) (fun _ => -15) 1 := by
  refine .bind pays_u8 (by omega) fun _ => ?_
  split
  · exact .raise (by norm_num)
  refine .bind (.free fun _ => rfl) (by norm_num) fun _ => ?_
  split
  · exact .panic (by norm_num)
  · exact .bind (Pays.vec (k := 31) ((Pays.once takes_u16).mono (fun _ => by norm_num) (Int.le_refl _)) (by omega) (by omega) _ _) (by norm_num)
      fun _ => .pure (by omega)

theorem takes_readRange1 : Takes env CharacterSet.readRange1 1 :=
  .bind (takes_u16.weaken (by omega)) fun _ => .bind (takes_u8.weaken (by omega)) fun _ => takes_pure _

theorem takes_readRange2 : Takes env CharacterSet.readRange2 1 :=
  .bind (takes_u16.weaken (by omega)) fun _ => .bind (takes_u16.weaken (by omega)) fun _ => takes_pure _

theorem pays_readRanges1 : ∀ fuel n k, Pays env (readRanges1 fuel n k) (fun _ => 0) 1
  | 0, n, k => by
    unfold readRanges1
    split
    · exact .panic (by omega)
    · exact .pure (by omega)
  | fuel + 1, n, k => by
    unfold readRanges1
    split
    · exact .bind (.once takes_readRange1) (by omega) fun _ => .bind ((pays_readRanges1 fuel _ _).mono (fun _ => Int.le_refl _) (Int.le_refl _))
        (by norm_num) fun _ => .pure (by norm_num)
    · exact .pure (by omega)

theorem pays_readRanges2 : ∀ fuel n k, Pays env (readRanges2 fuel n k) (fun _ => 0) 1
  | 0, n, k => by
    unfold readRanges2
    split
    · exact .panic (by omega)
    · exact .pure (by omega)
  | fuel + 1, n, k => by
    unfold readRanges2
    split
    · exact .bind (.once takes_readRange2) (by omega) fun _ => .bind ((pays_readRanges2 fuel _ _).mono (fun _ => Int.le_refl _) (Int.le_refl _))
        (by norm_num) fun _ => .pure (by norm_num)
    · exact .pure (by omega)

theorem pays_readSet1 (n : Nat) : Pays env (readSet1 n) (fun _ => -15) 1 := by
  refine .bind pays_u8 (by omega) fun _ => ?_
  split
  · exact .raise (by norm_num)
  refine .bind (pays_readRanges1 _ _ _) (by norm_num) fun _ => ?_
  dsimp only
  split
  · exact .raise (by norm_num)
  · exact .pure (by norm_num)

theorem pays_readSet2 (n : Nat) : Pays env (readSet2 n) (fun _ => -15) 1 := by
  refine .bind pays_u8 (by omega) fun _ => ?_
  split
  · exact .raise (by norm_num)
  refine .bind (pays_readRanges2 _ _ _) (by norm_num) fun _ => ?_
  dsimp only
  split
  · exact .raise (by norm_num)
  · exact .pure (by norm_num)

theorem pays_readSet (n : Nat) : Pays env (readSet n) (fun _ => 0) 2 := by
  refine .bind (.once takes_peek) (by omega) fun _ => ?_
  repeat' split
  · exact (pays_readSet0 _).mono (fun _ => by norm_num) (by norm_num)
  · exact (pays_readSet1 _).mono (fun _ => by norm_num) (by norm_num)
  · exact (pays_readSet2 _).mono (fun _ => by norm_num) (by norm_num)
  · exact .raise (by norm_num)

theorem pays_vec {m : Rd α} (h : Takes env m 1) (width n : Nat) : Pays env (vec width n (once m)) (fun _ => 0) 1 :=
  (Pays.vec (k := 15) ((Pays.once h).mono (fun _ => by norm_num) (Int.le_refl _)) (by omega) (by omega) width n).mono (fun _ => by omega) (Int.le_refl _)

theorem pays_readEncoding : Pays env readEncoding (fun _ => 0) 2 := by
  refine .bind (.once takes_peek) (by omega) fun _ => ?_
  have t1 : Takes env Encoding.readRange1 1 := .bind takes_u8 fun _ => .bind (takes_u8.weaken (by omega)) fun _ => takes_pure _
  have t2 : Takes env Encoding.readSupplement 1 := .bind takes_u8 fun _ => .bind (takes_u16.weaken (by omega)) fun _ => takes_pure _
  repeat' split
  · refine .bind pays_u8 (by norm_num) fun _ => ?_
    split
    · exact .raise (by norm_num)
    · exact .bind pays_u8 (by norm_num) fun _ => .bind (pays_vec takes_u8 _ _) (by norm_num) fun _ => .pure (by norm_num)
  · refine .bind pays_u8 (by norm_num) fun _ => ?_
    split
    · exact .raise (by norm_num)
    · exact .bind pays_u8 (by norm_num) fun _ => .bind (pays_vec t1 _ _) (by norm_num) fun _ => .pure (by norm_num)
  · exact .bind pays_u8 (by norm_num) fun _ => .bind pays_u8 (by norm_num) fun _ => .bind (pays_vec t2 _ _) (by norm_num) fun _ => .pure (by norm_num)
  · exact .raise (by norm_num)

theorem pays_readSelect (ix : Index) : Pays env (readSelect ix) (fun _ => 0) 2 := by
  refine .bind (.once takes_peek) (by omega) fun _ => ?_
  have t1 : Takes env DictEncoding.readRange3 1 := .bind (takes_u16.weaken (by omega)) fun _ => .bind (takes_u8.weaken (by omega)) fun _ => takes_pure _
  repeat' split
  · exact .bind pays_u8 (by norm_num) fun _ => .bind (pays_vec takes_u8 _ _) (by norm_num) fun _ => .pure (by norm_num)
  · refine .bind pays_u8 (by norm_num) fun _ => ?_
    split
    · exact .raise (by norm_num)
    · exact .bind (.once takes_u16) (by norm_num) fun _ => .bind (pays_vec t1 _ _) (by norm_num) fun _ => .bind (.once takes_u16) (by norm_num)
        fun _ => .pure (by norm_num)
  · exact .raise (by norm_num)

/-! ## The work of everything -/

/-- The work is at most `b`. -/
def Costs (env : Env) (w : Md α) (b : Nat) : Prop := ∀ p, (w env p).2.steps ≤ b

theorem Pays.costs {w : Md α} {g : α → Int} {e : Int} {b : Nat} (h : Pays env w g e) (hg : ∀ a, g a ≤ b) (he : e ≤ b) :
    Costs env w (16 * env.data.length + b) := by
  intro p
  obtain ⟨h1, h2⟩ := h p
  have h3 : rest env p ≤ env.data.length := by unfold rest; omega
  by_cases ha : ∀ a, (w env p).1.1 ≠ .ok a
  · have := h2 ha
    omega
  · push Not at ha
    obtain ⟨a, ha⟩ := ha
    have h4 := h1 a (w env p).1.2 (Prod.ext ha rfl)
    have h5 := hg a
    have h6 := rest_nonneg (env := env) (w env p).1.2
    omega

theorem Costs.bind {w : Md α} {f : α → Md β} {b c : Nat} (h : Costs env w b) (hf : ∀ a, (∃ p q, (w env p).1 = (.ok a, q)) → Costs env (f a) c) :
    Costs env (w >>= f) (b + c) := by
  intro p
  rcases bind_cases w f env p with ⟨a, p', e1, e2⟩ | ⟨e1, e2, e3⟩
  · rw [e2, steps_add]
    have := h p
    have := hf a ⟨p, p', e1⟩ p'
    omega
  · rw [e3]
    have := h p
    omega

theorem Costs.mono {w : Md α} {b c : Nat} (h : Costs env w b) (hc : b ≤ c) : Costs env w c := fun p => Nat.le_trans (h p) hc

theorem costs_lift (m : Rd α) : Costs env (lift m) 0 := fun _ => Nat.le_refl _
theorem costs_once (m : Rd α) : Costs env (once m) 1 := fun _ => Nat.le_refl _
theorem costs_spend (n : Nat) : Costs env (spend n) n := fun _ => Nat.le_refl _
theorem costs_reserve (n : Nat) : Costs env (reserve n) 0 := fun _ => Nat.le_refl _

theorem costs_readIndex : Costs env readIndex (16 * env.data.length + 1) := pays_readIndex.costs (fun _ => by omega) (by omega)

theorem costs_ofBytes (chunk : List UInt8) : Costs env (ofBytes chunk) (16 * chunk.length + 2) := by
  intro p
  have h := readOperations_steps (env := { env with data := chunk }) 0
  have h1 : (ofBytes chunk env p).2 = (readOperations { env with data := chunk } 0).2 := rfl
  have h2 : rest { env with data := chunk } 0 = chunk.length := by unfold rest; simp
  rw [h1]
  omega

theorem costs_toOperationsFrom : ∀ l : List (List UInt8), Costs env (toOperationsFrom l) (16 * (l.map List.length).sum + 3 * l.length)
  | [] => costs_lift _
  | c :: l => by
    refine Costs.mono (.bind (costs_spend 1) fun _ _ => .bind (costs_ofBytes c) fun _ _ => .bind (costs_toOperationsFrom l) fun _ _ => costs_lift _) ?_
    simp only [List.map_cons, List.sum_cons, List.length_cons]
    omega

theorem costs_toOperations (ix : Index) : Costs env (toOperations ix) (16 * weight ix + 3 * ix.data.length) := by
  refine Costs.mono (.bind (costs_reserve _) fun _ _ => costs_toOperationsFrom _) ?_
  unfold weight
  omega

theorem readIndex_at {p q : Nat} {ix : Index} (h : (readIndex env p).1 = (.ok ix, q)) : IndexAt env.data p ix := by
  rw [erases_readIndex] at h
  exact (exact_indexBytes.at env p ix).mp ⟨q, h⟩

theorem readIndex_counts {ix : Index} (h : ∃ p q, (readIndex env p).1 = (.ok ix, q)) :
    weight ix ≤ env.data.length ∧ ix.data.length ≤ min 65535 env.data.length := by
  obtain ⟨p, q, h⟩ := h
  have h1 := readIndex_at h
  have h2 := indexAt_weight h1
  have h3 := (index_small h1).1
  omega

theorem bind_ok {w : Md α} {f : α → Md β} {p q : Nat} {b : β} (h : ((w >>= f) env p).1 = (.ok b, q)) :
    ∃ a p', (w env p).1 = (.ok a, p') ∧ (f a env p').1 = (.ok b, q) ∧ ((w >>= f) env p).2 = (w env p).2 + (f a env p').2 := by
  rcases bind_cases w f env p with ⟨a, p', e1, e2⟩ | ⟨e1, e2, e3⟩
  · rw [e2] at h ⊢
    exact ⟨a, p', e1, h, rfl⟩
  · exact absurd (congrArg Prod.fst h) (e2 b)

theorem toOperationsFrom_length : ∀ {l : List (List UInt8)} {p q : Nat} {os : List Operations},
    (toOperationsFrom l env p).1 = (.ok os, q) → os.length = l.length
  | [], p, q, os, h => by cases h; rfl
  | c :: l, p, q, os, h => by
    obtain ⟨_, p1, -, h, -⟩ := bind_ok h
    obtain ⟨o, p2, -, h, -⟩ := bind_ok h
    obtain ⟨os', p3, h1, h, -⟩ := bind_ok h
    cases h
    simp [toOperationsFrom_length h1]

theorem toOperations_length {ix : Index} {p q : Nat} {os : List Operations} (h : (toOperations ix env p).1 = (.ok os, q)) :
    os.length = ix.data.length := by
  obtain ⟨_, p1, -, h, -⟩ := bind_ok h
  exact toOperationsFrom_length h

theorem costs_chunk (n : Nat) (f : Operations → Md β) {b : Nat} (hf : ∀ o, Costs env (f o) b) :
    Costs env (bytes n >>= fun chunk => ofBytes chunk >>= f) (18 * env.data.length + 2 + b) := by
  intro p
  obtain ⟨h1, h2⟩ := pays_bytes (env := env) n p
  have h3 : rest env p ≤ env.data.length := by unfold rest; omega
  rcases bind_cases (bytes n) (fun chunk => ofBytes chunk >>= f) env p with ⟨a, p', e1, e2⟩ | ⟨e1, e2, e3⟩
  · rw [e2, steps_add]
    have h4 := h1 a p' e1
    have h5 := Costs.bind (costs_ofBytes (env := env) a) (fun o _ => hf o) p'
    have h6 := rest_nonneg (env := env) p'
    dsimp only at h4
    omega
  · rw [e3]
    have := h2 e1
    omega

/-- `s` steps have been taken before; `Q` holds of the value and all steps afterwards if there is a
value, and all steps are at most `c` in any case. -/
def Tally (env : Env) (w : Md α) (s : Nat) (Q : α → Nat → Prop) (c : Nat) : Prop :=
  ∀ p, (∀ a q, (w env p).1 = (.ok a, q) → Q a (s + (w env p).2.steps)) ∧ s + (w env p).2.steps ≤ c

theorem Tally.bind {w : Md α} {f : α → Md β} {s : Nat} {P : α → Nat → Prop} {Q : β → Nat → Prop} {b c : Nat} (h : Tally env w s P b)
    (hb : b ≤ c) (hf : ∀ a s', P a s' → s' ≤ b → Tally env (f a) s' Q c) : Tally env (w >>= f) s Q c := by
  intro p
  obtain ⟨h1, h2⟩ := h p
  rcases bind_cases w f env p with ⟨a, p', e1, e2⟩ | ⟨e1, e2, e3⟩
  · rw [e2, steps_add, ← Nat.add_assoc]
    exact hf a _ (h1 a p' e1) h2 p'
  · refine ⟨fun a q ha => absurd (congrArg Prod.fst ha) (e2 a), ?_⟩
    rw [e3]
    omega

theorem Tally.mono {w : Md α} {s : Nat} {P Q : α → Nat → Prop} {b c : Nat} (h : Tally env w s P b) (hQ : ∀ a n, P a n → n ≤ b → Q a n) (hb : b ≤ c) :
    Tally env w s Q c := fun p => ⟨fun a q ha => hQ _ _ ((h p).1 a q ha) (h p).2, Nat.le_trans (h p).2 hb⟩

theorem Costs.tally {w : Md α} {b : Nat} (h : Costs env w b) (s : Nat) :
    Tally env w s (fun a n => s ≤ n ∧ ∃ p q, (w env p).1 = (.ok a, q)) (s + b) :=
  fun p => ⟨fun _ q ha => ⟨Nat.le_add_right _ _, p, q, ha⟩, Nat.add_le_add_left (h p) s⟩

theorem tally_pure {a : α} {s : Nat} {Q : α → Nat → Prop} {c : Nat} (h : Q a s) (hs : s ≤ c) : Tally env (lift (Rd.pure a)) s Q c :=
  fun _ => ⟨fun _ _ hb => by cases hb; exact h, hs⟩

theorem tally_stop {m : Rd α} {s : Nat} {Q : α → Nat → Prop} {c : Nat} (h : ∀ p a, (m env p).1 ≠ .ok a) (hs : s ≤ c) : Tally env (lift m) s Q c :=
  fun p => ⟨fun a _ hb => absurd (congrArg Prod.fst hb) (h p a), hs⟩

/-! ### The work of an INDEX, exactly -/

theorem lift_steps (m : Rd α) (p : Nat) : (lift m env p).2.steps = 0 := rfl
theorem once_steps (m : Rd α) (p : Nat) : (once m env p).2.steps = 1 := rfl
theorem spend_steps (n p : Nat) : (spend n env p).2.steps = n := rfl
theorem reserve_steps (n p : Nat) : (reserve n env p).2.steps = 0 := rfl

theorem replicate_once {m : Rd α} : ∀ {n p q : Nat} {l : List α}, (replicate n (once m) env p).1 = (.ok l, q) →
    (replicate n (once m) env p).2.steps = n ∧ l.length = n
  | 0, p, q, l, h => by cases h; exact ⟨rfl, rfl⟩
  | n + 1, p, q, l, h => by
    obtain ⟨a, p1, h1, h, e1⟩ := bind_ok h
    obtain ⟨as, p2, h2, h, e2⟩ := bind_ok h
    cases h
    obtain ⟨h3, h4⟩ := replicate_once h2
    have h5 : (replicate (n + 1) (once m) env p).2 = _ := e1
    rw [h5, e2, steps_add, steps_add, h3]
    rw [once_steps, lift_steps, List.length_cons, h4]
    omega

theorem vec_once {m : Rd α} {width n p q : Nat} {l : List α} (h : (vec width n (once m) env p).1 = (.ok l, q)) :
    (vec width n (once m) env p).2.steps = n ∧ l.length = n := by
  obtain ⟨c, p1, h1, h, e1⟩ := bind_ok h
  have h5 : (vec width n (once m) env p).2 = _ := e1
  rw [h5, steps_add]
  have k1 : (lift Rd.cfg env p).2.steps = 0 := rfl
  split at h
  · cases h
  rename_i hn
  rw [if_neg hn] at *
  obtain ⟨_, p2, h2, h, e2⟩ := bind_ok h
  rw [e2, steps_add]
  have k2 : ∀ n, (reserve n env p1).2.steps = 0 := fun _ => rfl
  rw [k1, k2]
  simpa using replicate_once h

theorem readData_steps : ∀ {l : List UInt32} {p q : Nat} {d : List (List UInt8)}, (readData l env p).1 = (.ok d, q) →
    (readData l env p).2.steps = d.length + (d.map List.length).sum ∧ d.length = l.length - 1
  | [], p, q, d, h => by cases h; exact ⟨rfl, rfl⟩
  | [_], p, q, d, h => by cases h; exact ⟨rfl, rfl⟩
  | a :: b :: l, p, q, d, h => by
    unfold readData at h ⊢
    obtain ⟨_, p1, h1, h, e1⟩ := bind_ok h
    rw [e1, steps_add]
    split at h
    · cases h
    rename_i hn
    rw [if_neg hn] at *
    obtain ⟨c, p2, h2, h, e2⟩ := bind_ok h
    obtain ⟨size, p3, h3, h, e3⟩ := bind_ok h
    obtain ⟨chunk, p4, h4, h, e4⟩ := bind_ok h
    obtain ⟨ds, p5, h5, h, e5⟩ := bind_ok h
    cases h
    rw [e2, e3, e4, e5]
    simp only [steps_add]
    obtain ⟨i1, i2⟩ := vec_once h4
    obtain ⟨i3, i4⟩ := readData_steps h5
    have k6 : (bytes size.toNat env p3).2.steps = size.toNat := i1
    rw [spend_steps, lift_steps, lift_steps, lift_steps, k6, i3]
    simp only [List.length_cons, List.map_cons, List.sum_cons] at i4 ⊢
    omega

theorem readIndex_steps {p q : Nat} {ix : Index} (h : (readIndex env p).1 = (.ok ix, q)) :
    (readIndex env p).2.steps = (if ix.data.length = 0 then 1 else 3 + 2 * ix.data.length + weight ix) := by
  unfold readIndex at h ⊢
  obtain ⟨count, p1, h1, h, e1⟩ := bind_ok h
  rw [e1, steps_add]
  have k1 : (once Rd.u16 env p).2.steps = 1 := rfl
  by_cases hn : count = 0
  · rw [if_pos hn] at h ⊢
    cases h
    rfl
  rw [if_neg hn] at h ⊢
  obtain ⟨size, p2, h2, h, e2⟩ := bind_ok h
  obtain ⟨_, p3, h3, h, e3⟩ := bind_ok h
  obtain ⟨os, p4, h4, h, e4⟩ := bind_ok h
  rw [e2, e3, e4]
  simp only [steps_add]
  obtain ⟨i1, i2⟩ := replicate_once h4
  cases os with
  | nil => cases h
  | cons first l =>
    dsimp only at h ⊢
    by_cases hf : first ≠ 1
    · rw [if_pos hf] at h; cases h
    rw [if_neg hf] at h ⊢
    obtain ⟨_, p5, h5, h, e5⟩ := bind_ok h
    obtain ⟨d, p6, h6, h, e6⟩ := bind_ok h
    cases h
    rw [e5, e6]
    simp only [steps_add]
    obtain ⟨i3, i4⟩ := readData_steps h6
    have k2 : (once Rd.u8 env p1).2.steps = 1 := rfl
    have k3 : (reserve (4 * (count.toNat + 1)) env p2).2.steps = 0 := rfl
    have k4 : (reserve (24 * count.toNat) env p4).2.steps = 0 := rfl
    have hc : count.toNat ≠ 0 := fun e => hn (UInt16.toNat_inj.mp e)
    rw [k1, k2, k3, k4, lift_steps, i1, i3]
    rw [i2] at i4
    rw [if_neg (by omega)]
    unfold weight
    dsimp only
    omega

/-- The number of dictionaries is at most this. -/
def most (env : Env) : Nat := min 65535 env.data.length

theorem tally_readIndex (s : Nat) : Tally env readIndex s
    (fun ix n => s + weight ix ≤ n ∧ weight ix ≤ env.data.length ∧ ix.data.length ≤ most env) (s + (16 * env.data.length + 1)) := by
  intro p
  refine ⟨fun ix q h => ?_, Nat.add_le_add_left (costs_readIndex p) s⟩
  have h1 := readIndex_counts ⟨p, q, h⟩
  refine ⟨?_, h1⟩
  rw [readIndex_steps h]
  split
  · rename_i h0
    have : ix.data = [] := List.eq_nil_of_length_eq_zero h0
    unfold weight
    rw [this]
    simp
  · omega

theorem costs_readPrivate (position : Nat) (top : Operations) : Costs env (readPrivate position top) (34 * env.data.length + 5) := by
  refine Costs.mono (.bind (costs_lift _) fun c _ => .bind (costs_lift _) fun x _ => .bind (costs_once _) fun _ _ => costs_chunk (b := 16 * env.data.length + 2) _ _ ?_) (by omega)
  intro o
  refine Costs.mono (.bind (costs_lift _) fun another _ => .bind (b := 16 * env.data.length + 2) ?_ fun _ _ => costs_lift _) (by omega)
  cases another with
  | none => exact (costs_lift _).mono (by omega)
  | some o => exact Costs.mono (.bind (costs_lift _) fun _ _ => .bind (costs_once _) fun _ _ => costs_readIndex) (by omega)

theorem tally_readPrivate (position : Nat) (top : Operations) (s : Nat) : Tally env (readPrivate position top) s
    (fun r n => s + weight r.subroutines ≤ n) (s + (34 * env.data.length + 5)) := by
  intro p
  refine ⟨fun r q h => ?_, Nat.add_le_add_left (costs_readPrivate position top p) s⟩
  refine Nat.add_le_add_left ?_ s
  unfold readPrivate at h ⊢
  obtain ⟨c, p1, -, h, e1⟩ := bind_ok h
  obtain ⟨x, p2, -, h, e2⟩ := bind_ok h
  obtain ⟨_, p3, -, h, e3⟩ := bind_ok h
  obtain ⟨chunk, p4, -, h, e4⟩ := bind_ok h
  obtain ⟨o, p5, -, h, e5⟩ := bind_ok h
  obtain ⟨another, p6, -, h, e6⟩ := bind_ok h
  obtain ⟨ix, p7, h7, h, e7⟩ := bind_ok h
  cases h
  rw [e1, e2, e3, e4, e5, e6, e7]
  simp only [steps_add]
  cases another with
  | none => cases h7; exact Nat.zero_le _
  | some o =>
    dsimp only at h7 ⊢
    obtain ⟨_, p8, -, h7, e8⟩ := bind_ok h7
    obtain ⟨_, p9, -, h7, e9⟩ := bind_ok h7
    rw [e8, e9, steps_add, steps_add]
    have := ((tally_readIndex 0 p9).1 _ _ h7).1
    omega

theorem tally_readPrivateRecords (position : Nat) : ∀ (l : List Operations) (s : Nat), Tally env (readPrivateRecords position l) s
    (fun rs n => s + (rs.map fun r => weight r.subroutines).sum ≤ n ∧ rs.length = l.length) (s + l.length * (34 * env.data.length + 6))
  | [], s => tally_pure ⟨by simp, rfl⟩ (by simp)
  | top :: l, s => by
    have e : s + (top :: l).length * (34 * env.data.length + 6) =
        s + 1 + (34 * env.data.length + 5) + l.length * (34 * env.data.length + 6) := by
      rw [List.length_cons, Nat.succ_mul]; omega
    rw [e]
    refine .bind ((costs_spend 1).tally s) (by omega) fun _ s1 h1 h1' => .bind (tally_readPrivate position top s1) (by omega) fun r s2 h2 h2' =>
      .bind (tally_readPrivateRecords position l s2) (by omega) fun rs s3 h3 h3' => tally_pure ⟨?_, ?_⟩ (by omega)
    · simp only [List.map_cons, List.sum_cons]
      omega
    · simp [h3.2]

theorem tally_readRecord (position : Nat) (top : Operations) (ix : Index) (s : Nat) : Tally env (readRecord position top ix) s
    (fun r n => s + ((locals r).map weight).sum ≤ n ∧ n ≤ s + (51 * env.data.length + 5) + (locals r).length * (34 * env.data.length + 6))
    (s + (51 * env.data.length + 5) + most env * (34 * env.data.length + 6)) := by
  unfold readRecord
  split
  · refine .bind (P := fun r n => s + (r.records.map fun r => weight r.subroutines).sum ≤ n ∧
      n ≤ s + (51 * env.data.length + 5) + r.records.length * (34 * env.data.length + 6)) ?_ (Nat.le_refl _)
      fun r n h hn => tally_pure (by simpa [locals, Function.comp_def] using h) hn
    unfold readCIDRecord
    rcases top.get .opROS with _ | _ | ⟨a, _ | ⟨b, _ | ⟨c, _ | ⟨d, l⟩⟩⟩⟩
    case some.cons.cons.cons.nil =>
      refine .bind ((costs_lift _).tally s) (by omega) fun _ s1 h1 h1' => .bind ((costs_once _).tally s1) (by omega) fun _ s2 h2 h2' =>
        .bind (((pays_readSelect (env := env) ix).costs (b := 2) (fun _ => by omega) (by omega)).tally s2) (by omega) fun _ s3 h3 h3' =>
        .bind ((costs_lift _).tally s3) (by omega) fun _ s4 h4 h4' => .bind ((costs_once _).tally s4) (by omega) fun _ s5 h5 h5' =>
        .bind (tally_readIndex s5) (by omega) fun fds s6 h6 h6' => .bind ((costs_toOperations fds).tally s6) ?_ fun os s7 h7 h7' =>
        .bind (tally_readPrivateRecords position os s7) ?_ fun rs s8 h8 h8' =>
        .bind ((costs_lift _).tally s8) ?_ fun _ s9 h9 h9' => .bind ((costs_lift _).tally s9) ?_ fun _ s10 h10 h10' => tally_pure ⟨?_, ?_⟩ ?_
      all_goals obtain ⟨h6, i1, i2⟩ := h6
      all_goals have i3 : most env ≤ env.data.length := Nat.min_le_right _ _
      · omega
      all_goals obtain ⟨h7, p, q, i4⟩ := h7
      all_goals have i5 := toOperations_length i4
      all_goals have i6 : os.length * (34 * env.data.length + 6) ≤ most env * (34 * env.data.length + 6) := Nat.mul_le_mul_right _ (by omega)
      · omega
      · omega
      · omega
      · dsimp only; omega
      · dsimp only; rw [h8.2]; omega
      · omega
    all_goals exact tally_stop (fun _ _ h => nomatch h) (by omega)
  · refine .bind (tally_readPrivate position top s) (by omega) fun r n h hn => tally_pure ⟨?_, ?_⟩ (by omega)
    · simpa [locals] using h
    · simp only [locals, List.length_singleton]
      omega

/-- What a font takes at most. -/
def share (env : Env) : Nat := 100 * (env.data.length + 1)

theorem tally_readEntry (position : Nat) (top : Operations) (s : Nat) : Tally env (readEntry position top) s
    (fun x n => s + weight x.characterStrings + ((locals x.record).map weight).sum ≤ n ∧ n + 1 ≤ s + share env * (1 + (locals x.record).length))
    (s + share env * (1 + most env) - 1) := by
  have b1 : ∀ k, (51 * env.data.length + 5) + k * (34 * env.data.length + 6) + (48 * env.data.length + 8) + 1 ≤ share env * (1 + k) := by
    intro k
    have : k * (34 * env.data.length + 6) ≤ k * share env := Nat.mul_le_mul_left _ (by unfold share; omega)
    have e : share env * (1 + k) = share env + k * share env := by ring
    rw [e]
    have : share env = 100 * (env.data.length + 1) := rfl
    omega
  have b2 := b1 (most env)
  generalize hm : most env * (34 * env.data.length + 6) = M at b2
  refine .bind ((costs_lift _).tally s) (by omega) fun _ s1 h1 h1' => .bind ((costs_once _).tally s1) (by omega) fun _ s2 h2 h2' =>
    .bind ((costs_lift _).tally s2) (by omega) fun format s3 h3 h3' =>
    .bind (P := fun ix n => s3 + weight ix ≤ n) (b := s3 + (16 * env.data.length + 1)) ?_ (by omega) fun cs s4 h4 h4' =>
    .bind ((costs_lift _).tally s4) (by omega) fun offset s5 h5 h5' =>
    .bind (P := fun _ n => s5 ≤ n) (b := s5 + (16 * env.data.length + 3)) ?_ (by omega) fun set s6 h6 h6' =>
    .bind ((costs_lift _).tally s6) (by omega) fun offset s7 h7 h7' =>
    .bind (P := fun _ n => s7 ≤ n) (b := s7 + (16 * env.data.length + 3)) ?_ (by omega) fun enc s8 h8 h8' =>
    .bind (tally_readRecord position top cs s8) (by omega) fun r s9 h9 h9' => tally_pure ⟨?_, ?_⟩ (by omega)
  · unfold readCharacterStrings
    split
    · exact (tally_readIndex s3).mono (fun _ _ h _ => h.1) (Nat.le_refl _)
    · exact tally_stop (fun _ _ h => nomatch h) (by omega)
  · repeat' split
    · exact tally_pure (Nat.le_refl _) (by omega)
    · exact tally_pure (Nat.le_refl _) (by omega)
    · exact tally_pure (Nat.le_refl _) (by omega)
    · exact .bind ((costs_once _).tally s5) (by omega) fun _ n h hn =>
        (((pays_readSet (env := env) _).costs (b := 2) (fun _ => by omega) (by omega)).tally n).mono (fun _ _ h' _ => by omega) (by omega)
  · repeat' split
    · exact tally_pure (Nat.le_refl _) (by omega)
    · exact tally_pure (Nat.le_refl _) (by omega)
    · exact .bind ((costs_once _).tally s7) (by omega) fun _ n h hn =>
        (((pays_readEncoding (env := env)).costs (b := 2) (fun _ => by omega) (by omega)).tally n).mono (fun _ _ h' _ => by omega) (by omega)
  · dsimp only
    omega
  · dsimp only
    have := b1 (locals r).length
    omega

theorem tally_readEntries (position : Nat) : ∀ (l : List Operations) (s : Nat), Tally env (readEntries position l) s
    (fun xs n => s + (xs.map fun x => weight x.characterStrings + ((locals x.record).map weight).sum).sum ≤ n ∧
      n ≤ s + share env * (xs.length + (xs.map fun x => (locals x.record).length).sum))
    (s + l.length * (share env * (1 + most env)))
  | [], s => tally_pure ⟨by simp, by simp⟩ (by simp)
  | top :: l, s => by
    rw [List.length_cons, Nat.succ_mul]
    have b : 1 ≤ share env * (1 + most env) := Nat.mul_pos (by unfold share; omega) (by omega)
    refine .bind ((costs_spend 1).tally s) (by omega) fun _ s1 h1 h1' => .bind (tally_readEntry position top s1) (by omega) fun r s2 h2 h2' =>
      .bind (tally_readEntries position l s2) (by omega) fun rs s3 h3 h3' => tally_pure ⟨?_, ?_⟩ (by omega)
    · simp only [List.map_cons, List.sum_cons]
      omega
    · simp only [List.map_cons, List.sum_cons, List.length_cons]
      obtain ⟨-, h2⟩ := h2
      obtain ⟨-, h3⟩ := h3
      simp only [Nat.mul_add, Nat.mul_one] at *
      omega

theorem tally_readFontSet : Tally env readFontSet 0
    (fun fs n => held fs ≤ n ∧ n ≤ share env * (1 + fs.characterStrings.length + privateCount fs))
    (share env * (1 + most env * (1 + most env))) := by
  have b1 : share env = 100 * (env.data.length + 1) := rfl
  have i3 : most env ≤ env.data.length := Nat.min_le_right _ _
  have b2 : share env * (1 + most env * (1 + most env)) = share env + most env * (share env * (1 + most env)) := by ring
  rw [b2]
  refine .bind ((costs_lift _).tally 0) (by omega) fun _ s1 h1 h1' => .bind ((costs_once _).tally s1) (by omega) fun _ s2 h2 h2' =>
    .bind ((costs_once _).tally s2) (by omega) fun _ s3 h3 h3' => .bind (tally_readIndex s3) (by omega) fun names s4 h4 h4' =>
    .bind (tally_readIndex s4) (by omega) fun ds s5 h5 h5' => .bind ((costs_toOperations ds).tally s5) (by omega) fun os s6 h6 h6' =>
    .bind (tally_readIndex s6) (by omega) fun strings s7 h7 h7' => .bind (tally_readIndex s7) (by omega) fun subrs s8 h8 h8' =>
    .bind (tally_readEntries _ os s8) ?_ fun xs s9 h9 h9' => tally_pure ⟨?_, ?_⟩ ?_
  all_goals obtain ⟨h6, p, q, i4⟩ := h6
  all_goals have i5 := toOperations_length i4
  all_goals have i6 : os.length * (share env * (1 + most env)) ≤ most env * (share env * (1 + most env)) := Nat.mul_le_mul_right _ (by omega)
  · omega
  · unfold held
    dsimp only
    simp only [List.map_map, Function.comp_def]
    obtain ⟨h9, -⟩ := h9
    have : (xs.map fun x => weight x.characterStrings + ((locals x.record).map weight).sum).sum =
        (xs.map fun x => weight x.characterStrings).sum + (xs.map fun x => ((locals x.record).map weight).sum).sum := by
      clear h9 h9'
      induction xs with
      | nil => rfl
      | cons x xs ih => simp only [List.map_cons, List.sum_cons, ih]; omega
    omega
  · unfold privateCount
    dsimp only
    simp only [List.map_map, Function.comp_def, List.length_map]
    obtain ⟨-, h9⟩ := h9
    simp only [Nat.mul_add, Nat.mul_one] at h9 ⊢
    omega
  · omega

/-! ## The memory that is reserved -/

/-- Memory is reserved for at most `b` bytes at once. -/
def Fits (env : Env) (w : Md α) (b : Nat) : Prop := ∀ p, (w env p).2.reserved ≤ b

/-- What is reserved at most. -/
def limit (env : Env) : Nat := if env.cfg.prealloc then 2 ^ 32 - 2 else 48 * 65535

theorem Fits.bind {w : Md α} {f : α → Md β} {b : Nat} (h : Fits env w b) (hf : ∀ a, (∃ p q, (w env p).1 = (.ok a, q)) → Fits env (f a) b) :
    Fits env (w >>= f) b := by
  intro p
  rcases bind_cases w f env p with ⟨a, p', e1, e2⟩ | ⟨e1, e2, e3⟩
  · rw [e2, reserved_add]
    exact Nat.max_le.mpr ⟨h p, hf a ⟨p, p', e1⟩ p'⟩
  · rw [e3]
    exact h p

theorem fits_lift (m : Rd α) (b : Nat) : Fits env (lift m) b := fun _ => Nat.zero_le _
theorem fits_once (m : Rd α) (b : Nat) : Fits env (once m) b := fun _ => Nat.zero_le _
theorem fits_spend (n b : Nat) : Fits env (spend n) b := fun _ => Nat.zero_le _
theorem fits_reserve {n b : Nat} (h : n ≤ b) : Fits env (reserve n) b := fun _ => h

theorem fits_replicate {w : Md α} {b : Nat} (h : Fits env w b) : ∀ n, Fits env (replicate n w) b
  | 0 => fits_lift _ _
  | n + 1 => .bind h fun _ _ => .bind (fits_replicate h n) fun _ _ => fits_lift _ _

theorem fits_vec (m : Rd α) {width n b : Nat} (h : n * width ≤ 2 ^ 63 - 1 → env.cfg.prealloc → n * width ≤ b) : Fits env (vec width n (once m)) b := by
  intro p
  have e : (vec width n (once m) env p).2 = .zero + ((if env.cfg.prealloc ∧ n * width > 2 ^ 63 - 1 then lift (Rd.panic .capacity)
    else do
      reserve (if env.cfg.prealloc then n * width else 0)
      replicate n (once m)) env p).2 := rfl
  rw [e, reserved_add]
  refine Nat.max_le.mpr ⟨Nat.zero_le _, ?_⟩
  split
  · exact Nat.zero_le _
  · rename_i hn
    refine Fits.bind (fits_reserve (b := b) ?_) (fun _ _ => fits_replicate (fits_once _ _) _) p
    split
    · rename_i hc
      exact h (Nat.not_lt.mp fun h => hn ⟨hc, h⟩) hc
    · exact Nat.zero_le _

theorem fits_parseLoop : ∀ (fuel : Nat) (byte : UInt8) (high : Bool) (buffer : List Char) (b : Nat), Fits env (parseLoop fuel byte high buffer) b
  | 0, _, _, _, _ => fits_lift _ _
  | fuel + 1, byte, high, buffer, b => by
    refine .bind (fits_spend _ _) fun _ _ => .bind ?_ fun byte _ => ?_
    · split
      · exact fits_once _ _
      · exact fits_lift _ _
    dsimp only
    repeat' split
    all_goals first
      | exact fits_parseLoop fuel _ _ _ _
      | exact fits_lift _ _

theorem fits_readNumber (b : Nat) : Fits env readNumber b := by
  refine .bind (fits_once _ _) fun first _ => ?_
  repeat' split
  all_goals first
    | exact .bind (fits_lift _ _) fun _ _ => fits_lift _ _
    | exact .bind (fits_once _ _) fun _ _ => fits_lift _ _
    | exact fits_lift _ _
    | skip
  refine .bind (.bind (fits_lift _ _) fun _ _ => .bind (fits_parseLoop _ _ _ _ _) fun c _ => ?_) fun _ _ => fits_lift _ _
  cases parseF32 c <;> exact fits_lift _ _

theorem fits_readOperationLoop : ∀ (fuel : Nat) (operands : List Number) (b : Nat), Fits env (readOperationLoop fuel operands) b
  | 0, _, _ => fits_lift _ _
  | fuel + 1, operands, b => by
    refine .bind (fits_once _ _) fun code _ => ?_
    split
    · exact .bind (fits_readNumber _) fun _ _ => fits_readOperationLoop fuel _ _
    · exact .bind (fits_once _ _) fun _ _ => .bind (fits_lift _ _) fun _ _ => fits_lift _ _

theorem fits_readLoop : ∀ (fuel : Nat) (o : Operations) (b : Nat), Fits env (readLoop fuel o) b
  | 0, _, _ => fits_lift _ _
  | fuel + 1, o, b => fun p => by
    have h1 : Fits env readOperation b := .bind (fits_lift _ _) fun _ _ => fits_readOperationLoop _ _ _
    have h1 := h1 p
    unfold readLoop
    rcases e : readOperation env p with ⟨⟨⟨op, xs⟩ | x | x, t⟩, n⟩ <;> rw [e] at h1 <;> dsimp only at h1 ⊢
    · rw [reserved_add]
      exact Nat.max_le.mpr ⟨h1, fits_readLoop fuel _ _ t⟩
    · cases x <;> exact h1
    · exact h1

theorem fits_ofBytes (chunk : List UInt8) (b : Nat) : Fits env (ofBytes chunk) b := fun _ =>
  (Fits.bind (env := { env with data := chunk }) (fits_lift _ _) fun _ _ => fits_readLoop _ _ _) 0

theorem fits_toOperations {ix : Index} (h : ix.data.length ≤ 65535) : Fits env (toOperations ix) (limit env) := by
  have h1 : ∀ l, Fits env (toOperationsFrom l) (limit env) := by
    intro l
    induction l with
    | nil => exact fits_lift _ _
    | cons c l ih => exact .bind (fits_spend _ _) fun _ _ => .bind (fits_ofBytes _ _) fun _ _ => .bind ih fun _ _ => fits_lift _ _
  exact .bind (fits_reserve (by unfold limit; split <;> omega)) fun _ _ => h1 _

theorem fits_bytes {n : Nat} (h : n ≤ 2 ^ 63 - 1 → n ≤ 2 ^ 32 - 2) : Fits env (bytes n) (limit env) := by
  refine fits_vec _ fun h1 h2 => ?_
  rw [Nat.mul_one] at h1 ⊢
  unfold limit
  rw [if_pos h2]
  exact h h1

theorem fits_readData : ∀ {a : UInt32} {l : List UInt32}, 1 ≤ a.toNat → Fits env (readData (a :: l)) (limit env)
  | a, [], _ => fits_lift _ _
  | a, b :: l, h => by
    unfold readData
    refine .bind (fits_spend _ _) fun _ _ => ?_
    split
    · exact fits_lift _ _
    rename_i hab
    have hb : 1 ≤ b.toNat := by
      have := UInt32.le_iff_toNat_le.mp (UInt32.not_lt.mp hab)
      omega
    refine .bind (fits_lift _ _) fun c _ => .bind (fits_lift _ _) fun size hs => .bind (fits_bytes fun _ => ?_) fun _ _ =>
      .bind (fits_readData hb) fun _ _ => fits_lift _ _
    obtain ⟨p, q, hs⟩ := hs
    rw [subU32_ok hab] at hs
    cases hs
    rw [sub_toNat hab]
    have := b.toNat_lt
    omega

theorem fits_readIndex : Fits env readIndex (limit env) := by
  refine .bind (fits_once _ _) fun count _ => ?_
  have hc := count.toNat_lt
  split
  · exact fits_lift _ _
  refine .bind (fits_once _ _) fun size _ => .bind (fits_reserve (by unfold limit; split <;> omega)) fun _ _ =>
    .bind (fits_replicate (fits_once _ _) _) fun offsets _ => ?_
  cases offsets with
  | nil => exact fits_lift _ _
  | cons first l =>
    dsimp only
    split
    · exact fits_lift _ _
    · rename_i hf
      have hf : first = 1 := not_not.mp hf
      exact .bind (fits_reserve (by unfold limit; split <;> omega)) fun _ _ => .bind (fits_readData (by rw [hf]; decide)) fun _ _ => fits_lift _ _

theorem fits_small (m : Rd α) {width n : Nat} (h : n * width ≤ 2 ^ 63 - 1 → n * width ≤ 48 * 65535) : Fits env (vec width n (once m)) (limit env) :=
  fits_vec m fun h1 h2 => by
    have := h h1
    unfold limit
    rw [if_pos h2]
    omega

theorem fits_readSet {n : Nat} (hn : n ≤ 65535) : Fits env (readSet n) (limit env) := by
  have r1 : ∀ fuel k, Fits env (readRanges1 fuel n k) (limit env) := by
    intro fuel
    induction fuel with
    | zero => intro k; unfold readRanges1; split <;> exact fits_lift _ _
    | succ fuel ih =>
      intro k
      unfold readRanges1
      split
      · exact .bind (fits_once _ _) fun _ _ => .bind (ih _) fun _ _ => fits_lift _ _
      · exact fits_lift _ _
  have r2 : ∀ fuel k, Fits env (readRanges2 fuel n k) (limit env) := by
    intro fuel
    induction fuel with
    | zero => intro k; unfold readRanges2; split <;> exact fits_lift _ _
    | succ fuel ih =>
      intro k
      unfold readRanges2
      split
      · exact .bind (fits_once _ _) fun _ _ => .bind (ih _) fun _ _ => fits_lift _ _
      · exact fits_lift _ _
  refine .bind (fits_once _ _) fun _ _ => ?_
  split
  · refine .bind (fits_once _ _) fun _ _ => ?_
    split
    · exact fits_lift _ _
    refine .bind (fits_lift _ _) fun _ _ => ?_
    split
    · exact fits_lift _ _
    · refine .bind (fits_small _ ?_) fun _ _ => fits_lift _ _
      split <;> omega
  split
  · refine .bind (fits_once _ _) fun _ _ => ?_
    split
    · exact fits_lift _ _
    refine .bind (r1 _ _) fun _ _ => ?_
    dsimp only
    split <;> exact fits_lift _ _
  split
  · refine .bind (fits_once _ _) fun _ _ => ?_
    split
    · exact fits_lift _ _
    refine .bind (r2 _ _) fun _ _ => ?_
    dsimp only
    split <;> exact fits_lift _ _
  · exact fits_lift _ _

theorem fits_readEncoding : Fits env readEncoding (limit env) := by
  have h8 : ∀ (b : UInt8) (w : Nat), w ≤ 4 → b.toNat * w ≤ 48 * 65535 := fun b w hw =>
    Nat.le_trans (Nat.mul_le_mul (Nat.le_of_lt b.toNat_lt) hw) (by decide)
  refine .bind (fits_once _ _) fun _ _ => ?_
  repeat' split
  · refine .bind (fits_once _ _) fun _ _ => ?_
    split
    · exact fits_lift _ _
    · exact .bind (fits_once _ _) fun _ _ => .bind (fits_small _ fun _ => h8 _ _ (by omega)) fun _ _ => fits_lift _ _
  · refine .bind (fits_once _ _) fun _ _ => ?_
    split
    · exact fits_lift _ _
    · exact .bind (fits_once _ _) fun _ _ => .bind (fits_small _ fun _ => h8 _ _ (by omega)) fun _ _ => fits_lift _ _
  · exact .bind (fits_once _ _) fun _ _ => .bind (fits_once _ _) fun _ _ => .bind (fits_small _ fun _ => h8 _ _ (by omega)) fun _ _ => fits_lift _ _
  · exact fits_lift _ _

theorem fits_readSelect (ix : Index) : Fits env (readSelect ix) (limit env) := by
  have h16 : ∀ (b : UInt16) (w : Nat), w ≤ 4 → b.toNat * w ≤ 48 * 65535 := fun b w hw =>
    Nat.le_trans (Nat.mul_le_mul (Nat.le_of_lt b.toNat_lt) hw) (by decide)
  refine .bind (fits_once _ _) fun _ _ => ?_
  repeat' split
  · exact .bind (fits_once _ _) fun _ _ => .bind (fits_small _ fun _ => h16 _ _ (by omega)) fun _ _ => fits_lift _ _
  · refine .bind (fits_once _ _) fun _ _ => ?_
    split
    · exact fits_lift _ _
    · exact .bind (fits_once _ _) fun _ _ => .bind (fits_small _ fun _ => h16 _ _ (by omega)) fun _ _ => .bind (fits_once _ _) fun _ _ => fits_lift _ _
  · exact fits_lift _ _

theorem fits_readPrivate (position : Nat) {top : Operations} (ht : Small top) : Fits env (readPrivate position top) (limit env) := by
  refine .bind (fits_lift _ _) fun c _ => .bind (fits_lift _ _) fun x hx => .bind (fits_once _ _) fun _ _ => .bind (fits_bytes ?_) fun chunk _ =>
    .bind (fits_ofBytes _ _) fun o _ => .bind (fits_lift _ _) fun another _ => .bind ?_ fun _ _ => fits_lift _ _
  · obtain ⟨p, q, hx⟩ := hx
    obtain ⟨size, offset⟩ := x
    have hx' : getII top .opPrivate = .ok (size, offset) := congrArg Prod.fst hx
    obtain ⟨rest, hr⟩ := getPrivate_ok.mp hx'
    have := ht _ _ size hr (by simp)
    intro h
    dsimp only at h ⊢
    unfold toU at *
    omega
  · cases another with
    | none => exact fits_lift _ _
    | some o => exact .bind (fits_lift _ _) fun _ _ => .bind (fits_once _ _) fun _ _ => fits_readIndex

theorem toOperations_all_small {ix : Index} {os : List Operations} (h : ∃ p q, (toOperations ix env p).1 = (.ok os, q)) : ∀ o ∈ os, Small o := by
  obtain ⟨p, q, h⟩ := h
  rw [erases_toOperations] at h
  exact toOperations_small (congrArg Prod.fst h)

theorem fits_readPrivateRecords (position : Nat) : ∀ {l : List Operations}, (∀ o ∈ l, Small o) → Fits env (readPrivateRecords position l) (limit env)
  | [], _ => fits_lift _ _
  | _ :: l, h => .bind (fits_spend _ _) fun _ _ => .bind (fits_readPrivate _ (h _ (by simp))) fun _ _ =>
    .bind (fits_readPrivateRecords position fun o ho => h o (by simp [ho])) fun _ _ => fits_lift _ _

theorem readIndex_small {ix : Index} (h : ∃ p q, (readIndex env p).1 = (.ok ix, q)) : ix.data.length ≤ 65535 := by
  have := (readIndex_counts h).2
  omega

theorem fits_readEntry (position : Nat) {top : Operations} (ht : Small top) : Fits env (readEntry position top) (limit env) := by
  refine .bind (fits_lift _ _) fun _ _ => .bind (fits_once _ _) fun _ _ => .bind (fits_lift _ _) fun _ _ => .bind ?_ fun cs _ =>
    .bind (fits_lift _ _) fun _ _ => .bind ?_ fun _ _ => .bind (fits_lift _ _) fun _ _ => .bind ?_ fun _ _ => .bind ?_ fun _ _ => fits_lift _ _
  · unfold readCharacterStrings
    split
    · exact fits_readIndex
    · exact fits_lift _ _
  · repeat' split
    · exact fits_lift _ _
    · exact fits_lift _ _
    · exact fits_lift _ _
    · exact .bind (fits_once _ _) fun _ _ => fits_readSet (by have := cs.count.toNat_lt; omega)
  · repeat' split
    · exact fits_lift _ _
    · exact fits_lift _ _
    · exact .bind (fits_once _ _) fun _ _ => fits_readEncoding
  · unfold readRecord
    split
    · refine .bind ?_ fun _ _ => fits_lift _ _
      unfold readCIDRecord
      rcases top.get .opROS with _ | _ | ⟨a, _ | ⟨b, _ | ⟨c, _ | ⟨d, l⟩⟩⟩⟩
      case some.cons.cons.cons.nil =>
        exact .bind (fits_lift _ _) fun _ _ => .bind (fits_once _ _) fun _ _ => .bind (fits_readSelect _) fun _ _ => .bind (fits_lift _ _) fun _ _ =>
          .bind (fits_once _ _) fun _ _ => .bind fits_readIndex fun ix hx => .bind (fits_toOperations (readIndex_small hx)) fun os hos =>
          .bind (fits_readPrivateRecords _ (toOperations_all_small hos)) fun _ _ => .bind (fits_lift _ _) fun _ _ => .bind (fits_lift _ _) fun _ _ =>
          fits_lift _ _
      all_goals exact fits_lift _ _
    · exact .bind (fits_readPrivate _ ht) fun _ _ => fits_lift _ _

theorem fits_readEntries (position : Nat) : ∀ {l : List Operations}, (∀ o ∈ l, Small o) → Fits env (readEntries position l) (limit env)
  | [], _ => fits_lift _ _
  | _ :: l, h => .bind (fits_spend _ _) fun _ _ => .bind (fits_readEntry _ (h _ (by simp))) fun _ _ =>
    .bind (fits_readEntries position fun o ho => h o (by simp [ho])) fun _ _ => fits_lift _ _

theorem fits_readFontSet : Fits env readFontSet (limit env) :=
  .bind (fits_lift _ _) fun _ _ => .bind (fits_once _ _) fun _ _ => .bind (fits_once _ _) fun _ _ => .bind fits_readIndex fun _ _ =>
    .bind fits_readIndex fun _ hx => .bind (fits_toOperations (readIndex_small hx)) fun _ hos => .bind fits_readIndex fun _ _ =>
    .bind fits_readIndex fun _ _ => .bind (fits_readEntries _ (toOperations_all_small hos)) fun _ _ => fits_lift _ _

end Metered
end PS
