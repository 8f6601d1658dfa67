import Verif.Model.Narrow
import Verif.Lemmas.Agree
/-!
# Lemmas: font sets on 32-bit targets
-/
namespace PS
open Spec

/-- Two readers agree on a tape, except that the second one may panic for want of memory
where the first one finds the end of the tape. -/
def Near (env : Env) (m n : Rd α) : Prop := ∀ p, n env p = m env p ∨
  (env.cfg.prealloc = true ∧ (∃ q, m env p = (.err .eof, q)) ∧ ∃ q, n env p = (.panic .capacity, q))

namespace Near
variable {env : Env}

theorem refl (m : Rd α) : Near env m m := fun _ => .inl rfl

theorem bindOf {m n : Rd α} {f g : α → Rd β} (h : Near env m n)
    (hf : ∀ a, (∃ p q, m env p = (.ok a, q)) → Near env (f a) (g a)) :
    Near env (m >>= f) (n >>= g) := by
  intro p
  show Rd.bind n g env p = Rd.bind m f env p ∨
    (_ ∧ (∃ q, Rd.bind m f env p = _) ∧ ∃ q, Rd.bind n g env p = _)
  unfold Rd.bind
  rcases h p with h | ⟨h1, ⟨q, h2⟩, q', h3⟩
  · rw [h]
    rcases hm : m env p with ⟨a | e | x, q⟩
    · exact hf a ⟨p, q, hm⟩ q
    · exact .inl rfl
    · exact .inl rfl
  · rw [h2, h3]
    exact .inr ⟨h1, ⟨_, rfl⟩, _, rfl⟩

theorem bind {m n : Rd α} {f g : α → Rd β} (h : Near env m n) (hf : ∀ a, Near env (f a) (g a)) :
    Near env (m >>= f) (n >>= g) := bindOf h (fun a _ => hf a)

theorem ite {c : Prop} [Decidable c] {m m' n n' : Rd α} (hm : c → Near env m n) (hn : ¬ c → Near env m' n') :
    Near env (if c then m else m') (if c then n else n') := by
  by_cases hc : c
  · rw [if_pos hc, if_pos hc]; exact hm hc
  · rw [if_neg hc, if_neg hc]; exact hn hc

theorem bindRes {r : Res α} {f g : α → Rd β} (hf : ∀ a, r = .ok a → Near env (f a) (g a)) :
    Near env (Rd.ofRes r >>= f) (Rd.ofRes r >>= g) :=
  bindOf (refl _) (fun a ⟨_, _, h⟩ => hf a (congrArg Prod.fst h))

theorem skip {m : Rd α} {f g : α → Rd β} (hf : ∀ a, Near env (f a) (g a)) : Near env (m >>= f) (m >>= g) :=
  bind (refl m) hf

end Near

/-- Reading more elements than there is room for fails in the same way, however many
there are. -/
theorem replicate_beyond {m : Rd α} {w : Nat} {env : Env}
    (hm : ∀ p, (∃ a, m env p = (.ok a, p + w) ∧ p + w ≤ env.data.length) ∨ ∃ q, m env p = (.err .eof, q)) (n n' p : Nat)
    (h : 0 < n) (h' : 0 < n') (hn : env.data.length < p + w * n) (hn' : env.data.length < p + w * n') :
    Rd.replicate n m env p = Rd.replicate n' m env p ∧ ∃ q, Rd.replicate n m env p = (.err .eof, q) := by
  induction n generalizing n' p with
  | zero => omega
  | succ n ih =>
    obtain ⟨n', rfl⟩ : ∃ k, n' = k + 1 := ⟨n' - 1, by omega⟩
    show Rd.bind m _ env p = Rd.bind m _ env p ∧ ∃ q, Rd.bind m _ env p = _
    unfold Rd.bind
    rcases hm p with ⟨a, h1, h2⟩ | ⟨q, h1⟩
    · simp only [h1]
      have e1 : w * (n + 1) = w * n + w := by ring
      have e2 : w * (n' + 1) = w * n' + w := by ring
      have p1 : 0 < n := by
        rcases Nat.eq_zero_or_pos n with rfl | h3
        · omega
        · exact h3
      have p2 : 0 < n' := by
        rcases Nat.eq_zero_or_pos n' with rfl | h3
        · omega
        · exact h3
      obtain ⟨h3, q, h4⟩ := ih n' (p + w) p1 p2 (by omega) (by omega)
      show Rd.bind (Rd.replicate n m) _ env (p + w) = Rd.bind (Rd.replicate n' m) _ env (p + w) ∧
        ∃ q, Rd.bind (Rd.replicate n m) _ env (p + w) = _
      unfold Rd.bind
      rw [← h3, h4]
      exact ⟨rfl, _, rfl⟩
    · simp only [h1]
      exact ⟨trivial, _, rfl⟩

theorem u8_beyond (env : Env) (p : Nat) :
    (∃ a, Rd.u8 env p = (.ok a, p + 1) ∧ p + 1 ≤ env.data.length) ∨ ∃ q, Rd.u8 env p = (.err .eof, q) := by
  show (∃ a, Rd.bind (Rd.readExact 1) _ env p = _ ∧ _) ∨ ∃ q, Rd.bind (Rd.readExact 1) _ env p = _
  unfold Rd.bind Rd.readExact
  by_cases h : 1 ≤ env.data.length - p
  · rw [if_pos h]
    exact .inl ⟨_, rfl, by omega⟩
  · rw [if_neg h]
    exact .inr ⟨_, rfl⟩

theorem u16_beyond (env : Env) (p : Nat) :
    (∃ a, Rd.u16 env p = (.ok a, p + 2) ∧ p + 2 ≤ env.data.length) ∨ ∃ q, Rd.u16 env p = (.err .eof, q) := by
  show (∃ a, Rd.bind (Rd.readExact 2) _ env p = _ ∧ _) ∨ ∃ q, Rd.bind (Rd.readExact 2) _ env p = _
  unfold Rd.bind Rd.readExact
  by_cases h : 2 ≤ env.data.length - p
  · rw [if_pos h]
    exact .inl ⟨_, rfl, by omega⟩
  · rw [if_neg h]
    exact .inr ⟨_, rfl⟩

section
variable {env : Env} (hd : env.data.length < 2 ^ 31)
include hd

theorem near_vec {m : Rd α} {w : Nat}
    (hm : ∀ p, (∃ a, m env p = (.ok a, p + w) ∧ p + w ≤ env.data.length) ∨ ∃ q, m env p = (.err .eof, q))
    {n n' : Nat} (h : n = n' ∨ (2 ^ 63 ≤ w * n ∧ 2 ^ 31 ≤ w * n')) :
    Near env (Rd.vec w n m) (Narrow.vec w n' m) := by
  intro p
  show (if env.cfg.prealloc = true ∧ n' * w > 2 ^ 31 - 1 then Rd.panic .capacity else Rd.replicate n' m) env p =
      (if env.cfg.prealloc = true ∧ n * w > 2 ^ 63 - 1 then Rd.panic .capacity else Rd.replicate n m) env p ∨
    (_ ∧ (∃ q, (if env.cfg.prealloc = true ∧ n * w > 2 ^ 63 - 1 then Rd.panic .capacity else Rd.replicate n m) env p = _) ∧
      ∃ q, (if env.cfg.prealloc = true ∧ n' * w > 2 ^ 31 - 1 then Rd.panic .capacity else Rd.replicate n' m) env p = _)
  have e1 : n * w = w * n := Nat.mul_comm _ _
  have e2 : n' * w = w * n' := Nat.mul_comm _ _
  have pos : ∀ k, 2 ^ 31 ≤ w * k → 0 < k := by
    intro k hk
    rcases Nat.eq_zero_or_pos k with rfl | h1
    · omega
    · exact h1
  rcases h with rfl | ⟨h1, h2⟩
  · by_cases hs : w * n ≤ 2 ^ 31 - 1
    · rw [if_neg (by omega), if_neg (by omega)]
      exact .inl rfl
    · obtain ⟨-, q, h3⟩ := replicate_beyond hm n n p (pos _ (by omega)) (pos _ (by omega)) (by omega) (by omega)
      by_cases hp : env.cfg.prealloc = true
      · by_cases hl : n * w > 2 ^ 63 - 1
        · rw [if_pos ⟨hp, by omega⟩, if_pos ⟨hp, hl⟩]
          exact .inl rfl
        · rw [if_pos ⟨hp, by omega⟩, if_neg (by omega)]
          exact .inr ⟨hp, ⟨q, h3⟩, _, rfl⟩
      · rw [if_neg (fun h => hp h.1), if_neg (fun h => hp h.1)]
        exact .inl rfl
  · obtain ⟨h3, -⟩ := replicate_beyond hm n' n p (pos _ (by omega)) (pos _ (by omega)) (by omega) (by omega)
    by_cases hp : env.cfg.prealloc = true
    · rw [if_pos ⟨hp, by omega⟩, if_pos ⟨hp, by omega⟩]
      exact .inl rfl
    · rw [if_neg (fun h => hp h.1), if_neg (fun h => hp h.1)]
      exact .inl h3

theorem near_bytes {n n' : Nat} (h : n = n' ∨ (2 ^ 63 ≤ n ∧ 2 ^ 31 ≤ n')) :
    Near env (Rd.bytes n) (Narrow.bytes n') :=
  near_vec hd (u8_beyond env) (h.imp id (fun h => ⟨by omega, by omega⟩))

theorem near_readData (offsets : List UInt32) : Near env (Index.readData offsets) (Narrow.readData offsets) := by
  match offsets with
  | [] => exact Near.refl _
  | [a] => exact Near.refl _
  | a :: b :: rest =>
    unfold Index.readData Narrow.readData
    exact Near.ite (fun _ => Near.refl _) (fun _ => Near.skip (fun c => Near.skip (fun size =>
      Near.bind (near_bytes hd (.inl rfl)) (fun _ => Near.bind (near_readData _) (fun _ => Near.refl _)))))

theorem near_index : Near env Index.read Narrow.readIndex := by
  unfold Index.read Narrow.readIndex
  refine Near.skip (fun count => Near.ite (fun _ => Near.refl _) (fun _ => Near.skip (fun size =>
    Near.skip (fun offsets => ?_))))
  match offsets with
  | [] => exact Near.refl _
  | first :: rest => exact Near.ite (fun _ => Near.refl _) (fun _ => Near.bind (near_readData hd _) (fun _ => Near.refl _))

theorem near_characterStrings (format : Int) :
    Near env (readCharacterStrings format) (Narrow.readCharacterStrings format) := by
  unfold readCharacterStrings Narrow.readCharacterStrings
  exact Near.ite (fun _ => near_index hd) (fun _ => Near.refl _)

theorem near_set (count : Nat) : Near env (CharacterSet.read count) (Narrow.readSet count) := by
  unfold CharacterSet.read Narrow.readSet
  refine Near.skip (fun _ => Near.ite (fun _ => ?_) (fun _ => Near.refl _))
  unfold CharacterSet.read0 Narrow.readSet0
  refine Near.skip (fun _ => Near.ite (fun _ => Near.refl _) (fun _ => Near.skip (fun c => Near.ite (fun _ => Near.refl _)
    (fun _ => Near.bind ?_ (fun _ => Near.refl _)))))
  refine near_vec hd (u16_beyond env) ?_
  by_cases h : count = 0
  · rw [if_pos h, if_pos h]
    exact .inr (by omega)
  · rw [if_neg h, if_neg h]
    exact .inl rfl

theorem near_private (position : Nat) {top : Operations} (ht : Small top) :
    Near env (PrivateRecord.read position top) (Narrow.readPrivate position top) := by
  unfold PrivateRecord.read Narrow.readPrivate
  refine Near.skip (fun c => Near.bindRes (fun x hx => ?_))
  obtain ⟨size, offset⟩ := x
  obtain ⟨rest, hr⟩ := getPrivate_ok.mp hx
  have hs := ht _ _ size hr (by simp)
  refine Near.skip (fun _ => Near.bind (near_bytes hd ?_) (fun _ => Near.skip (fun _ => Near.skip (fun another =>
    Near.bind ?_ (fun _ => Near.refl _)))))
  · unfold toU
    by_cases h : 0 ≤ size
    · left; omega
    · right; omega
  · rcases another with _ | another
    · exact Near.refl _
    · exact Near.skip (fun _ => Near.skip (fun _ => near_index hd))

theorem near_privates (position : Nat) {tops : List Operations} (ht : ∀ x ∈ tops, Small x) :
    Near env (readPrivateRecords position tops) (Narrow.readPrivates position tops) := by
  induction tops with
  | nil => exact Near.refl _
  | cons top tops ih =>
    exact Near.bind (near_private hd position (ht _ (by simp))) (fun _ => Near.bind (ih (fun x hx => ht x (by simp [hx])))
      (fun _ => Near.refl _))

theorem near_cid (position : Nat) (top : Operations) (cs : Index) :
    Near env (CIDRecord.read position top cs) (Narrow.readCID position top cs) := by
  unfold CIDRecord.read Narrow.readCID
  generalize top.get Operator.opROS = r
  rcases r with _ | (_ | ⟨registry, _ | ⟨ordering, _ | ⟨supplement, _ | ⟨d, l⟩⟩⟩⟩)
  · exact Near.refl _
  · exact Near.refl _
  · exact Near.refl _
  · exact Near.refl _
  · exact Near.skip (fun c => Near.skip (fun _ => Near.skip (fun _ => Near.skip (fun _ => Near.skip (fun _ =>
      Near.skip (fun _ => Near.bind (near_index hd) (fun dicts => Near.bindRes (fun xs hx =>
      Near.bind (near_privates hd position (toOperations_small hx)) (fun _ => Near.refl _)))))))))
  · exact Near.refl _

theorem near_record (position : Nat) {top : Operations} (ht : Small top) (cs : Index) :
    Near env (Record.read position top cs) (Narrow.readRecord position top cs) := by
  unfold Record.read Narrow.readRecord
  exact Near.ite (fun _ => Near.bind (near_cid hd position top cs) (fun _ => Near.refl _))
    (fun _ => Near.bind (near_private hd position ht) (fun _ => Near.refl _))

theorem near_entry (position : Nat) {top : Operations} (ht : Small top) :
    Near env (FontEntry.read position top) (Narrow.readEntry position top) := by
  unfold FontEntry.read Narrow.readEntry
  exact Near.skip (fun _ => Near.skip (fun _ => Near.skip (fun _ => Near.bind (near_characterStrings hd _) (fun cs =>
    Near.skip (fun _ => Near.bind (Near.ite (fun _ => Near.refl _) (fun _ => Near.ite (fun _ => Near.refl _) (fun _ =>
    Near.ite (fun _ => Near.refl _) (fun _ => Near.skip (fun _ => near_set hd _))))) (fun _ =>
    Near.skip (fun _ => Near.skip (fun _ => Near.bind (near_record hd position ht cs) (fun _ => Near.refl _)))))))))

theorem near_entries (position : Nat) {tops : List Operations} (ht : ∀ x ∈ tops, Small x) :
    Near env (readEntries position tops) (Narrow.readEntries position tops) := by
  induction tops with
  | nil => exact Near.refl _
  | cons top tops ih =>
    exact Near.bind (near_entry hd position (ht _ (by simp))) (fun _ => Near.bind (ih (fun x hx => ht x (by simp [hx])))
      (fun _ => Near.refl _))

theorem near_fontSet : Near env FontSet.read Narrow.readFontSet := by
  unfold FontSet.read Narrow.readFontSet
  exact Near.skip (fun c => Near.skip (fun position => Near.skip (fun _ => Near.skip (fun _ =>
    Near.bind (near_index hd) (fun _ => Near.bind (near_index hd) (fun dicts => Near.bindRes (fun xs hx =>
    Near.bind (near_index hd) (fun _ => Near.bind (near_index hd) (fun _ =>
    Near.bind (near_entries hd position (toOperations_small hx)) (fun _ => Near.refl _))))))))))

end

theorem bytes_narrow {env : Env} {n p q : Nat} {chunk : List UInt8} (h : Rd.bytes n env p = (.ok chunk, q)) :
    chunk.length = n ∧
    (¬ (env.cfg.prealloc = true ∧ 2 ^ 31 ≤ n) → Narrow.bytes n env p = (.ok chunk, q)) ∧
    ((env.cfg.prealloc = true ∧ 2 ^ 31 ≤ n) → Narrow.bytes n env p = (.panic .capacity, p)) := by
  have h : (if env.cfg.prealloc = true ∧ n * 1 > 2 ^ 63 - 1 then Rd.panic .capacity else Rd.replicate n Rd.u8) env p =
    (.ok chunk, q) := h
  have e : Narrow.bytes n env p = (if env.cfg.prealloc = true ∧ n * 1 > 2 ^ 31 - 1 then Rd.panic .capacity
    else Rd.replicate n Rd.u8) env p := rfl
  by_cases hp : env.cfg.prealloc = true ∧ n * 1 > 2 ^ 63 - 1
  · rw [if_pos hp] at h
    simp [Rd.panic] at h
  · rw [if_neg hp] at h
    refine ⟨replicate_length h, fun h1 => ?_, fun h1 => ?_⟩
    · rw [e, if_neg (fun h2 => h1 ⟨h2.1, by omega⟩)]
      exact h
    · rw [e, if_pos ⟨h1.1, by omega⟩]
      rfl

theorem readData_narrow {env : Env} {offsets : List UInt32} {p q : Nat} {data : List (List UInt8)}
    (h : Index.readData offsets env p = (.ok data, q)) :
    (¬ (env.cfg.prealloc = true ∧ ∃ x ∈ data, 2 ^ 31 ≤ x.length) → Narrow.readData offsets env p = (.ok data, q)) ∧
    ((env.cfg.prealloc = true ∧ ∃ x ∈ data, 2 ^ 31 ≤ x.length) →
      ∃ q', Narrow.readData offsets env p = (.panic .capacity, q')) := by
  match offsets, h with
  | [], h | [a], h =>
    have h : (Res.ok ([] : List (List UInt8)), p) = (.ok data, q) := h
    obtain ⟨rfl, rfl⟩ : [] = data ∧ p = q := by simpa using h
    exact ⟨fun _ => rfl, fun ⟨_, x, hx, _⟩ => by simp at hx⟩
  | a :: b :: rest, h =>
    unfold Index.readData at h
    unfold Narrow.readData
    by_cases hab : b < a
    · rw [if_pos hab] at h
      simp [Rd.raise] at h
    · rw [if_neg hab] at h ⊢
      rw [cfg_bind] at h ⊢
      obtain ⟨size, p1, h1, h⟩ := Rd.bind_ok.mp h
      obtain ⟨chunk, p2, h2, h⟩ := Rd.bind_ok.mp h
      obtain ⟨data', p3, h3, h⟩ := Rd.bind_ok.mp h
      obtain ⟨rfl, rfl⟩ : chunk :: data' = data ∧ p3 = q := by simpa [Rd.pure_eq] using h
      rw [Rd.bind_of_ok h1]
      obtain ⟨hl, hok, hpanic⟩ := bytes_narrow h2
      obtain ⟨ihok, ihpanic⟩ := readData_narrow h3
      refine ⟨fun hn => ?_, fun ⟨hp, x, hx, hx'⟩ => ?_⟩
      · rw [Rd.bind_of_ok (hok (fun ⟨k1, k2⟩ => hn ⟨k1, chunk, by simp, by omega⟩)),
          Rd.bind_of_ok (ihok (fun ⟨k1, x, k2, k3⟩ => hn ⟨k1, x, by simp [k2], k3⟩))]
        rfl
      · by_cases hc : 2 ^ 31 ≤ size.toNat
        · rw [Rd.bind_of_panic (hpanic ⟨hp, hc⟩)]
          exact ⟨_, rfl⟩
        · rw [Rd.bind_of_ok (hok (fun k => hc k.2))]
          rcases List.mem_cons.mp hx with rfl | hx
          · omega
          · obtain ⟨q', h4⟩ := ihpanic ⟨hp, x, hx, hx'⟩
            rw [Rd.bind_of_panic h4]
            exact ⟨_, rfl⟩

theorem index_narrow {env : Env} {p q : Nat} {ix : Index} (h : Index.read env p = (.ok ix, q)) :
    (¬ (env.cfg.prealloc = true ∧ ∃ x ∈ ix.data, 2 ^ 31 ≤ x.length) → Narrow.readIndex env p = (.ok ix, q)) ∧
    ((env.cfg.prealloc = true ∧ ∃ x ∈ ix.data, 2 ^ 31 ≤ x.length) →
      ∃ q', Narrow.readIndex env p = (.panic .capacity, q')) := by
  unfold Index.read at h
  unfold Narrow.readIndex
  obtain ⟨count, p1, h1, h⟩ := Rd.bind_ok.mp h
  rw [Rd.bind_of_ok h1]
  by_cases hc : count = 0
  · rw [if_pos hc] at h ⊢
    obtain ⟨rfl, rfl⟩ : Index.empty = ix ∧ p1 = q := by simpa [Rd.pure_eq] using h
    exact ⟨fun _ => rfl, fun ⟨_, x, hx, _⟩ => by simp [Index.empty] at hx⟩
  · rw [if_neg hc] at h ⊢
    obtain ⟨size, p2, h2, h⟩ := Rd.bind_ok.mp h
    obtain ⟨offsets, p3, h3, h⟩ := Rd.bind_ok.mp h
    rw [Rd.bind_of_ok h2, Rd.bind_of_ok h3]
    match offsets, h with
    | [], h => simp [Rd.panic] at h
    | first :: rest, h =>
      by_cases hf : first ≠ 1
      · simp only [if_pos hf] at h
        simp [Rd.raise] at h
      · simp only [if_neg hf] at h ⊢
        obtain ⟨data, p4, h4, h⟩ := Rd.bind_ok.mp h
        obtain ⟨rfl, rfl⟩ : Index.mk count size (first :: rest) data = ix ∧ p4 = q := by simpa [Rd.pure_eq] using h
        obtain ⟨hok, hpanic⟩ := readData_narrow h4
        refine ⟨fun hn => ?_, fun hp => ?_⟩
        · rw [Rd.bind_of_ok (hok hn)]
          rfl
        · obtain ⟨q', h5⟩ := hpanic hp
          rw [Rd.bind_of_panic h5]
          exact ⟨_, rfl⟩

end PS
