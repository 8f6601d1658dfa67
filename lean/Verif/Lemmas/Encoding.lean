import Verif.Lemmas.CharacterSet
/-!
# Lemmas about encodings and the predefined tables
-/
namespace PS
open Spec

/-! ## Tables keyed by identifiers -/

theorem lookup_map_key {α : Type} (l : List Nat) (f : Nat → α) (g : Nat) (x : α) :
    (l.map fun k => (k, f k)).lookup g = some x ↔ g ∈ l ∧ f g = x := by
  induction l with
  | nil => simp
  | cons k l ih =>
    by_cases h : g = k
    · subst h
      simp
    · have hb : (g == k) = false := by simpa using h
      rw [List.map_cons, List.lookup_cons, hb]
      simp only [ih, List.mem_cons, h, false_or]

/-- The standard string with an identifier, for tables all of whose identifiers
have one. -/
def stdName (k : Nat) : String := (standardStringList[k]?).getD ""

theorem stdName_eq {k : Nat} {s : String} (h : k < 391) : stdName k = s ↔ standardStringList[k]? = some s := by
  unfold stdName
  have hl : k < standardStringList.length := by rw [standardStringList_length]; exact h
  rw [List.getElem?_eq_getElem hl]
  simp

theorem isoAdobe_eq : Tables.isoAdobe = (isoAdobeGlyphs.drop 1).map fun k => (k, stdName k) := by decide +kernel

theorem expertSet_eq : Tables.expertSet = (expertGlyphs.drop 1).map fun k => (k, stdName k) := by decide +kernel

theorem expertSubset_eq : Tables.expertSubset = (expertSubsetGlyphs.drop 1).map fun k => (k, stdName k) := by
  decide +kernel

theorem lookup_glyphs {t : List (Nat × String)} {l : List Nat} (ht : t = l.map fun k => (k, stdName k))
    (hl : ∀ k ∈ l, k < 391) (g : Nat) (s : String) :
    t.lookup g = some s ↔ g ∈ l ∧ standardStringList[g]? = some s := by
  subst ht
  rw [lookup_map_key]
  constructor
  · rintro ⟨h1, h2⟩
    exact ⟨h1, (stdName_eq (hl g h1)).mp h2⟩
  · rintro ⟨h1, h2⟩
    exact ⟨h1, (stdName_eq (hl g h1)).mpr h2⟩

/-! ## The predefined encodings -/

theorem standardEncoding_eq :
    Tables.standardEncoding = (List.range 256).map fun k => (k, codeSID standardCodes k, stdName (codeSID standardCodes k)) := by
  decide +kernel

theorem expertEncoding_eq :
    Tables.expertEncoding = (List.range 256).map fun k => (k, codeSID expertCodes k, stdName (codeSID expertCodes k)) := by
  decide +kernel

/-! ## Reading encodings -/

theorem u8_cons (env : Env) (p : Nat) (b : UInt8) (l : List UInt8) (h : env.data.drop p = b :: l) :
    Rd.u8 env p = (.ok b, p + 1) :=
  (exact_u8 env p b _).mpr ⟨[b], rfl, ⟨l, by simp [h]⟩, rfl⟩

/-- Looking at the next byte before a reader that need not look at it again. -/
theorem exact_peek_u8_ne {f : UInt8 → Rd α} {S : UInt8 → α → List UInt8 → Prop}
    (hf : ∀ b, Exact (f b) (S b)) (hne : ∀ b a bs, S b a bs → bs ≠ []) :
    Exact (Rd.peek Rd.u8 >>= f) (fun a bs => ∃ b l, bs = b :: l ∧ S b a bs) := by
  intro env p a q
  rcases hd : env.data.drop p with _ | ⟨b, l⟩
  · have := peek_u8_eof env p hd
    rw [Rd.bind_of_err this]
    simp only [List.prefix_nil]
    constructor
    · simp
    · rintro ⟨bs, ⟨b, l, h, hR⟩, rfl, _⟩
      simp at h
  · rw [Rd.bind_of_ok (peek_u8 env p b l hd), hf b env p a q, hd]
    constructor
    · rintro ⟨bs, hR, h1, h2⟩
      obtain ⟨c, m, rfl⟩ := List.exists_cons_of_ne_nil (hne _ _ _ hR)
      obtain rfl : c = b := by
        obtain ⟨t, ht⟩ := h1
        simp at ht
        exact ht.1
      exact ⟨_, ⟨c, m, rfl, hR⟩, h1, h2⟩
    · rintro ⟨bs, ⟨b', l', rfl, hR⟩, h1, h2⟩
      have : b' = b := by
        obtain ⟨t, ht⟩ := h1
        simp at ht
        exact ht.1
      subst this
      exact ⟨_, hR, h1, h2⟩

namespace Encoding

theorem exact_encRange1 : Exact readRange1 (fun r bs => bs = [r.firstCode, r.leftCount]) := by
  unfold readRange1
  refine Exact.congr (Exact.bind exact_u8 (fun f => Exact.bind exact_u8 (fun l => Exact.pure _))) ?_
  intro r bs
  constructor
  · rintro ⟨f, b1, _, rfl, rfl, l, b2, b3, rfl, rfl, rfl, rfl⟩
    simp
  · rintro rfl
    exact ⟨_, _, _, rfl, rfl, _, _, [], by simp, rfl, rfl, rfl⟩

theorem exact_supplement : Exact readSupplement (fun s bs => bs = s.code :: be 2 s.glyph.toNat) := by
  unfold readSupplement
  refine Exact.congr (Exact.bind exact_u8 (fun f => Exact.bind exact_u16 (fun l => Exact.pure _))) ?_
  intro r bs
  constructor
  · rintro ⟨f, b1, _, rfl, rfl, l, b2, b3, rfl, rfl, rfl, rfl⟩
    simp
  · rintro rfl
    exact ⟨_, [r.code], _, rfl, rfl, _, _, [], (List.append_nil _).symm, rfl, rfl, rfl⟩

theorem u8_small (n : UInt8) (w : Nat) (hw : w ≤ 4) : n.toNat * w ≤ 2 ^ 63 - 1 := by
  have := n.toNat_lt
  have : n.toNat * w ≤ 256 * 4 := Nat.mul_le_mul (by omega) hw
  omega

theorem ofNat_length {l : List α} {n : UInt8} (h : l.length = n.toNat) : UInt8.ofNat l.length = n := by
  rw [h]; simp

theorem exact_read0 : Exact read0 (fun e bs => ∃ n codes, e = format0 0 n codes ∧ codes.length = n.toNat ∧
    bs = 0 :: n :: codes) := by
  unfold read0
  refine Exact.congr (Exact.bind exact_u8 (fun f => Exact.ite (fun _ => Exact.raise _) (fun _ =>
    Exact.bind exact_u8 (fun n => Exact.bind (exact_vec exact_u8 1 n.toNat (u8_small n 1 (by omega)))
      (fun cs => Exact.pure _))))) ?_
  intro e bs
  constructor
  · rintro ⟨f, b1, _, rfl, rfl, ⟨-, h⟩ | ⟨hf, n, b2, _, rfl, rfl, cs, b3, b4, rfl, ⟨hl, hs⟩, rfl, rfl⟩⟩
    · exact h.elim
    · simp only [ne_eq, Decidable.not_not] at hf
      subst hf
      rw [seq_singleton_iff] at hs
      subst hs
      exact ⟨n, _, rfl, hl, by simp⟩
  · rintro ⟨n, cs, rfl, hl, rfl⟩
    exact ⟨0, [0], _, rfl, rfl, .inr ⟨by simp, n, [n], _, rfl, rfl, cs, cs, [], by simp, ⟨hl, seq_singleton_iff.mpr (by simp)⟩,
      rfl, rfl⟩⟩

theorem exact_read1 : Exact read1 (fun e bs => ∃ n ranges, e = format1 1 n ranges ∧ ranges.length = n.toNat ∧
    bs = 1 :: n :: ranges.flatMap fun r => [r.firstCode, r.leftCount]) := by
  unfold read1
  refine Exact.congr (Exact.bind exact_u8 (fun f => Exact.ite (fun _ => Exact.raise _) (fun _ =>
    Exact.bind exact_u8 (fun n => Exact.bind (exact_vec exact_encRange1 2 n.toNat (u8_small n 2 (by omega)))
      (fun cs => Exact.pure _))))) ?_
  intro e bs
  constructor
  · rintro ⟨f, b1, _, rfl, rfl, ⟨-, h⟩ | ⟨hf, n, b2, _, rfl, rfl, cs, b3, b4, rfl, ⟨hl, hs⟩, rfl, rfl⟩⟩
    · exact h.elim
    · simp only [ne_eq, Decidable.not_not] at hf
      subst hf
      rw [seq_fun_iff] at hs
      subst hs
      exact ⟨n, _, rfl, hl, by simp⟩
  · rintro ⟨n, cs, rfl, hl, rfl⟩
    exact ⟨1, [1], _, rfl, rfl, .inr ⟨by simp, n, [n], _, rfl, rfl, cs, _, [], (List.append_nil _).symm,
      ⟨hl, seq_fun_iff.mpr rfl⟩, rfl, rfl⟩⟩

theorem exact_readSupplemental : Exact readSupplemental (fun e bs => ∃ f n sups, e = supplemental f n sups ∧
    sups.length = n.toNat ∧ bs = f :: n :: sups.flatMap fun s => s.code :: be 2 s.glyph.toNat) := by
  unfold readSupplemental
  refine Exact.congr (Exact.bind exact_u8 (fun f =>
    Exact.bind exact_u8 (fun n => Exact.bind (exact_vec exact_supplement 4 n.toNat (u8_small n 4 (by omega)))
      (fun cs => Exact.pure _)))) ?_
  intro e bs
  constructor
  · rintro ⟨f, b1, _, rfl, rfl, n, b2, _, rfl, rfl, cs, b3, b4, rfl, ⟨hl, hs⟩, rfl, rfl⟩
    rw [seq_fun_iff] at hs
    subst hs
    exact ⟨f, n, _, rfl, hl, by simp⟩
  · rintro ⟨f, n, cs, rfl, hl, rfl⟩
    exact ⟨f, [f], _, rfl, rfl, n, [n], _, rfl, rfl, cs, _, [], (List.append_nil _).symm,
      ⟨hl, seq_fun_iff.mpr rfl⟩, rfl, rfl⟩

theorem highBit (b : UInt8) : b &&& 0x80 > 0 ↔ 128 ≤ b.toNat := by
  have : ∀ n : Fin 256, UInt8.ofNat n.val &&& 0x80 > 0 ↔ 128 ≤ (UInt8.ofNat n.val).toNat := by decide +kernel
  have h := this ⟨b.toNat, b.toNat_lt⟩
  simpa using h

/-- Reading an encoding. -/
theorem exact_encoding : Exact read (fun e bs => Encodable e ∧ bs = encodeEncoding e) := by
  unfold read
  refine (exact_peek_u8_ne (fun b => Exact.ite (fun _ => exact_read0) (fun _ => Exact.ite (fun _ => exact_read1)
    (fun _ => Exact.ite (fun _ => exact_readSupplemental) (fun _ => Exact.raise _)))) ?_).congr ?_
  · rintro b e bs (⟨-, n, x, -, -, rfl⟩ | ⟨-, ⟨-, n, x, -, -, rfl⟩ | ⟨-, ⟨-, f, n, x, -, -, rfl⟩ | ⟨-, h⟩⟩⟩)
    · simp
    · simp
    · simp
    · exact h.elim
  · intro e bs
    constructor
    · rintro ⟨b, l, rfl, ⟨-, n, x, rfl, hl, h⟩ | ⟨-, ⟨-, n, x, rfl, hl, h⟩ | ⟨-, ⟨hb, f, n, x, rfl, hl, h⟩ | ⟨-, h⟩⟩⟩⟩
      · exact ⟨⟨rfl, hl⟩, by rw [h]; simp only [encodeEncoding, ofNat_length hl]⟩
      · exact ⟨⟨rfl, hl⟩, by rw [h]; simp only [encodeEncoding, ofNat_length hl]⟩
      · rw [highBit] at hb
        rw [(List.cons.inj h).1] at hb
        exact ⟨⟨hb, hl⟩, by rw [h]; simp only [encodeEncoding, ofNat_length hl]⟩
      · exact h.elim
    · rintro ⟨hc, rfl⟩
      rcases e with _ | _ | ⟨f, n, x⟩ | ⟨f, n, x⟩ | ⟨f, n, x⟩ <;> try exact hc.elim
      · obtain ⟨rfl, hl⟩ := hc
        exact ⟨0, _, rfl, .inl ⟨rfl, n, x, rfl, hl, by simp only [encodeEncoding, ofNat_length hl]⟩⟩
      · obtain ⟨rfl, hl⟩ := hc
        exact ⟨1, _, rfl, .inr ⟨by decide, .inl ⟨rfl, n, x, rfl, hl, by simp only [encodeEncoding, ofNat_length hl]⟩⟩⟩
      · obtain ⟨hf, hl⟩ := hc
        refine ⟨f, _, rfl, .inr ⟨?_, .inr ⟨?_, .inl ⟨(highBit f).mpr hf, f, n, x, rfl, hl,
          by simp only [encodeEncoding, ofNat_length hl]⟩⟩⟩⟩
        · rintro rfl; simp at hf
        · rintro rfl; simp at hf

/-- The errors of reading an encoding. -/
def EncErr (e : Err) : Prop := e = .eof ∨ e = .raised .unknownEncodingFormat

theorem noPanic_encoding : NoPanic read := by
  unfold read read0 read1 readSupplemental readRange1 readSupplement
  nopanic [NoPanic.vec NoPanic.u8 1 _ (u8_small _ 1 (by omega))]
  · exact NoPanic.vec (by nopanic []) _ _ (u8_small _ _ (by omega))
  · exact NoPanic.vec (by nopanic []) _ _ (u8_small _ _ (by omega))

theorem errs_encoding : Errs read EncErr := by
  have he : EncErr .eof := .inl rfl
  have hu : EncErr (.raised .unknownEncodingFormat) := .inr rfl
  intro env p e q h
  unfold read at h
  rcases hd : env.data.drop p with _ | ⟨b, l⟩
  · rw [Rd.bind_of_err (peek_u8_eof env p hd)] at h
    simp only [Prod.mk.injEq, Res.err.injEq] at h
    exact .inl h.1.symm
  · rw [Rd.bind_of_ok (peek_u8 env p b l hd)] at h
    by_cases h0 : b = 0
    · subst h0
      rw [if_pos rfl] at h
      unfold read0 at h
      rw [Rd.bind_of_ok (u8_cons env p _ l hd), if_neg (by simp)] at h
      refine (?_ : Errs _ EncErr) _ _ _ _ h
      errs []
    rw [if_neg h0] at h
    by_cases h1 : b = 1
    · subst h1
      rw [if_pos rfl] at h
      unfold read1 readRange1 at h
      rw [Rd.bind_of_ok (u8_cons env p _ l hd), if_neg (by simp)] at h
      refine (?_ : Errs _ EncErr) _ _ _ _ h
      errs []
    rw [if_neg h1] at h
    unfold readSupplemental readSupplement at h
    refine (?_ : Errs _ EncErr) _ _ _ _ h
    errs []

end Encoding
end PS
