import Verif.Lemmas.DefectFont
/-!
# Lemmas: how reading character sets, encodings, fonts and font sets fails
-/
namespace PS
open Spec

/-! ## Character sets -/

theorem reach_iff {count found : Nat} {l : List Nat} {n : Nat} (hl : ∀ s ∈ l, 0 < s) :
    CharacterSet.Reach count found l n ↔ n = found + l.sum ∧ ((l = [] ∧ count ≤ found) ∨
      ∃ l' s, l = l' ++ [s] ∧ found + l'.sum < count ∧ count ≤ found + l.sum) := by
  induction l generalizing found with
  | nil =>
    simp only [CharacterSet.Reach, List.sum_nil, Nat.add_zero]
    constructor
    · rintro ⟨h1, rfl⟩; exact ⟨rfl, .inl ⟨trivial, h1⟩⟩
    · rintro ⟨rfl, ⟨-, h⟩ | ⟨l', s, h, -⟩⟩
      · exact ⟨h, rfl⟩
      · simp at h
  | cons s l ih =>
    simp only [CharacterSet.Reach, List.sum_cons]
    rw [ih (fun s hs => hl s (by simp [hs]))]
    constructor
    · rintro ⟨h0, rfl, ⟨rfl, h⟩ | ⟨l', t, rfl, h1, h2⟩⟩
      · exact ⟨by simp, .inr ⟨[], s, rfl, by simpa using h0, by simpa using h⟩⟩
      · refine ⟨by omega, .inr ⟨s :: l', t, rfl, ?_, by omega⟩⟩
        rw [List.sum_cons]; omega
    · rintro ⟨rfl, ⟨h, -⟩ | ⟨l', t, h, h1, h2⟩⟩
      · simp at h
      · cases l' with
        | nil =>
          simp only [List.nil_append, List.cons.injEq] at h
          obtain ⟨rfl, rfl⟩ := h
          simp only [List.sum_nil] at h1 h2 ⊢
          exact ⟨by omega, by omega, .inl ⟨trivial, by omega⟩⟩
        | cons u l' =>
          simp only [List.cons_append, List.cons.injEq] at h
          obtain ⟨rfl, rfl⟩ := h
          rw [List.sum_cons] at h1
          exact ⟨by omega, by omega, .inr ⟨l', t, rfl, by omega, by omega⟩⟩

section
variable {R : Type} {read : Rd R} {w : Nat} {enc : R → List UInt8} {size : R → Nat} {loop : Nat → Nat → Nat → Rd (Nat × List R)}

theorem fails_ranges (hw : Wide read w) (hw0 : 0 < w) (he : Exact read (fun r bs => bs = enc r)) (hlen : ∀ r, (enc r).length = w)
    (h0 : ∀ fuel count found, ¬ found < count → loop fuel count found = pure (found, []))
    (h1 : ∀ fuel count found, found < count → loop (fuel + 1) count found =
      (read >>= fun r => loop fuel count (found + (1 + size r)) >>= fun x => pure (x.1, r :: x.2)))
    {env : Env} {f : Failure} (fuel count found : Nat) (hf : count - found ≤ fuel) (p : Nat) :
    Fails env (loop fuel count found) p f ↔ f = ends ∧ ∃ l : List R, Sits env.data p (l.flatMap enc) ∧
      found + (l.map fun r => 1 + size r).sum < count ∧ env.data.length < p + w * l.length + w := by
  induction fuel generalizing found p with
  | zero =>
    rw [h0 _ _ _ (by omega)]
    constructor
    · intro h; exact absurd h (Fails.pure _)
    · rintro ⟨-, l, -, h, -⟩; omega
  | succ fuel ih =>
    by_cases hc : found < count
    · rw [h1 _ _ _ hc, hw.fails_bind he]
      constructor
      · rintro (⟨rfl, h, -⟩ | ⟨r, _, rfl, hs, h⟩)
        · exact ⟨rfl, [], ⟨_, List.nil_append _⟩, by simpa using hc, by simpa using h⟩
        · rw [Fails.map, ih _ (by omega)] at h
          obtain ⟨rfl, l, h2, h3, h4⟩ := h
          refine ⟨rfl, r :: l, ?_, ?_, ?_⟩
          · rw [List.flatMap_cons, sits_app, hlen]; exact ⟨hs, h2⟩
          · rw [List.map_cons, List.sum_cons]; omega
          · rw [List.length_cons, Nat.mul_add]; omega
      · rintro ⟨rfl, l, h2, h3, h4⟩
        cases l with
        | nil => exact .inl ⟨rfl, by simpa using h4, hw0⟩
        | cons r l =>
          rw [List.flatMap_cons, sits_app, hlen] at h2
          rw [List.map_cons, List.sum_cons] at h3
          rw [List.length_cons, Nat.mul_add] at h4
          refine .inr ⟨r, _, rfl, h2.1, ?_⟩
          rw [Fails.map, ih _ (by omega)]
          exact ⟨rfl, l, h2.2, by omega, by omega⟩
    · rw [h0 _ _ _ hc]
      constructor
      · intro h; exact absurd h (Fails.pure _)
      · rintro ⟨-, l, -, h, -⟩; omega

theorem fails_ranged (hw : Wide read w) (hw0 : 0 < w) (he : Exact read (fun r bs => bs = enc r)) (hlen : ∀ r, (enc r).length = w)
    (h0 : ∀ fuel count found, ¬ found < count → loop fuel count found = pure (found, []))
    (h1 : ∀ fuel count found, found < count → loop (fuel + 1) count found =
      (read >>= fun r => loop fuel count (found + (1 + size r)) >>= fun x => pure (x.1, r :: x.2)))
    (h2 : ∀ fuel count found, count - found ≤ fuel → Exact (loop fuel count found) (fun x bs =>
      CharacterSet.Reach count found (x.2.map fun r => 1 + size r) x.1 ∧ bs = x.2.flatMap enc))
    {env : Env} {f : Failure} (count p : Nat) (k : List R → CharacterSet) :
    Fails env (loop count count 1 >>= fun x => if x.1 ≠ count then Rd.raise .malformedCharacterSet else pure (k x.2)) p f ↔
      (f = ends ∧ ∃ l : List R, Sits env.data p (l.flatMap enc) ∧
        1 + (l.map fun r => 1 + size r).sum < count ∧ env.data.length < p + w * l.length + w) ∨
      (f = complaint .malformedCharacterSet ∧ (count = 0 ∨ ∃ (l : List R) (r : R), Sits env.data p ((l ++ [r]).flatMap enc) ∧
        1 + (l.map fun r => 1 + size r).sum < count ∧ count < 1 + ((l ++ [r]).map fun r => 1 + size r).sum)) := by
  rw [Fails.bind, fails_ranges hw hw0 he hlen h0 h1 _ _ _ (by omega)]
  refine or_congr Iff.rfl ⟨?_, ?_⟩
  · rintro ⟨⟨n, l⟩, p', h, hf⟩
    obtain ⟨bs, ⟨hr, rfl⟩, hs, -⟩ := (h2 _ _ _ (by omega) _ _ _ _).mp h
    rw [reach_iff (by simp only [List.mem_map]; rintro _ ⟨_, _, rfl⟩; omega)] at hr
    simp only at hr hf
    obtain ⟨rfl, hr⟩ := hr
    by_cases hc : 1 + (l.map fun r => 1 + size r).sum ≠ count
    · rw [if_pos hc, Fails.raise] at hf
      refine ⟨hf, ?_⟩
      rcases hr with ⟨hr, hr'⟩ | ⟨l', s, hr, hr1, hr2⟩
      · rw [List.map_eq_nil_iff] at hr
        subst hr
        simp only [List.map_nil, List.sum_nil] at hc
        exact .inl (by omega)
      · obtain ⟨l1, l2, rfl, rfl, e2⟩ := List.map_eq_append_iff.mp hr
        obtain ⟨r, rfl, rfl⟩ := List.map_eq_singleton_iff.mp e2
        exact .inr ⟨l1, r, hs, hr1, by omega⟩
    · rw [if_neg hc] at hf
      exact absurd hf (Fails.pure _)
  · rintro ⟨rfl, h⟩
    have go : ∀ l : List R, Sits env.data p (l.flatMap enc) → 1 + (l.map fun r => 1 + size r).sum ≠ count →
        CharacterSet.Reach count 1 (l.map fun r => 1 + size r) (1 + (l.map fun r => 1 + size r).sum) →
        ∃ x p', loop count count 1 env p = (.ok x, p') ∧ Fails env (if x.1 ≠ count then Rd.raise .malformedCharacterSet
          else (pure (k x.2) : Rd CharacterSet)) p' (complaint .malformedCharacterSet) := by
      intro l hs hn hr
      refine ⟨(_, l), _, (h2 _ _ _ (by omega) _ _ _ _).mpr ⟨_, ⟨hr, rfl⟩, hs, rfl⟩, ?_⟩
      simp only
      rw [if_pos hn, Fails.raise]
    rcases h with rfl | ⟨l, r, hs, hl, hc⟩
    · exact go [] ⟨_, List.nil_append _⟩ (by simp) ⟨by omega, rfl⟩
    · refine go (l ++ [r]) hs (by omega) ?_
      rw [reach_iff (by simp only [List.mem_map]; rintro _ ⟨_, _, rfl⟩; omega)]
      exact ⟨rfl, .inr ⟨_, _, by rw [List.map_append]; rfl, hl, by omega⟩⟩

end

theorem Wide.range1 : Wide CharacterSet.readRange1 3 := Wide.bind Wide.u16 (fun _ => Wide.map Wide.u8)
theorem Wide.range2 : Wide CharacterSet.readRange2 4 := Wide.bind Wide.u16 (fun _ => Wide.map Wide.u16)

/-- The byte that gives the format, of the value already found. -/
theorem fails_format {env : Env} {p : Nat} {b : UInt8} {f : Failure} {g : UInt8 → Rd α} (hb : Sits env.data p [b]) :
    Fails env (Rd.u8 >>= g) p f ↔ Fails env (g b) (p + 1) f := by
  have hl := sits_bound hb (by simp)
  rw [Wide.u8.fails_bind exact_u8]
  constructor
  · rintro (⟨-, h, -⟩ | ⟨c, _, rfl, hc, h⟩)
    · simp at hl; omega
    · exact sits_byte hb hc ▸ h
  · intro h
    exact .inr ⟨b, _, rfl, hb, h⟩

theorem fails_customSet {env : Env} (hd : env.data.length < 2 ^ 61) (count : UInt16) {p : Nat} {f : Failure} :
    Fails env (CharacterSet.read count.toNat) p f ↔ CustomSetFault env.cfg env.data p count.toNat f := by
  have hc := count.toNat_lt
  generalize count.toNat = n at *
  have r0 : Sits env.data p [0] → (Fails env (CharacterSet.read0 n) p f ↔
      (f = .panic .overflow ∧ n = 0 ∧ env.cfg.checks = true) ∨
      (f = .panic .capacity ∧ n = 0 ∧ env.cfg.checks = false ∧ env.cfg.prealloc = true) ∨
      (f = ends ∧ n = 0 ∧ env.cfg.checks = false ∧ env.cfg.prealloc = false) ∨
      (f = ends ∧ 1 ≤ n ∧ env.data.length < p + 1 + 2 * (n - 1))) := by
    intro hb
    unfold CharacterSet.read0
    rw [fails_format hb]
    simp only [ne_eq, not_true_eq_false, if_false]
    rw [Fails.cfg_bind]
    by_cases hn : n = 0
    · subst hn
      rcases hk : env.cfg.checks with _ | _
      · simp only [Bool.false_eq_true, and_false, if_false, if_true]
        rw [Fails.map]
        unfold Rd.vec
        rw [Fails.cfg_bind]
        rcases hp : env.cfg.prealloc with _ | _
        · simp only [Bool.false_eq_true, false_and, if_false]
          rw [(Wide.replicate Wide.u16 _).fails]
          constructor
          · rintro ⟨h, -⟩; simp [h]
          · intro h
            refine ⟨?_, by omega, by omega⟩
            simpa using h
        · rw [if_pos (by simp), Fails.panic]
          simp
      · rw [if_pos (by simp), Fails.panic]
        simp
    · rw [if_neg (by simp [hn]), if_neg hn, Fails.map, (Wide.vec Wide.u16 2 (n - 1) (by omega)).fails]
      have hl := sits_bound hb (by simp)
      simp only [List.length_singleton] at hl
      constructor
      · rintro ⟨h, h1, -⟩; exact .inr (.inr (.inr ⟨h, by omega, by omega⟩))
      · rintro (⟨-, h, -⟩ | ⟨-, h, -⟩ | ⟨-, h, -⟩ | ⟨h, h1, h2⟩)
        · exact absurd h hn
        · exact absurd h hn
        · exact absurd h hn
        · exact ⟨h, by omega, by omega⟩
  have r1 : Sits env.data p [1] → (Fails env (CharacterSet.read1 n) p f ↔ ((f = ends ∧ ∃ l : List CharRange1, Sits env.data (p + 1) (l.flatMap fun r => be 2 r.firstStringID.toNat ++ [r.leftCount]) ∧
        1 + (l.map fun r => 1 + r.leftCount.toNat).sum < n ∧ env.data.length < p + 1 + 3 * l.length + 3) ∨
      (f = complaint .malformedCharacterSet ∧ (n = 0 ∨ ∃ (l : List CharRange1) (r : CharRange1),
        Sits env.data (p + 1) ((l ++ [r]).flatMap fun r => be 2 r.firstStringID.toNat ++ [r.leftCount]) ∧
        1 + (l.map fun r => 1 + r.leftCount.toNat).sum < n ∧ n < 1 + ((l ++ [r]).map fun r => 1 + r.leftCount.toNat).sum)))) := by
    intro hb
    unfold CharacterSet.read1
    rw [fails_format hb]
    simp only [ne_eq, not_true_eq_false, if_false]
    exact fails_ranged (size := fun r => r.leftCount.toNat) Wide.range1 (by omega) CharacterSet.exact_range1 (by simp [be_length])
      (fun fuel count found h => by unfold CharacterSet.readRanges1; rw [if_neg h])
      (fun fuel count found h => by conv_lhs => unfold CharacterSet.readRanges1
                                    rw [if_pos h])
      CharacterSet.exact_ranges1 n (p + 1) (CharacterSet.format1 1)
  have r2 : Sits env.data p [2] → (Fails env (CharacterSet.read2 n) p f ↔ ((f = ends ∧ ∃ l : List CharRange2, Sits env.data (p + 1) (l.flatMap fun r => be 2 r.firstStringID.toNat ++ be 2 r.leftCount.toNat) ∧
        1 + (l.map fun r => 1 + r.leftCount.toNat).sum < n ∧ env.data.length < p + 1 + 4 * l.length + 4) ∨
      (f = complaint .malformedCharacterSet ∧ (n = 0 ∨ ∃ (l : List CharRange2) (r : CharRange2),
        Sits env.data (p + 1) ((l ++ [r]).flatMap fun r => be 2 r.firstStringID.toNat ++ be 2 r.leftCount.toNat) ∧
        1 + (l.map fun r => 1 + r.leftCount.toNat).sum < n ∧ n < 1 + ((l ++ [r]).map fun r => 1 + r.leftCount.toNat).sum)))) := by
    intro hb
    unfold CharacterSet.read2
    rw [fails_format hb]
    simp only [ne_eq, not_true_eq_false, if_false]
    exact fails_ranged (size := fun r => r.leftCount.toNat) Wide.range2 (by omega) CharacterSet.exact_range2 (by simp [be_length])
      (fun fuel count found h => by unfold CharacterSet.readRanges2; rw [if_neg h])
      (fun fuel count found h => by conv_lhs => unfold CharacterSet.readRanges2
                                    rw [if_pos h])
      CharacterSet.exact_ranges2 n (p + 1) (CharacterSet.format2 2)
  unfold CharacterSet.read
  rw [fails_peek_bind]
  constructor
  · rintro (⟨rfl, h⟩ | ⟨b, hb, h⟩)
    · exact .nothing h
    by_cases h0 : b = 0
    · rw [if_pos h0] at h
      subst h0
      rcases (r0 hb).mp h with ⟨rfl, h1, h2⟩ | ⟨rfl, h1, h2, h3⟩ | ⟨rfl, h1, h2, h3⟩ | ⟨rfl, h1, h2⟩
      · exact .underflow hb h1 h2
      · exact .capacity hb h1 h2 h3
      · exact .endless hb h1 h2 h3
      · exact .glyphs hb h1 h2
    rw [if_neg h0] at h
    by_cases h1 : b = 1
    · rw [if_pos h1] at h
      subst h1
      rcases (r1 hb).mp h with ⟨rfl, l, hs, h2, h3⟩ | ⟨rfl, h2 | ⟨l, r, hs, h2, h3⟩⟩
      · exact .range1 (sits_cons.mpr ⟨hb, hs⟩) h2 h3
      · exact .none hb (.inl rfl) h2
      · exact .excess1 (sits_cons.mpr ⟨hb, hs⟩) h2 h3
    rw [if_neg h1] at h
    by_cases h2 : b = 2
    · rw [if_pos h2] at h
      subst h2
      rcases (r2 hb).mp h with ⟨rfl, l, hs, h2, h3⟩ | ⟨rfl, h2 | ⟨l, r, hs, h2, h3⟩⟩
      · exact .range2 (sits_cons.mpr ⟨hb, hs⟩) h2 h3
      · exact .none hb (.inr rfl) h2
      · exact .excess2 (sits_cons.mpr ⟨hb, hs⟩) h2 h3
    rw [if_neg h2, Fails.raise] at h
    subst h
    refine .format hb ?_
    have e0 : b.toNat ≠ 0 := fun h => h0 (UInt8.toNat_inj.mp h)
    have e1 : b.toNat ≠ 1 := fun h => h1 (UInt8.toNat_inj.mp h)
    have e2 : b.toNat ≠ 2 := fun h => h2 (UInt8.toNat_inj.mp h)
    omega
  · have d0 : Sits env.data p [0] → Fails env (CharacterSet.read0 n) p f → ∃ b, Sits env.data p [b] ∧ Fails env (if b = 0 then
        CharacterSet.read0 n else if b = 1 then CharacterSet.read1 n else if b = 2 then CharacterSet.read2 n
        else Rd.raise .unknownCharacterSetFormat) p f := fun hb h => ⟨0, hb, h⟩
    have d1 : Sits env.data p [1] → Fails env (CharacterSet.read1 n) p f → ∃ b, Sits env.data p [b] ∧ Fails env (if b = 0 then
        CharacterSet.read0 n else if b = 1 then CharacterSet.read1 n else if b = 2 then CharacterSet.read2 n
        else Rd.raise .unknownCharacterSetFormat) p f := fun hb h => ⟨1, hb, h⟩
    have d2 : Sits env.data p [2] → Fails env (CharacterSet.read2 n) p f → ∃ b, Sits env.data p [b] ∧ Fails env (if b = 0 then
        CharacterSet.read0 n else if b = 1 then CharacterSet.read1 n else if b = 2 then CharacterSet.read2 n
        else Rd.raise .unknownCharacterSetFormat) p f := fun hb h => ⟨2, hb, h⟩
    intro hf
    cases hf with
    | nothing h => exact .inl ⟨rfl, h⟩
    | @format b hb h =>
      refine .inr ⟨b, hb, ?_⟩
      rw [if_neg (by rintro rfl; simp at h), if_neg (by rintro rfl; simp at h), if_neg (by rintro rfl; simp at h), Fails.raise]
    | glyphs hb h1 h2 => exact .inr (d0 hb ((r0 hb).mpr (.inr (.inr (.inr ⟨rfl, h1, h2⟩)))))
    | underflow hb h1 h2 => exact .inr (d0 hb ((r0 hb).mpr (.inl ⟨rfl, h1, h2⟩)))
    | capacity hb h1 h2 h3 => exact .inr (d0 hb ((r0 hb).mpr (.inr (.inl ⟨rfl, h1, h2, h3⟩))))
    | endless hb h1 h2 h3 => exact .inr (d0 hb ((r0 hb).mpr (.inr (.inr (.inl ⟨rfl, h1, h2, h3⟩)))))
    | none hb h1 h2 =>
      rcases h1 with rfl | rfl
      · exact .inr (d1 hb ((r1 hb).mpr (.inr ⟨rfl, .inl h2⟩)))
      · exact .inr (d2 hb ((r2 hb).mpr (.inr ⟨rfl, .inl h2⟩)))
    | range1 hs h1 h2 =>
      have hs := sits_cons.mp hs
      exact .inr (d1 hs.1 ((r1 hs.1).mpr (.inl ⟨rfl, _, hs.2, h1, h2⟩)))
    | excess1 hs h1 h2 =>
      have hs := sits_cons.mp hs
      exact .inr (d1 hs.1 ((r1 hs.1).mpr (.inr ⟨rfl, .inr ⟨_, _, hs.2, h1, h2⟩⟩)))
    | range2 hs h1 h2 =>
      have hs := sits_cons.mp hs
      exact .inr (d2 hs.1 ((r2 hs.1).mpr (.inl ⟨rfl, _, hs.2, h1, h2⟩)))
    | excess2 hs h1 h2 =>
      have hs := sits_cons.mp hs
      exact .inr (d2 hs.1 ((r2 hs.1).mpr (.inr ⟨rfl, .inr ⟨_, _, hs.2, h1, h2⟩⟩)))

/-! ## Encodings -/

theorem Wide.encRange1 : Wide Encoding.readRange1 2 := Wide.bind Wide.u8 (fun _ => Wide.map Wide.u8)
theorem Wide.supplement : Wide Encoding.readSupplement 3 := Wide.bind Wide.u8 (fun _ => Wide.map Wide.u16)

/-- Entries preceded by their number. -/
theorem fails_counted {env : Env} {p w v : Nat} {f : Failure} {A B : Type} {read : Rd A} (hw : Wide read w) (hv : v ≤ 256)
    (k : UInt8 → List A → B) :
    Fails env (Rd.u8 >>= fun n => Rd.vec v n.toNat read >>= fun l => pure (k n l)) p f ↔
      f = ends ∧ (env.data.length < p + 1 ∨ ∃ n, Sits env.data p [n] ∧ env.data.length < p + 1 + n.toNat * w) := by
  rw [Wide.u8.fails_bind exact_u8]
  have hn : ∀ n : UInt8, Fails env (Rd.vec v n.toNat read >>= fun l => pure (k n l)) (p + 1) f ↔
      f = ends ∧ env.data.length < p + 1 + n.toNat * w ∧ 0 < n.toNat * w := by
    intro n
    have h1 := n.toNat_lt
    have h2 : n.toNat * v ≤ 256 * 256 := Nat.mul_le_mul (by omega) hv
    rw [Fails.map, (Wide.vec hw v n.toNat (by omega)).fails]
  simp only [hn]
  constructor
  · rintro (⟨h1, h2, -⟩ | ⟨n, _, rfl, hs, h1, h2, -⟩)
    · exact ⟨h1, .inl h2⟩
    · exact ⟨h1, .inr ⟨n, hs, h2⟩⟩
  · rintro ⟨h1, h2 | ⟨n, hs, h2⟩⟩
    · exact .inl ⟨h1, h2, by omega⟩
    · have hl := sits_bound hs (by simp)
      simp only [List.length_singleton] at hl
      exact .inr ⟨n, _, rfl, hs, h1, h2, by omega⟩

theorem fails_customEncoding {env : Env} {p : Nat} {f : Failure} :
    Fails env Encoding.read p f ↔ CustomEncodingFault env.data p f := by
  have r0 : Sits env.data p [0] → (Fails env Encoding.read0 p f ↔ (f = ends ∧ (env.data.length < p + 1 + 1 ∨
      ∃ n, Sits env.data (p + 1) [n] ∧ env.data.length < p + 1 + 1 + n.toNat * 1))) := by
    intro hb
    unfold Encoding.read0
    rw [fails_format hb]
    simp only [ne_eq, not_true_eq_false, if_false]
    exact fails_counted Wide.u8 (by omega) (Encoding.format0 0)
  have r1 : Sits env.data p [1] → (Fails env Encoding.read1 p f ↔ (f = ends ∧ (env.data.length < p + 1 + 1 ∨
      ∃ n, Sits env.data (p + 1) [n] ∧ env.data.length < p + 1 + 1 + n.toNat * 2))) := by
    intro hb
    unfold Encoding.read1
    rw [fails_format hb]
    simp only [ne_eq, not_true_eq_false, if_false]
    exact fails_counted Wide.encRange1 (by omega) (Encoding.format1 1)
  have rs : ∀ b, Sits env.data p [b] → (Fails env Encoding.readSupplemental p f ↔ (f = ends ∧ (env.data.length < p + 1 + 1 ∨
      ∃ n, Sits env.data (p + 1) [n] ∧ env.data.length < p + 1 + 1 + n.toNat * 3))) := by
    intro b hb
    unfold Encoding.readSupplemental
    rw [fails_format hb]
    exact fails_counted Wide.supplement (by omega) (Encoding.supplemental b)
  have all : ∀ b, Sits env.data p [b] → (Fails env (if b = 0 then Encoding.read0 else if b = 1 then Encoding.read1
      else if b &&& 0x80 > 0 then Encoding.readSupplemental else Rd.raise .unknownEncodingFormat) p f ↔
      (f = complaint .unknownEncodingFormat ∧ 1 < b.toNat ∧ b.toNat < 128) ∨
      (f = ends ∧ (b.toNat ≤ 1 ∨ 128 ≤ b.toNat) ∧ (env.data.length < p + 1 + 1 ∨
        ∃ n, Sits env.data (p + 1) [n] ∧ env.data.length < p + 1 + 1 + n.toNat * entryWidth b))) := by
    intro b hb
    unfold entryWidth
    by_cases h0 : b = 0
    · subst h0
      simp only [if_true]
      rw [r0 hb]
      simp
    by_cases h1 : b = 1
    · subst h1
      rw [if_neg (by decide), if_pos rfl, if_neg (by decide), if_pos rfl, r1 hb]
      simp
    rw [if_neg h0, if_neg h1, if_neg h0, if_neg h1]
    have e0 : b.toNat ≠ 0 := fun h => h0 (UInt8.toNat_inj.mp h)
    have e1 : b.toNat ≠ 1 := fun h => h1 (UInt8.toNat_inj.mp h)
    by_cases h2 : b &&& 0x80 > 0
    · rw [if_pos h2, rs b hb]
      have h2 := (Encoding.highBit b).mp h2
      constructor
      · rintro ⟨h3, h4⟩; exact .inr ⟨h3, .inr h2, h4⟩
      · rintro (⟨-, -, h⟩ | ⟨h3, -, h4⟩)
        · omega
        · exact ⟨h3, h4⟩
    · rw [if_neg h2, Fails.raise]
      rw [Encoding.highBit] at h2
      constructor
      · intro h; exact .inl ⟨h, by omega, by omega⟩
      · rintro (⟨h, -⟩ | ⟨-, h, -⟩)
        · exact h
        · omega
  unfold Encoding.read
  rw [fails_peek_bind]
  constructor
  · rintro (⟨rfl, h⟩ | ⟨b, hb, h⟩)
    · exact .nothing h
    rcases (all b hb).mp h with ⟨rfl, h1, h2⟩ | ⟨rfl, h1, h2 | ⟨n, h2, h3⟩⟩
    · exact .format hb h1 h2
    · exact .number hb h1 h2
    · exact .entries (sits_cons.mpr ⟨hb, h2⟩) h1 h3
  · intro hf
    cases hf with
    | nothing h => exact .inl ⟨rfl, h⟩
    | format hb h1 h2 => exact .inr ⟨_, hb, (all _ hb).mpr (.inl ⟨rfl, h1, h2⟩)⟩
    | number hb h1 h2 => exact .inr ⟨_, hb, (all _ hb).mpr (.inr ⟨rfl, h1, .inl h2⟩)⟩
    | entries hs h1 h2 =>
      have hs := sits_cons.mp hs
      exact .inr ⟨_, hs.1, (all _ hs.1).mpr (.inr ⟨rfl, h1, .inr ⟨_, hs.2, h2⟩⟩)⟩

/-! ## Fonts -/

theorem fails_setAt {env : Env} (hd : env.data.length < 2 ^ 61) (base : Nat) (count : UInt16) (o : Int) (p : Nat) (f : Failure) :
    Fails env (if o = 0 then pure CharacterSet.isoAdobe
      else if o = 1 then pure CharacterSet.expert
      else if o = 2 then pure CharacterSet.expertSubset
      else do
        jumpTo base o
        CharacterSet.read count.toNat : Rd CharacterSet) p f ↔
      o ∉ [0, 1, 2] ∧ (AddressFault env.cfg base o f ∨ ∃ q, (machine env.cfg base).addr o q ∧
        CustomSetFault env.cfg env.data q count.toNat f) := by
  by_cases h0 : o = 0
  · simp only [h0, if_true, Fails.pure, List.mem_cons, true_or, not_true_eq_false, false_and]
  by_cases h1 : o = 1
  · simp only [h1, if_true, Fails.pure, List.mem_cons, true_or, or_true, not_true_eq_false, false_and, one_ne_zero, if_false]
  by_cases h2 : o = 2
  · subst h2
    rw [if_neg h0, if_neg h1, if_pos rfl]
    simp [Fails.pure]
  rw [if_neg h0, if_neg h1, if_neg h2, fails_jumpTo_bind]
  simp only [fails_customSet hd]
  simp [h0, h1, h2]

theorem fails_encodingAt {env : Env} (base : Nat) (o : Int) (p : Nat) (f : Failure) :
    Fails env (if o = 0 then pure Encoding.standard
      else if o = 1 then pure Encoding.expert
      else do
        jumpTo base o
        Encoding.read : Rd Encoding) p f ↔
      o ∉ [0, 1] ∧ (AddressFault env.cfg base o f ∨ ∃ q, (machine env.cfg base).addr o q ∧ CustomEncodingFault env.data q f) := by
  by_cases h0 : o = 0
  · subst h0
    rw [if_pos rfl]
    simp [Fails.pure]
  by_cases h1 : o = 1
  · subst h1
    rw [if_neg h0, if_pos rfl]
    simp [Fails.pure]
  rw [if_neg h0, if_neg h1, fails_jumpTo_bind]
  simp only [fails_customEncoding]
  simp [h0, h1]

theorem fails_entry {env : Env} (hd : env.data.length < 2 ^ 61) {base : Nat} {top : Operations} (ht : Small top) :
    ∀ p f, Fails env (FontEntry.read base top) p f ↔ FontFault env.cfg env.data base top f := by
  intro p f
  unfold FontEntry.read
  rw [fails_getI_bind (by simp [Sought])]
  -- the record
  have record : ∀ (cs : Index) (s : CharacterSet) (e : Encoding) q, Fails env (Record.read base top cs >>= fun r =>
      pure (FontEntry.mk cs s e r)) q f ↔ RecordFault env.cfg env.data base top cs.count.toNat f := by
    intro cs s e q
    rw [Fails.map, fails_record hd ht]
  -- the encoding
  have encoding : ∀ (cs : Index) (s : CharacterSet) q, Fails env (do
      let offset ← Rd.ofRes (getI top .opEncoding)
      let e ← (if offset = 0 then pure Encoding.standard
        else if offset = 1 then pure Encoding.expert
        else do
          jumpTo base offset
          Encoding.read : Rd Encoding)
      let r ← Record.read base top cs
      pure (FontEntry.mk cs s e r)) q f ↔ EncodingFault env.cfg env.data base top f ∨
        ∃ e, EncodingAt (machine env.cfg base) env.data top e ∧ RecordFault env.cfg env.data base top cs.count.toNat f := by
    intro cs s q
    rw [fails_getI_bind (by simp [Sought])]
    constructor
    · rintro (h | ⟨o, ho, h⟩)
      · exact .inl (.offset h)
      · rw [Fails.bind, fails_encodingAt] at h
        rcases h with ⟨h1, h | ⟨q, hq, h⟩⟩ | ⟨e, q', he, h⟩
        · exact .inl (.reach ho h1 h)
        · exact .inl (.custom ho h1 hq h)
        · exact .inr ⟨e, ⟨o, ho, (any_encoding env base o q e).mp ⟨q', he⟩⟩, (record cs s e q').mp h⟩
    · rintro (h | ⟨e, ⟨o, ho, he⟩, h⟩)
      · cases h with
        | offset h => exact .inl h
        | @reach o _ ho h1 h => exact .inr ⟨o, ho, Fails.bind.mpr (.inl ((fails_encodingAt base o q f).mpr ⟨h1, .inl h⟩))⟩
        | @custom o _ _ ho h1 hq h =>
          exact .inr ⟨o, ho, Fails.bind.mpr (.inl ((fails_encodingAt base o q f).mpr ⟨h1, .inr ⟨_, hq, h⟩⟩))⟩
      · obtain ⟨q', h1⟩ := (any_encoding env base o q e).mpr he
        exact .inr ⟨o, ho, Fails.bind.mpr (.inr ⟨e, q', h1, (record cs s e q').mpr h⟩)⟩
  -- the character set
  have set : ∀ (cs : Index) q, Fails env (do
      let offset ← Rd.ofRes (getI top .opCharSet)
      let s ← (if offset = 0 then pure CharacterSet.isoAdobe
        else if offset = 1 then pure CharacterSet.expert
        else if offset = 2 then pure CharacterSet.expertSubset
        else do
          jumpTo base offset
          CharacterSet.read cs.count.toNat : Rd CharacterSet)
      let offset ← Rd.ofRes (getI top .opEncoding)
      let e ← (if offset = 0 then pure Encoding.standard
        else if offset = 1 then pure Encoding.expert
        else do
          jumpTo base offset
          Encoding.read : Rd Encoding)
      let r ← Record.read base top cs
      pure (FontEntry.mk cs s e r)) q f ↔ SetFault env.cfg env.data base top cs.count.toNat f ∨
        ∃ s, CharacterSetAt (machine env.cfg base) env.data top cs.count.toNat s ∧ (EncodingFault env.cfg env.data base top f ∨
        ∃ e, EncodingAt (machine env.cfg base) env.data top e ∧ RecordFault env.cfg env.data base top cs.count.toNat f) := by
    intro cs q
    rw [fails_getI_bind (by simp [Sought])]
    constructor
    · rintro (h | ⟨o, ho, h⟩)
      · exact .inl (.offset h)
      · rw [Fails.bind, fails_setAt hd] at h
        rcases h with ⟨h1, h | ⟨q, hq, h⟩⟩ | ⟨s, q', hs, h⟩
        · exact .inl (.reach ho h1 h)
        · exact .inl (.custom ho h1 hq h)
        · exact .inr ⟨s, ⟨o, ho, (any_characterSet env hd base cs.count o q s).mp ⟨q', hs⟩⟩, (encoding cs s q').mp h⟩
    · rintro (h | ⟨s, ⟨o, ho, hs⟩, h⟩)
      · cases h with
        | offset h => exact .inl h
        | @reach o _ ho h1 h => exact .inr ⟨o, ho, Fails.bind.mpr (.inl ((fails_setAt hd base cs.count o q f).mpr ⟨h1, .inl h⟩))⟩
        | @custom o _ _ ho h1 hq h =>
          exact .inr ⟨o, ho, Fails.bind.mpr (.inl ((fails_setAt hd base cs.count o q f).mpr ⟨h1, .inr ⟨_, hq, h⟩⟩))⟩
      · obtain ⟨q', h1⟩ := (any_characterSet env hd base cs.count o q s).mpr hs
        exact .inr ⟨o, ho, Fails.bind.mpr (.inr ⟨s, q', h1, (encoding cs s q').mpr h⟩)⟩
  -- what follows the character strings, in terms of their number
  have rest : ∀ (cs : Index), CharacterStringsAt (machine env.cfg base) env.data top cs →
      ((SetFault env.cfg env.data base top cs.count.toNat f ∨
        ∃ s, CharacterSetAt (machine env.cfg base) env.data top cs.count.toNat s ∧ (EncodingFault env.cfg env.data base top f ∨
        ∃ e, EncodingAt (machine env.cfg base) env.data top e ∧ RecordFault env.cfg env.data base top cs.count.toNat f)) →
      FontFault env.cfg env.data base top f) := by
    intro cs hcs
    obtain ⟨o, q, h1, h2, h3, h4⟩ := hcs
    rw [indexAt_count h4]
    have hcs : CharacterStringsAt (machine env.cfg base) env.data top cs := ⟨o, q, h1, h2, h3, h4⟩
    rintro (h | ⟨s, hs, h | ⟨e, he, h⟩⟩)
    · exact .set hcs h
    · exact .encoding hcs hs h
    · exact .record hcs hs he h
  constructor
  · rintro (h | ⟨o, ho, h⟩)
    · exact .strings (.offset h)
    rw [fails_jumpTo_bind] at h
    rcases h with h | ⟨q, hq, h⟩
    · exact .strings (.reach ho h)
    rw [fails_getI_bind (by simp [Sought])] at h
    rcases h with h | ⟨t, ht', h⟩
    · exact .strings (.type ho hq h)
    unfold readCharacterStrings at h
    by_cases h2 : t = 2
    · subst h2
      rw [if_pos rfl, Fails.bind, fails_index] at h
      rcases h with h | ⟨cs, q', hcs, h⟩
      · exact .strings (.index ho hq ht' h)
      · exact rest cs ⟨o, q, ho, hq, ht', (index_at env q cs).mp ⟨q', hcs⟩⟩ ((set cs q').mp h)
    · rw [if_neg h2, Fails.bind, Fails.raise] at h
      rcases h with rfl | ⟨_, _, h, _⟩
      · exact .strings (.unknown ho hq ht' h2)
      · simp [Rd.raise] at h
  · intro hf
    have hf' : StringsFault env.cfg env.data base top f ∨ ∃ cs, CharacterStringsAt (machine env.cfg base) env.data top cs ∧
        (SetFault env.cfg env.data base top cs.data.length f ∨
        ∃ s, CharacterSetAt (machine env.cfg base) env.data top cs.data.length s ∧ (EncodingFault env.cfg env.data base top f ∨
        ∃ e, EncodingAt (machine env.cfg base) env.data top e ∧ RecordFault env.cfg env.data base top cs.data.length f)) := by
      cases hf with
      | strings h => exact .inl h
      | set hcs h => exact .inr ⟨_, hcs, .inl h⟩
      | encoding hcs hs h => exact .inr ⟨_, hcs, .inr ⟨_, hs, .inl h⟩⟩
      | record hcs hs he h => exact .inr ⟨_, hcs, .inr ⟨_, hs, .inr ⟨_, he, h⟩⟩⟩
    rcases hf' with h | ⟨cs, ⟨o, q, h1, h2, h3, h4⟩, h⟩
    · cases h with
      | offset h => exact .inl h
      | reach ho h => exact .inr ⟨_, ho, fails_jumpTo_bind.mpr (.inl h)⟩
      | type ho hq h =>
        exact .inr ⟨_, ho, fails_jumpTo_bind.mpr (.inr ⟨_, hq, (fails_getI_bind (by simp [Sought])).mpr (.inl h)⟩)⟩
      | unknown ho hq ht' h =>
        refine .inr ⟨_, ho, fails_jumpTo_bind.mpr (.inr ⟨_, hq, (fails_getI_bind (by simp [Sought])).mpr (.inr ⟨_, ht',
          Fails.bind.mpr (.inl ?_)⟩)⟩)⟩
        unfold readCharacterStrings
        rw [if_neg h, Fails.raise]
      | index ho hq ht' h =>
        refine .inr ⟨_, ho, fails_jumpTo_bind.mpr (.inr ⟨_, hq, (fails_getI_bind (by simp [Sought])).mpr (.inr ⟨_, ht',
          Fails.bind.mpr (.inl ?_)⟩)⟩)⟩
        unfold readCharacterStrings
        rw [if_pos rfl, fails_index]
        exact h
    · rw [← indexAt_count h4] at h
      obtain ⟨q', h5⟩ := (index_at env q cs).mpr h4
      refine Or.inr ⟨o, h1, fails_jumpTo_bind.mpr (.inr ⟨q, h2, (fails_getI_bind (by simp [Sought])).mpr (.inr ⟨2, h3,
        Fails.bind.mpr (.inr ⟨cs, q', ?_, (set cs q').mpr h⟩)⟩)⟩)⟩
      unfold readCharacterStrings
      rw [if_pos rfl]
      exact h5

theorem fails_entries {env : Env} (hd : env.data.length < 2 ^ 61) {base : Nat} {tops : List Operations}
    (ht : ∀ o ∈ tops, Small o) : ∀ p f, Fails env (readEntries base tops) p f ↔ ∃ before top after,
      tops = before ++ top :: after ∧ (∀ x ∈ before, ∃ e : FontEntry, FontAt (machine env.cfg base) env.data x
        e.characterStrings e.characterSet e.encoding e.record) ∧ FontFault env.cfg env.data base top f :=
  fails_list (read := FontEntry.read base) (readAll := readEntries base) rfl (fun _ _ => rfl) tops
    (fun o ho => any_entry env hd base o (ht o ho)) (fun o ho => fails_entry hd (ht o ho))

/-! ## Font sets -/

theorem Wide.header : Wide Header.read 4 :=
  Wide.bind Wide.u8 (fun _ => Wide.bind Wide.u8 (fun _ => Wide.bind Wide.u8 (fun _ => Wide.map Wide.u8)))

theorem fails_index_bind {env : Env} {p : Nat} {f : Failure} {g : Index → Rd α} :
    Fails env (Index.read >>= g) p f ↔ IndexFault env.data p f ∨ ∃ ix q, IndexFromTo env.data p ix q ∧ Fails env (g ix) q f := by
  rw [Fails.bind, fails_index]
  refine or_congr Iff.rfl (exists_congr fun ix => exists_congr fun q => and_congr_left fun _ => ?_)
  exact exact_indexBytes env p ix q

/-- **The main lemma.**  Reading a font set fails exactly as the first defect says. -/
theorem fails_fontSet {env : Env} (hd : env.data.length < 2 ^ 61) {base : Nat} {f : Failure} :
    Fails env FontSet.read base f ↔ FontSetFault env.cfg env.data base f := by
  unfold FontSet.read
  rw [Fails.cfg_bind, show ∀ g : Nat → Rd FontSet, Fails env (Rd.position >>= g) base f ↔ Fails env (g base) base f from
    fun _ => Iff.rfl, Wide.header.fails_bind exact_header]
  simp only [fails_jumpTo_bind, fails_index_bind, Fails.ofRes_bind, fails_toOperations, toOperations_ok, Fails.map]
  have small : ∀ {ix : Index} {ops : List Operations}, List.Forall₂ DictOf ix.data ops → ∀ o ∈ ops, Small o := by
    intro ix ops h o ho
    obtain ⟨_, _, h⟩ := forall₂_right_mem h ho
    exact dictOf_small h
  constructor
  · rintro (⟨rfl, h, -⟩ | ⟨hd', _, rfl, h0, h⟩)
    · exact .header h
    rcases h with h | ⟨p, hp, h | ⟨names, q, hn, h | ⟨dicts, r, hdi, h | ⟨tops, ht, h | ⟨strings, s, hst, h | ⟨subrs, t, hsu, h⟩⟩⟩⟩⟩⟩
    · exact .reach h0 h
    · exact .names ⟨_, h0, hp⟩ h
    · exact .dictionaries ⟨_, h0, hp⟩ hn h
    · exact .operations ⟨_, h0, hp⟩ hn hdi h
    · exact .strings ⟨_, h0, hp⟩ hn hdi ht h
    · exact .subroutines ⟨_, h0, hp⟩ hn hdi ht hst h
    · obtain ⟨before, top, after, rfl, h1, h2⟩ := (fails_entries hd (small ht) t f).mp h
      exact .font ⟨_, h0, hp⟩ hn hdi ht hst hsu (fun x hx => by
        obtain ⟨e, he⟩ := h1 x hx
        exact ⟨_, _, _, _, he⟩) h2
  · intro hf
    cases hf with
    | header h => exact .inl ⟨rfl, h, by omega⟩
    | reach h0 h => exact .inr ⟨_, _, rfl, h0, .inl h⟩
    | names hb h =>
      obtain ⟨_, h0, hp⟩ := hb
      exact .inr ⟨_, _, rfl, h0, .inr ⟨_, hp, .inl h⟩⟩
    | dictionaries hb hn h =>
      obtain ⟨_, h0, hp⟩ := hb
      exact .inr ⟨_, _, rfl, h0, .inr ⟨_, hp, .inr ⟨_, _, hn, .inl h⟩⟩⟩
    | operations hb hn hdi h =>
      obtain ⟨_, h0, hp⟩ := hb
      exact .inr ⟨_, _, rfl, h0, .inr ⟨_, hp, .inr ⟨_, _, hn, .inr ⟨_, _, hdi, .inl h⟩⟩⟩⟩
    | strings hb hn hdi ht h =>
      obtain ⟨_, h0, hp⟩ := hb
      exact .inr ⟨_, _, rfl, h0, .inr ⟨_, hp, .inr ⟨_, _, hn, .inr ⟨_, _, hdi, .inr ⟨_, ht, .inl h⟩⟩⟩⟩⟩
    | subroutines hb hn hdi ht hst h =>
      obtain ⟨_, h0, hp⟩ := hb
      exact .inr ⟨_, _, rfl, h0, .inr ⟨_, hp, .inr ⟨_, _, hn, .inr ⟨_, _, hdi, .inr ⟨_, ht, .inr ⟨_, _, hst, .inl h⟩⟩⟩⟩⟩⟩
    | font hb hn hdi ht hst hsu h1 h2 =>
      obtain ⟨_, h0, hp⟩ := hb
      refine .inr ⟨_, _, rfl, h0, .inr ⟨_, hp, .inr ⟨_, _, hn, .inr ⟨_, _, hdi, .inr ⟨_, ht, .inr ⟨_, _, hst, .inr ⟨_, _, hsu, ?_⟩⟩⟩⟩⟩⟩⟩
      refine (fails_entries hd (small ht) _ f).mpr ⟨_, _, _, rfl, fun x hx => ?_, h2⟩
      obtain ⟨cs, s, e, r, h⟩ := h1 x hx
      exact ⟨⟨cs, s, e, r⟩, h⟩

end PS
