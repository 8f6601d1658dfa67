import Verif.Lemmas.Outline
import Verif.Props.Renumber
import Verif.Props.Type2Halt
/-!
# Property C97: fragments of code can be put into subroutines
-/
namespace PS.Type2
open PS.Spec hiding Operand Operation
open PS.Type2.Spec

theorem outlined_run {cfg : Config} {s : Program} {x : List Observation} {out : Outcome} (hr : Run cfg s x out) :
    ∀ {G L : Outlining} {m : Nat} {s' : Program}, Coherent G L m → Sound s → Sound s' →
      Outline.Linked G L m (view s) (view s') → Masks cfg.checks (view s) m → Run cfg s' x out := by
  induction hr with
  | @ended s t hn =>
    intro G L m s' hcon hs hs' h hm
    obtain ⟨h1, _⟩ := next_ends hs hn
    obtain ⟨τ', h2, h3⟩ := Outline.linked_ends hcon h h1
    obtain ⟨t', h4, h5, _⟩ := ends_next hs' h2
    rw [show t.width = t'.width by rw [show t'.width = τ'.width from congrArg State.width h5, h3]; rfl]
    exact .ended h4
  | @failed s r t hn hne =>
    intro G L m s' hcon hs hs' h hm
    have h1 : ∃ s', (∃ e, Next cfg s (.err e) s') ∨ ∃ x, Next cfg s (.panic x) s' := by
      rcases r with o | e | x
      · exact absurd rfl (hne o)
      · exact ⟨t, .inl ⟨e, hn⟩⟩
      · exact ⟨t, .inr ⟨x, hn⟩⟩
    obtain ⟨τ, h2, h3, h4⟩ := (C54_failure_iff hs).mp h1
    obtain ⟨t', ⟨e, h7⟩ | ⟨x, h7⟩⟩ := (C54_failure_iff hs').mpr (Outline.linked_failure hcon h hm h2 h3 h4)
    · exact .failed h7 (by simp)
    · exact .failed h7 (by simp)
  | @more s o t l out hn _ ih =>
    intro G L m s' hcon hs hs' h hm
    obtain ⟨h1, ht⟩ := next_yields hs hn
    obtain ⟨hm1, hm2⟩ := masks_yields hm h1
    obtain ⟨τ', h2, h3⟩ := Outline.linked_yields hcon h h1 hm2
    obtain ⟨t', h4, h5, h6⟩ := yields_next hs' h2
    rw [show t.width = t'.width by rw [show t'.width = τ'.width from congrArg State.width h5, h3.same.width]; rfl,
      show t.stems = t'.stems by rw [show t'.stems = τ'.stems from congrArg State.stems h5, h3.same.stems]; rfl]
    exact .more h4 (ih hcon ht h6 (h5 ▸ h3) hm1)

/-- If the other side returns, so does this. -/
theorem outlined_returns {cfg : Config} {G L : Outlining} {m : Nat} {s s' : Program} (hcon : Coherent G L m) (hs : Sound s)
    (hs' : Sound s') (h : Outline.Linked G L m (view s) (view s')) (hn : ∃ r t, Next cfg s' r t) : ∃ r t, Next cfg s r t := by
  by_contra hd
  exact (C49_diverges_iff hs').mpr (Outline.linked_deep hcon h ((C49_diverges_iff hs).mp hd)) hn

theorem outlined_run_back {cfg : Config} {s' : Program} {x : List Observation} {out : Outcome} (hr : Run cfg s' x out) :
    ∀ {G L : Outlining} {m : Nat} {s : Program}, Coherent G L m → Sound s → Sound s' →
      Outline.Linked G L m (view s) (view s') → Masks cfg.checks (view s) m → Run cfg s x out := by
  have stop : ∀ {G L : Outlining} {m : Nat} {s s' t : Program} {r : Res (Option Operation)} {out}, Coherent G L m → Sound s → Sound s' →
      Outline.Linked G L m (view s) (view s') → Masks cfg.checks (view s) m → Next cfg s' r t → (∀ o, r ≠ .ok (some o)) → Run cfg s' [] out →
      Run cfg s [] out := by
    intro G L m s s' t r out hcon hs hs' h hm hn hne hr
    obtain ⟨r0, t0, h0⟩ := outlined_returns hcon hs hs' h ⟨r, t, hn⟩
    have h0' : ∃ x out, Run cfg s x out ∧ ∀ o, r0 = .ok (some o) → x = [] → False := by
      rcases r0 with (_ | o) | e | x
      · exact ⟨_, _, .ended h0, by simp⟩
      · exfalso
        obtain ⟨h1, ht⟩ := next_yields hs h0
        obtain ⟨τ', h2, h3⟩ := Outline.linked_yields hcon h h1 (masks_yields hm h1).2
        obtain ⟨t', h4, _⟩ := yields_next hs' h2
        exact hne o (next_unique hn h4).1
      · exact ⟨_, _, .failed h0 (by simp), by simp⟩
      · exact ⟨_, _, .failed h0 (by simp), by simp⟩
    obtain ⟨x0, out0, k1, -⟩ := h0'
    have k2 := outlined_run k1 hcon hs hs' h hm
    have : x0 = [] ∧ out0 = out := by
      cases k2 with
      | ended k2 =>
        cases hr with
        | ended k3 => exact ⟨rfl, by rw [(next_unique k2 k3).2]⟩
        | failed k3 k4 => exact absurd (next_unique k3 k2).1 (k4 _)
      | failed k2 k4 =>
        cases hr with
        | ended k3 => exact absurd (next_unique k2 k3).1 (k4 _)
        | failed k3 => exact ⟨rfl, rfl⟩
      | more k2 => exact absurd (next_unique hn k2).1 (hne _)
    obtain ⟨rfl, rfl⟩ := this
    exact k1
  induction hr with
  | @ended s' t hn =>
    intro G L m s hcon hs hs' h hm
    exact stop hcon hs hs' h hm hn (by simp) (.ended hn)
  | @failed s' r t hn hne =>
    intro G L m s hcon hs hs' h hm
    exact stop hcon hs hs' h hm hn (fun o => hne _) (.failed hn hne)
  | @more s' o t' l out hn _ ih =>
    intro G L m s hcon hs hs' h hm
    obtain ⟨r0, t0, h0⟩ := outlined_returns hcon hs hs' h ⟨_, _, hn⟩
    have hne : ∀ {y out}, Run cfg s [] y → out = y → False := by
      intro y out k1 _
      have k2 := outlined_run k1 hcon hs hs' h hm
      cases k2 with
      | ended k2 => have := (next_unique k2 hn).1; simp at this
      | failed k2 k4 => exact k4 _ (next_unique k2 hn).1
    rcases r0 with (_ | o0) | e | x
    · exact (hne (.ended h0) rfl).elim
    · obtain ⟨h1, ht⟩ := next_yields hs h0
      obtain ⟨hm1, hm2⟩ := masks_yields hm h1
      obtain ⟨τ', h2, h3⟩ := Outline.linked_yields hcon h h1 hm2
      obtain ⟨t1, h4, h5, h6⟩ := yields_next hs' h2
      obtain ⟨e1, rfl⟩ := next_unique hn h4
      obtain rfl : o = o0 := by simpa using e1
      have := Run.more h0 (ih hcon ht h6 (h5 ▸ h3) hm1)
      rwa [show t0.width = t'.width by rw [show t'.width = τ'.width from congrArg State.width h5, h3.same.width]; rfl,
        show t0.stems = t'.stems by rw [show t'.stems = τ'.stems from congrArg State.stems h5, h3.same.stems]; rfl] at this
    · exact (hne (.failed h0 (by simp)) rfl).elim
    · exact (hne (.failed h0 (by simp)) rfl).elim

/-- **C97.**  Fragments of code can be put into subroutines, and code of subroutines back in the
places of the calls.  Two programs that differ in this and in the numbers of subroutines show the
same operations, widths and stem hints, and end or fail alike.  All the masks to which the
program comes are as long as they are taken to be in the comparison of the two. -/
theorem C97_outlined {cfg : Config} {G L : Outlining} {m : Nat} {code code' : List UInt8}
    (hs : Sound (Program.new code G.before L.before)) (hs' : Sound (Program.new code' G.after L.after))
    (hcon : Coherent G L m) (h : Outlined G L m .routine code code')
    (hm : Masks cfg.checks (view (Program.new code G.before L.before)) m) (x : List Observation) (out : Outcome) :
    Run cfg (Program.new code G.before L.before) x out ↔ Run cfg (Program.new code' G.after L.after) x out :=
  ⟨fun hr => outlined_run hr hcon hs hs' (Outline.linked_new h) hm, fun hr => outlined_run_back hr hcon hs hs' (Outline.linked_new h) hm⟩

/-! ## A new subroutine -/

/-- All the subroutines stay what they are. -/
def staying (before after : List (List UInt8)) : Outlining := ⟨before, after, fun i j => i = j ∧ i < before.length, fun _ => False⟩

/-- Numbered code can be rewritten for tables of other sizes. -/
theorem numbered_outlined {m : Nat} {global «local» : List (List UInt8)} {g l : Nat} (hg : global.length ≤ g) (hl : «local».length ≤ l)
    (hg' : g ≤ 65536) (hl' : l ≤ 65536) {a : List UInt8} (h : Numbered global «local» m a) :
    ∃ a', a'.length ≤ 3 * a.length ∧ ∀ global' local', global'.length = g → local'.length = l →
      Renumbered (keep global global') (keep «local» local') m a a' ∧ ∀ b b',
      Outlined (staying global global') (staying «local» local') m .routine b b' →
      Outlined (staying global global') (staying «local» local') m .routine (a ++ b) (a' ++ b') := by
  have key : ∀ {a b}, Renumbered ⟨global, global, fun i j => i = j ∧ i ∈ List.range global.length⟩
      ⟨«local», «local», fun i j => i = j ∧ i ∈ List.range «local».length⟩ m a b →
      ∃ a', a'.length ≤ 3 * a.length ∧ ∀ global' local', global'.length = g → local'.length = l →
        Renumbered (keep global global') (keep «local» local') m a a' ∧ ∀ b b',
        Outlined (staying global global') (staying «local» local') m .routine b b' →
        Outlined (staying global global') (staying «local» local') m .routine (a ++ b) (a' ++ b') := by
    intro a b h
    induction h with
    | nil => exact ⟨[], by simp, fun _ _ _ _ => ⟨.nil, fun _ _ k => by simpa using k⟩⟩
    | @operand x b b' r r' h1 h2 _ ih =>
      obtain ⟨c, hle, ih⟩ := ih
      refine ⟨b ++ c, by simp; omega, fun _ _ e1 e2 => ⟨.operand h1 h1 (ih _ _ e1 e2).1, fun _ _ k => ?_⟩⟩
      rw [List.append_assoc, List.append_assoc]
      exact .operand h1 h1 ((ih _ _ e1 e2).2 _ _ k)
    | @operator op r r' h1 h2 h3 _ ih =>
      obtain ⟨c, hle, ih⟩ := ih
      refine ⟨bytes op ++ c, by simp; omega, fun _ _ e1 e2 => ⟨.operator h1 h2 h3 (ih _ _ e1 e2).1, fun _ _ k => ?_⟩⟩
      rw [List.append_assoc, List.append_assoc]
      by_cases o1 : op = .opReturn
      · subst o1
        exact .return (.inl rfl) ((ih _ _ e1 e2).2 _ _ k)
      · by_cases o2 : op = .opEndChar
        · subst o2
          exact .endchar (.inl rfl) ((ih _ _ e1 e2).2 _ _ k)
        · exact .operator h1 (by simp [*]) ((ih _ _ e1 e2).2 _ _ k)
    | @mask op mask r r' h1 h2 _ ih =>
      obtain ⟨c, hle, ih⟩ := ih
      refine ⟨bytes op ++ mask ++ c, by simp; omega, fun _ _ e1 e2 => ⟨.mask h1 h2 (ih _ _ e1 e2).1, fun _ _ k => ?_⟩⟩
      simp only [List.append_assoc]
      exact .mask h1 h2 ((ih _ _ e1 e2).2 _ _ k)
    | @callLocal b b' i j r r' h1 _ h3 _ ih =>
      obtain ⟨c, hle, ih⟩ := ih
      obtain ⟨x, n, ho, hn⟩ := id h1
      have hpos := List.length_pos_iff.mpr (operand_ne_nil ho)
      have hi : i < «local».length := List.mem_range.mp h3.2
      obtain ⟨d, hd, h3l⟩ := number_exists hl' (lt_of_lt_of_le hi hl)
      refine ⟨d ++ (bytes .opCallSubr ++ c), by simp [bytes]; omega, fun G' L' e1 e2 => ⟨?_, fun _ _ k => ?_⟩⟩
      · exact .callLocal (L := keep «local» L') h1 (by rw [← e2] at hd; exact hd) ⟨rfl, hi⟩ (ih _ _ e1 e2).1
      simp only [List.append_assoc]
      exact .call (R := staying «local» L') (i := i) (j := i) rfl h1 (by rw [← e2] at hd; exact hd) ⟨rfl, hi⟩ (.inr (.inl rfl)) ((ih _ _ e1 e2).2 _ _ k)
    | @callGlobal b b' i j r r' h1 _ h3 _ ih =>
      obtain ⟨c, hle, ih⟩ := ih
      obtain ⟨x, n, ho, hn⟩ := id h1
      have hpos := List.length_pos_iff.mpr (operand_ne_nil ho)
      have hi : i < global.length := List.mem_range.mp h3.2
      obtain ⟨d, hd, h3l⟩ := number_exists hg' (lt_of_lt_of_le hi hg)
      refine ⟨d ++ (bytes .opCallGSubr ++ c), by simp [bytes]; omega, fun G' L' e1 e2 => ⟨?_, fun _ _ k => ?_⟩⟩
      · exact .callGlobal (G := keep global G') h1 (by rw [← e1] at hd; exact hd) ⟨rfl, hi⟩ (ih _ _ e1 e2).1
      simp only [List.append_assoc]
      exact .call (R := staying global G') (i := i) (j := i) rfl h1 (by rw [← e1] at hd; exact hd) ⟨rfl, hi⟩ (.inr (.inl rfl)) ((ih _ _ e1 e2).2 _ _ k)
  exact key h

theorem plain_outlined {G L : Outlining} {m : Nat} {f : List UInt8} (h : Plain m f) : Outlined G L m .fragment f f := by
  induction h with
  | nil => exact .nil
  | operand h1 _ ih => exact .operand h1 h1 ih
  | operator h1 h2 _ ih => exact .operator h1 h2 ih
  | mask h1 h2 _ ih => exact .mask h1 h2 ih

theorem intercalate_cons {f s t : List UInt8} {ss : List (List UInt8)} :
    f.intercalate (s :: t :: ss) = s ++ (f ++ f.intercalate (t :: ss)) := by
  simp [List.intercalate]

theorem intercalate_last {f : List UInt8} : ∀ {ss : List (List UInt8)} {last : List UInt8}, last ≠ [] → f.intercalate (ss ++ [last]) ≠ [] := by
  intro ss last hl
  induction ss with
  | nil => simpa [List.intercalate] using hl
  | cons s ss ih =>
    cases ss with
    | nil => simp [List.intercalate, hl]
    | cons t ss =>
      rw [List.cons_append, List.cons_append, intercalate_cons]
      exact fun e => ih (List.append_eq_nil_iff.mp (List.append_eq_nil_iff.mp e).2).2

/-- The table in which the subroutines are rewritten. -/
theorem numbered_table {m : Nat} {global «local» : List (List UInt8)} {g l : Nat} (hg : global.length ≤ g) (hl : «local».length ≤ l)
    (hg' : g ≤ 65536) (hl' : l ≤ 65536) : ∀ {subs : List (List UInt8)}, (∀ b ∈ subs, Numbered global «local» m b) →
    ∃ subs' : List (List UInt8), subs'.length = subs.length ∧ (∀ b' ∈ subs', ∃ b ∈ subs, b'.length ≤ 3 * b.length) ∧
      ∀ (i : Nat) (b : List UInt8), subs[i]? = some b → ∃ b', subs'[i]? = some b' ∧ ∀ global' local', global'.length = g → local'.length = l →
        Renumbered (keep global global') (keep «local» local') m b b' ∧
        Outlined (staying global global') (staying «local» local') m .routine b b' := by
  intro subs
  induction subs with
  | nil => exact fun _ => ⟨[], rfl, by simp, by simp⟩
  | cons s subs ih =>
    intro h
    obtain ⟨subs', h1, h2, h3⟩ := ih fun b hb => h b (List.mem_cons_of_mem _ hb)
    obtain ⟨s', h4, h5⟩ := numbered_outlined hg hl hg' hl' (h s List.mem_cons_self)
    refine ⟨s' :: subs', by simp [h1], ?_, fun i b hb => ?_⟩
    · intro b' hb'
      rcases List.mem_cons.mp hb' with rfl | hb'
      · exact ⟨s, by simp, h4⟩
      · obtain ⟨b, k1, k2⟩ := h2 b' hb'
        exact ⟨b, by simp [k1], k2⟩
    · rcases i with _ | i
      · obtain rfl : s = b := by simpa using hb
        exact ⟨s', rfl, fun _ _ e1 e2 => ⟨(h5 _ _ e1 e2).1, by simpa using (h5 _ _ e1 e2).2 [] [] .nil⟩⟩
      · exact h3 i b (by simpa using hb)

/-- **C97.**  A fragment of plain code can be put into a new local subroutine, which is called
wherever the fragment occurs in any program.  `pieces` and `last` are what there is between and
after the occurrences in a program.  The subroutines there are keep their numbers, of which the
encodings may have to be changed; nothing else is different. -/
theorem C97_extracted {m : Nat} {global «local» : List (List UInt8)} {f : List UInt8}
    (hg : global.length ≤ 65536) (hl : «local».length < 65536) (hf : f ≠ []) (hplain : Plain m f)
    (hsubs : ∀ b ∈ global ++ «local», Numbered global «local» m b) (hsize : ∀ b ∈ f :: global ++ «local», b.length < 2 ^ 60) :
    ∃ call global' local', CallNumber call («local».length + 1) «local».length ∧
      Consistent (keep global global') (keep «local» local') m ∧
      global'.length = global.length ∧ local'.length = «local».length + 1 ∧ local'[«local».length]? = some (f ++ bytes .opReturn) ∧
      ∀ pieces last, last ≠ [] → (∀ c ∈ pieces ++ [last], Numbered global «local» m c) → (f.intercalate (pieces ++ [last])).length < 2 ^ 60 →
        ∃ pieces', List.Forall₂ (Renumbered (keep global global') (keep «local» local') m) (pieces ++ [last]) pieces' ∧
          ∀ cfg : Config, Masks cfg.checks (view (Program.new (f.intercalate (pieces ++ [last])) global «local»)) m → ∀ x out,
            (Run cfg (Program.new (f.intercalate (pieces ++ [last])) global «local») x out ↔
              Run cfg (Program.new ((call ++ bytes .opCallSubr).intercalate pieces') global' local') x out) := by
  obtain ⟨call, hc1, hc2⟩ := number_exists (count := «local».length + 1) (j := «local».length) (by omega) (by omega)
  obtain ⟨global', g1, g2, g3⟩ := numbered_table (global := global) («local» := «local») (g := global.length) (l := «local».length + 1) (m := m)
    (le_refl _) (by omega) hg (by omega) (subs := global) fun b hb => hsubs b (List.mem_append_left _ hb)
  obtain ⟨local', l1, l2, l3⟩ := numbered_table (global := global) («local» := «local») (g := global.length) (l := «local».length + 1) (m := m)
    (le_refl _) (by omega) hg (by omega) (subs := «local») fun b hb => hsubs b (List.mem_append_right _ hb)
  have hlen : (local' ++ [f ++ bytes .opReturn]).length = «local».length + 1 := by simp [l1]
  have hlook : (local' ++ [f ++ bytes .opReturn])[«local».length]? = some (f ++ bytes .opReturn) := by
    rw [← l1]
    simp
  have hcon : Coherent (staying global global') (staying «local» (local' ++ [f ++ bytes .opReturn])) m := by
    intro R hR i j hij
    simp only [List.mem_cons, List.not_mem_nil, or_false] at hR
    rcases hR with rfl | rfl
    · obtain ⟨rfl, hi⟩ := hij
      obtain ⟨b', k1, k2⟩ := g3 i _ (List.getElem?_eq_getElem hi)
      exact ⟨_, b', List.getElem?_eq_getElem hi, k1, (k2 _ _ g1 hlen).2, False.elim⟩
    · obtain ⟨rfl, hi⟩ := hij
      obtain ⟨b', k1, k2⟩ := l3 i _ (List.getElem?_eq_getElem hi)
      exact ⟨_, b', List.getElem?_eq_getElem hi, by
        simp only [staying]
        rw [List.getElem?_append_left (by rw [l1]; exact hi)]
        exact k1, (k2 _ _ g1 hlen).2, False.elim⟩
  have hren : Consistent (keep global global') (keep «local» (local' ++ [f ++ bytes .opReturn])) m := by
    intro R hR i j hij
    simp only [List.mem_cons, List.not_mem_nil, or_false] at hR
    rcases hR with rfl | rfl
    · obtain ⟨rfl, hi⟩ := hij
      obtain ⟨b', k1, k2⟩ := g3 i _ (List.getElem?_eq_getElem hi)
      exact ⟨_, b', List.getElem?_eq_getElem hi, k1, (k2 _ _ g1 hlen).1⟩
    · obtain ⟨rfl, hi⟩ := hij
      obtain ⟨b', k1, k2⟩ := l3 i _ (List.getElem?_eq_getElem hi)
      exact ⟨_, b', List.getElem?_eq_getElem hi, by
        simp only [keep]
        rw [List.getElem?_append_left (by rw [l1]; exact hi)]
        exact k1, (k2 _ _ g1 hlen).1⟩
  have hpieces : ∀ (last : List UInt8), last ≠ [] → ∀ ss : List (List UInt8), (∀ c ∈ ss ++ [last], Numbered global «local» m c) →
      ∃ pieces' : List (List UInt8), List.Forall₂ (Renumbered (keep global global') (keep «local» (local' ++ [f ++ bytes .opReturn])) m) (ss ++ [last]) pieces' ∧
        ((call ++ bytes .opCallSubr).intercalate pieces').length ≤ 4 * (f.intercalate (ss ++ [last])).length ∧
        Outlined (staying global global') (staying «local» (local' ++ [f ++ bytes .opReturn])) m .routine (f.intercalate (ss ++ [last]))
          ((call ++ bytes .opCallSubr).intercalate pieces') := by
    intro last hlast ss
    induction ss with
    | nil =>
      intro h
      obtain ⟨a', k1, k2⟩ := numbered_outlined (g := global.length) (l := «local».length + 1) (le_refl _) (by omega) hg (by omega) (h last (by simp))
      exact ⟨[a'], .cons (k2 _ _ g1 hlen).1 .nil, by simp [List.intercalate]; omega, by simpa [List.intercalate] using (k2 _ _ g1 hlen).2 [] [] .nil⟩
    | cons s ss ih =>
      intro h
      obtain ⟨pieces', k1, k2, k3⟩ := ih fun c hc => h c (by simp at hc ⊢; tauto)
      obtain ⟨s', k4, k5⟩ := numbered_outlined (g := global.length) (l := «local».length + 1) (le_refl _) (by omega) hg (by omega) (h s (by simp))
      obtain ⟨p, ps, rfl⟩ : ∃ p ps, pieces' = p :: ps := by
        cases pieces' with
        | nil => have := k1.length_eq; simp at this
        | cons p ps => exact ⟨p, ps, rfl⟩
      obtain ⟨t, ts, ht⟩ : ∃ t ts, ss ++ [last] = t :: ts := by
        cases ss with
        | nil => exact ⟨_, _, rfl⟩
        | cons p ps => exact ⟨_, _, rfl⟩
      have hne := intercalate_last (f := f) (ss := ss) hlast
      refine ⟨s' :: p :: ps, .cons (k5 _ _ g1 hlen).1 k1, ?_, ?_⟩
      · have := List.length_pos_iff.mpr hf
        rw [List.cons_append, ht, intercalate_cons, intercalate_cons, ← ht]
        simp only [List.length_append, hc2, bytes, List.length_cons, List.length_nil] at k2 ⊢
        omega
      · rw [List.cons_append, ht, intercalate_cons, intercalate_cons, ← ht]
        refine (k5 _ _ g1 hlen).2 _ _ ?_
        rw [List.append_assoc]
        exact .fragment (junk := []) (R := staying «local» (local' ++ [f ++ bytes .opReturn])) rfl (by simp only [staying]; rw [hlen]; exact hc1)
          (by simpa [staying] using hlook) hf (plain_outlined hplain) (.inr hne) k3
  refine ⟨call, global', _, hc1, hren, g1, hlen, hlook, fun pieces last hlast hcode hc => ?_⟩
  obtain ⟨pieces', p1, p2, p3⟩ := hpieces last hlast pieces hcode
  refine ⟨pieces', p1, fun cfg hm x out => ?_⟩
  refine C97_outlined (G := staying global global') (L := staying «local» (local' ++ [f ++ bytes .opReturn])) (sound_new ?_ ?_ ?_)
    (sound_new ?_ ?_ ?_) hcon p3 hm x out
  · omega
  · intro b hb
    have := hsize b (by simp only [staying, List.mem_append] at hb; simp; tauto)
    omega
  · simp only [staying]
    omega
  · omega
  · intro b hb
    simp only [staying, List.mem_append, List.mem_singleton] at hb
    rcases hb with hb | hb | rfl
    · obtain ⟨d, hd, hle⟩ := g2 b hb
      have := hsize d (by simp [hd])
      omega
    · obtain ⟨d, hd, hle⟩ := l2 b hb
      have := hsize d (by simp [hd])
      omega
    · have := hsize f (by simp)
      simp [bytes]
      omega
  · simp only [staying, hlen, g1]
    omega

/-- **C97.**  It can be put into a new global subroutine just as well. -/
theorem C97_extracted_global {m : Nat} {global «local» : List (List UInt8)} {f : List UInt8}
    (hg : global.length < 65536) (hl : «local».length ≤ 65536) (hf : f ≠ []) (hplain : Plain m f)
    (hsubs : ∀ b ∈ global ++ «local», Numbered global «local» m b) (hsize : ∀ b ∈ f :: global ++ «local», b.length < 2 ^ 60) :
    ∃ call global' local', CallNumber call (global.length + 1) global.length ∧
      Consistent (keep global global') (keep «local» local') m ∧
      global'.length = global.length + 1 ∧ local'.length = «local».length ∧ global'[global.length]? = some (f ++ bytes .opReturn) ∧
      ∀ pieces last, last ≠ [] → (∀ c ∈ pieces ++ [last], Numbered global «local» m c) → (f.intercalate (pieces ++ [last])).length < 2 ^ 60 →
        ∃ pieces', List.Forall₂ (Renumbered (keep global global') (keep «local» local') m) (pieces ++ [last]) pieces' ∧
          ∀ cfg : Config, Masks cfg.checks (view (Program.new (f.intercalate (pieces ++ [last])) global «local»)) m → ∀ x out,
            (Run cfg (Program.new (f.intercalate (pieces ++ [last])) global «local») x out ↔
              Run cfg (Program.new ((call ++ bytes .opCallGSubr).intercalate pieces') global' local') x out) := by
  obtain ⟨call, hc1, hc2⟩ := number_exists (count := global.length + 1) (j := global.length) (by omega) (by omega)
  obtain ⟨global', g1, g2, g3⟩ := numbered_table (global := global) («local» := «local») (g := global.length + 1) (l := «local».length) (m := m)
    (by omega) (le_refl _) (by omega) hl (subs := global) fun b hb => hsubs b (List.mem_append_left _ hb)
  obtain ⟨local', l1, l2, l3⟩ := numbered_table (global := global) («local» := «local») (g := global.length + 1) (l := «local».length) (m := m)
    (by omega) (le_refl _) (by omega) hl (subs := «local») fun b hb => hsubs b (List.mem_append_right _ hb)
  have hlen : (global' ++ [f ++ bytes .opReturn]).length = global.length + 1 := by simp [g1]
  have hlook : (global' ++ [f ++ bytes .opReturn])[global.length]? = some (f ++ bytes .opReturn) := by
    rw [← g1]
    simp
  have hcon : Coherent (staying global (global' ++ [f ++ bytes .opReturn])) (staying «local» local') m := by
    intro R hR i j hij
    simp only [List.mem_cons, List.not_mem_nil, or_false] at hR
    rcases hR with rfl | rfl
    · obtain ⟨rfl, hi⟩ := hij
      obtain ⟨b', k1, k2⟩ := g3 i _ (List.getElem?_eq_getElem hi)
      exact ⟨_, b', List.getElem?_eq_getElem hi, by
        simp only [staying]
        rw [List.getElem?_append_left (by rw [g1]; exact hi)]
        exact k1, (k2 _ _ hlen l1).2, False.elim⟩
    · obtain ⟨rfl, hi⟩ := hij
      obtain ⟨b', k1, k2⟩ := l3 i _ (List.getElem?_eq_getElem hi)
      exact ⟨_, b', List.getElem?_eq_getElem hi, k1, (k2 _ _ hlen l1).2, False.elim⟩
  have hren : Consistent (keep global (global' ++ [f ++ bytes .opReturn])) (keep «local» local') m := by
    intro R hR i j hij
    simp only [List.mem_cons, List.not_mem_nil, or_false] at hR
    rcases hR with rfl | rfl
    · obtain ⟨rfl, hi⟩ := hij
      obtain ⟨b', k1, k2⟩ := g3 i _ (List.getElem?_eq_getElem hi)
      exact ⟨_, b', List.getElem?_eq_getElem hi, by
        simp only [keep]
        rw [List.getElem?_append_left (by rw [g1]; exact hi)]
        exact k1, (k2 _ _ hlen l1).1⟩
    · obtain ⟨rfl, hi⟩ := hij
      obtain ⟨b', k1, k2⟩ := l3 i _ (List.getElem?_eq_getElem hi)
      exact ⟨_, b', List.getElem?_eq_getElem hi, k1, (k2 _ _ hlen l1).1⟩
  have hpieces : ∀ (last : List UInt8), last ≠ [] → ∀ ss : List (List UInt8), (∀ c ∈ ss ++ [last], Numbered global «local» m c) →
      ∃ pieces' : List (List UInt8), List.Forall₂ (Renumbered (keep global (global' ++ [f ++ bytes .opReturn])) (keep «local» local') m) (ss ++ [last]) pieces' ∧
        ((call ++ bytes .opCallGSubr).intercalate pieces').length ≤ 4 * (f.intercalate (ss ++ [last])).length ∧
        Outlined (staying global (global' ++ [f ++ bytes .opReturn])) (staying «local» local') m .routine (f.intercalate (ss ++ [last]))
          ((call ++ bytes .opCallGSubr).intercalate pieces') := by
    intro last hlast ss
    induction ss with
    | nil =>
      intro h
      obtain ⟨a', k1, k2⟩ := numbered_outlined (g := global.length + 1) (l := «local».length) (by omega) (le_refl _) (by omega) hl (h last (by simp))
      exact ⟨[a'], .cons (k2 _ _ hlen l1).1 .nil, by simp [List.intercalate]; omega, by simpa [List.intercalate] using (k2 _ _ hlen l1).2 [] [] .nil⟩
    | cons s ss ih =>
      intro h
      obtain ⟨pieces', k1, k2, k3⟩ := ih fun c hc => h c (by simp at hc ⊢; tauto)
      obtain ⟨s', k4, k5⟩ := numbered_outlined (g := global.length + 1) (l := «local».length) (by omega) (le_refl _) (by omega) hl (h s (by simp))
      obtain ⟨p, ps, rfl⟩ : ∃ p ps, pieces' = p :: ps := by
        cases pieces' with
        | nil => have := k1.length_eq; simp at this
        | cons p ps => exact ⟨p, ps, rfl⟩
      obtain ⟨t, ts, ht⟩ : ∃ t ts, ss ++ [last] = t :: ts := by
        cases ss with
        | nil => exact ⟨_, _, rfl⟩
        | cons p ps => exact ⟨_, _, rfl⟩
      have hne := intercalate_last (f := f) (ss := ss) hlast
      refine ⟨s' :: p :: ps, .cons (k5 _ _ hlen l1).1 k1, ?_, ?_⟩
      · have := List.length_pos_iff.mpr hf
        rw [List.cons_append, ht, intercalate_cons, intercalate_cons, ← ht]
        simp only [List.length_append, hc2, bytes, List.length_cons, List.length_nil] at k2 ⊢
        omega
      · rw [List.cons_append, ht, intercalate_cons, intercalate_cons, ← ht]
        refine (k5 _ _ hlen l1).2 _ _ ?_
        rw [List.append_assoc]
        exact .fragment (junk := []) (R := staying global (global' ++ [f ++ bytes .opReturn])) rfl (by simp only [staying]; rw [hlen]; exact hc1)
          (by simpa [staying] using hlook) hf (plain_outlined hplain) (.inr hne) k3
  refine ⟨call, _, local', hc1, hren, hlen, l1, hlook, fun pieces last hlast hcode hc => ?_⟩
  obtain ⟨pieces', p1, p2, p3⟩ := hpieces last hlast pieces hcode
  refine ⟨pieces', p1, fun cfg hm x out => ?_⟩
  refine C97_outlined (G := staying global (global' ++ [f ++ bytes .opReturn])) (L := staying «local» local') (sound_new ?_ ?_ ?_)
    (sound_new ?_ ?_ ?_) hcon p3 hm x out
  · omega
  · intro b hb
    have := hsize b (by simp only [staying, List.mem_append] at hb; simp; tauto)
    omega
  · simp only [staying]
    omega
  · omega
  · intro b hb
    simp only [staying, List.mem_append, List.mem_singleton] at hb
    rcases hb with (hb | rfl) | hb
    · obtain ⟨d, hd, hle⟩ := g2 b hb
      have := hsize d (by simp [hd])
      omega
    rotate_left
    · obtain ⟨d, hd, hle⟩ := l2 b hb
      have := hsize d (by simp [hd])
      omega
    · have := hsize f (by simp)
      simp [bytes]
      omega
  · simp only [staying, hlen, l1]
    omega

/-! ## Examples -/

/-- The subroutine there is, `0 hmoveto return`, stays and does not end the glyph.  The new ones are
`1 2 rmoveto 0 callsubr return` and `3 hmoveto endchar`. -/
def shared : Outlining :=
  ⟨[[139, 22, 11]], [[139, 22, 11], [140, 141, 21, 32, 10, 11], [142, 22, 14]], fun i j => i = 0 ∧ j = 0, fun i => i = 0⟩

/-- There are no global subroutines. -/
def unshared : Outlining := ⟨[], [], fun _ _ => False, fun _ => False⟩

theorem shared_coherent : Coherent unshared shared 0 := by
  have h139 : Operand (F32.ofInt 0) [139] := operand_byte 139 (by decide) (by decide)
  intro R hR i j hij
  simp only [List.mem_cons, List.not_mem_nil, or_false] at hR
  rcases hR with rfl | rfl
  · exact absurd hij id
  · obtain ⟨rfl, rfl⟩ := hij
    exact ⟨[139, 22, 11], [139, 22, 11], rfl, rfl, .operand h139 h139 (.operator (op := .opHMoveTo) (by decide) (by decide) (.return (.inl rfl) .nil)),
      fun _ => .operand h139 h139 (.operator (op := .opHMoveTo) (by decide) (by decide) (.return (.inr rfl) .nil))⟩

theorem shared_numbers : CallNumber [32] 1 0 ∧ CallNumber [32] 3 0 ∧ CallNumber [33] 3 1 ∧ CallNumber [34] 3 2 :=
  ⟨⟨_, -107, operand_byte 32 (by decide) (by decide), (intArg_iff (by decide +kernel)).mp (by decide +kernel), rfl⟩,
    ⟨_, -107, operand_byte 32 (by decide) (by decide), (intArg_iff (by decide +kernel)).mp (by decide +kernel), rfl⟩,
    ⟨_, -106, operand_byte 33 (by decide) (by decide), (intArg_iff (by decide +kernel)).mp (by decide +kernel), rfl⟩,
    ⟨_, -105, operand_byte 34 (by decide) (by decide), (intArg_iff (by decide +kernel)).mp (by decide +kernel), rfl⟩⟩

/-- `1 2 rmoveto 0 callsubr 3 hmoveto endchar` becomes `1 callsubr 2 callsubr`. -/
theorem shared_code : Outlined unshared shared 0 .routine [140, 141, 21, 32, 10, 142, 22, 14] [33, 10, 34, 10] := by
  have h1 : Operand (F32.ofInt 1) [140] := operand_byte 140 (by decide) (by decide)
  have h2 : Operand (F32.ofInt 2) [141] := operand_byte 141 (by decide) (by decide)
  have h3 : Operand (F32.ofInt 3) [142] := operand_byte 142 (by decide) (by decide)
  have z := shared_numbers
  exact .fragment (f := [140, 141, 21, 32, 10]) (f' := [140, 141, 21, 32, 10]) (junk := []) (b := [33]) (j := 1) (op := .opCallSubr) (R := shared)
    rfl z.2.2.1 rfl (by simp)
    (.operand h1 h1 (.operand h2 h2 (.operator (op := .opRMoveTo) (by decide) (by decide)
      (.call (b := [32]) (b' := [32]) (op := .opCallSubr) (R := shared) (i := 0) (j := 0) rfl z.1 z.2.1 ⟨rfl, rfl⟩ (.inl rfl) .nil))))
    (.inr (by simp))
    (.tail (b := [34]) (j := 2) (op := .opCallSubr) (R := shared) rfl z.2.2.2 rfl (by simp) (.inl rfl)
      (.operand h3 h3 (.operator (op := .opHMoveTo) (by decide) (by decide) (.endchar (.inr ⟨rfl, rfl⟩) .nil))))

theorem shared_masks (c : Bool) :
    Masks c (view (Program.new [140, 141, 21, 32, 10, 142, 22, 14] unshared.before shared.before)) 0 := by
  refine maskless_masks (fun d hd => ?_) 0
  have hd : d = [140, 141, 21, 32, 10, 142, 22, 14] ∨ d = [139, 22, 11] := by
    simpa [view, left, Program.new, Routine.new, unshared, shared] using hd
  rcases hd with rfl | rfl <;> decide

/-- The hypotheses of `C97_outlined` are met, and both programs show the same three operations. -/
example (x : List Observation) (out : Outcome) :
    Run release (Program.new [140, 141, 21, 32, 10, 142, 22, 14] [] [[139, 22, 11]]) x out ↔
      Run release (Program.new [33, 10, 34, 10] [] [[139, 22, 11], [140, 141, 21, 32, 10, 11], [142, 22, 14]]) x out :=
  C97_outlined (G := unshared) (L := shared) (sound_new (by decide) (by simp [unshared, shared]) (by decide))
    (sound_new (by decide) (by simp [unshared, shared]) (by decide)) shared_coherent shared_code (shared_masks _) x out

/-- They run to their ends. -/
example : Run release (Program.new [33, 10, 34, 10] [] [[139, 22, 11], [140, 141, 21, 32, 10, 11], [142, 22, 14]])
    [((.opRMoveTo, [F32.ofInt 1, F32.ofInt 2]), none, 0), ((.opHMoveTo, [F32.ofInt 0]), none, 0), ((.opHMoveTo, [F32.ofInt 3]), none, 0)]
    (.ended none) :=
  let s := Program.new [33, 10, 34, 10] [] [[139, 22, 11], [140, 141, 21, 32, 10, 11], [142, 22, 14]]
  run_cons (t := after release s) ⟨100, by decide +kernel⟩ (by decide +kernel)
    (run_cons (t := after release (after release s)) ⟨100, by decide +kernel⟩ (by decide +kernel)
      (run_cons (t := after release (after release (after release s))) ⟨100, by decide +kernel⟩ (by decide +kernel)
        (run_nil (t := after release (after release (after release (after release s)))) ⟨100, by decide +kernel⟩ (by decide +kernel))))

/-- The hypotheses of `C97_extracted` are met: `1 2 rmoveto` occurs twice in
`1 2 rmoveto 3 hmoveto 1 2 rmoveto endchar`. -/
example : ([140, 141, 21] : List UInt8).intercalate ([[], [142, 22]] ++ [[14]]) = [140, 141, 21, 142, 22, 140, 141, 21, 14] ∧
    Plain 0 [140, 141, 21] ∧ (∀ c ∈ [[], [142, 22]] ++ [[14]], Numbered [] [] 0 c) ∧
    (∀ b ∈ ([] : List (List UInt8)) ++ [], Numbered [] [] 0 b) ∧
    ∀ checks, Masks checks (view (Program.new (([140, 141, 21] : List UInt8).intercalate ([[], [142, 22]] ++ [[14]])) [] [])) 0 := by
  have h1 : Operand (F32.ofInt 1) [140] := operand_byte 140 (by decide) (by decide)
  have h2 : Operand (F32.ofInt 2) [141] := operand_byte 141 (by decide) (by decide)
  have h3 : Operand (F32.ofInt 3) [142] := operand_byte 142 (by decide) (by decide)
  refine ⟨rfl, .operand h1 (.operand h2 (.operator (op := .opRMoveTo) (by decide) (by decide) .nil)), ?_, by simp, fun checks => ?_⟩
  · intro c hc
    simp only [List.cons_append, List.nil_append, List.mem_cons, List.not_mem_nil, or_false] at hc
    rcases hc with rfl | rfl | rfl
    · exact .nil
    · exact .operand h3 h3 (.operator (op := .opHMoveTo) (by decide) (by decide) (by decide) .nil)
    · exact .operator (op := .opEndChar) (by decide) (by decide) (by decide) .nil
  · refine maskless_masks (fun c hc => ?_) 0
    obtain rfl : c = [140, 141, 21, 142, 22, 140, 141, 21, 14] := by
      simpa [view, left, Program.new, Routine.new, List.intercalate] using hc
    decide

end PS.Type2
