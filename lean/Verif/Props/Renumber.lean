import Verif.Lemmas.Renumber
import Verif.Props.Flat
import Verif.Props.Type2Numbers
/-!
# Property C82: subroutines can be given other numbers
-/
namespace PS.Type2
open PS.Spec hiding Operand Operation
open PS.Type2.Spec

variable {G L : Renumbering} {m : Nat}

theorem paired_run {cfg : Config} {s : Program} {x : List Observation} {out : Outcome} (hr : Run cfg s x out) :
    ∀ {G L : Renumbering} {s' : Program} {w : Option F32}, out = .ended w → Consistent G L m → Sound s → Sound s' →
      Paired G L m (view s) (view s') → (∀ o ∈ x, Mask o.1.1 → (o.2.2 + 7) / 8 = m) → Run cfg s' x out := by
  induction hr with
  | @ended s t hn =>
    intro G L s' w ho hcon hs hs' h hm
    obtain ⟨h1, _⟩ := next_ends hs hn
    obtain ⟨τ', h2, h3⟩ := paired_ends hcon h h1
    obtain ⟨t', h4, h5, _⟩ := ends_next hs' h2
    rw [show t.width = t'.width by rw [show t'.width = τ'.width from congrArg State.width h5, h3.width]; rfl]
    exact .ended h4
  | failed => rintro G L s' w ⟨⟩
  | @more s o t l out hn _ ih =>
    intro G L s' w ho hcon hs hs' h hm
    obtain ⟨h1, ht⟩ := next_yields hs hn
    obtain ⟨τ', h2, h3⟩ := paired_yields hcon h h1 (hm _ List.mem_cons_self)
    obtain ⟨t', h4, h5, h6⟩ := yields_next hs' h2
    rw [show t.width = t'.width by rw [show t'.width = τ'.width from congrArg State.width h5, h3.width]; rfl,
      show t.stems = t'.stems by rw [show t'.stems = τ'.stems from congrArg State.stems h5, h3.stems]; rfl]
    exact .more h4 (ih ho hcon ht h6 (h5 ▸ h3) fun o h => hm o (List.mem_cons_of_mem _ h))

theorem paired_new {code code' : List UInt8} (h : Renumbered G L m code code') :
    Paired G L m (view (Program.new code G.before L.before)) (view (Program.new code' G.after L.after)) :=
  ⟨by simpa [view, left, Program.new, Routine.new] using h, .nil, ⟨rfl, rfl⟩, ⟨rfl, rfl⟩, rfl, rfl, rfl⟩

/-- **C82.**  Subroutines can be given other numbers.  Two programs that differ in the
numbers of the subroutines called, in the order of the subroutines, and in subroutines
that are not called, run to their ends with the same operations, widths and stem hints.
All the masks shown are as long as they are taken to be in the comparison of the two. -/
theorem C82_renumbered {cfg : Config} {G L : Renumbering} {m : Nat} {code code' : List UInt8}
    (hs : Sound (Program.new code G.before L.before)) (hs' : Sound (Program.new code' G.after L.after))
    (hcon : Consistent G L m) (h : Renumbered G L m code code') {x : List Observation}
    (hm : ∀ o ∈ x, Mask o.1.1 → (o.2.2 + 7) / 8 = m) (w : Option F32) :
    Run cfg (Program.new code G.before L.before) x (.ended w) ↔ Run cfg (Program.new code' G.after L.after) x (.ended w) :=
  ⟨fun hr => paired_run hr rfl hcon hs hs' (paired_new h) hm,
    fun hr => paired_run hr rfl (consistent_undo hcon) hs' hs (paired_undo (paired_new h)) hm⟩

/-! ## Failures -/

/-- Both are at a mask if one is. -/
theorem paired_at_mask {σ σ' υ' : State} (h : Paired G L m σ σ') (hp : Pushes σ' υ') {op : Operator}
    (hop : Mask op) {rest : List UInt8} (hc : υ'.code = bytes op ++ rest) :
    ∃ υ rest, Pushes σ υ ∧ υ.code = bytes op ++ rest ∧ υ.stack = υ'.stack ∧ υ.stems = υ'.stems := by
  have hu := paired_undo h
  obtain ⟨xs, rfl, hs⟩ := paired_pushes hu hp hc
  cases hs with
  | operator k => exact absurd hop k
  | mask _ _ p1 _ p3 _ => exact ⟨_, _, pushed p1 p3, rfl, by dsimp only; rw [h.stack], h.stems.symm⟩
  | callLocal e => subst e; simp [Mask] at hop
  | callGlobal e => subst e; simp [Mask] at hop

theorem emit_mask {υ τ : State} {o : Operation} (h : Emit υ o τ) (ho : Mask o.1) :
    τ.stems = υ.stems + υ.stack.length / 2 := by
  cases h with
  | path k => dsimp only [Mask] at ho; simp only [List.mem_cons, List.not_mem_nil, or_false] at ho; rcases ho with rfl | rfl <;> simp [Path] at k
  | stem => rfl
  | mask => rfl

theorem masks_turns {c : Bool} {σ τ : State} (h : Masks c σ m) (ht : Turns c σ τ) : Masks c τ m := by
  intro l τ' υ op rest he
  refine h l τ' υ op rest ?_
  cases he with
  | nil h' => exact .nil (ht.trans h')
  | cons h1 h2 h3 h4 => exact .cons (ht.trans h1) h2 h3 h4

theorem masks_yields {c : Bool} {σ τ : State} {o : Operation} (h : Masks c σ m) (hy : Yields c σ o τ) :
    Masks c τ m ∧ (Mask o.1 → (τ.stems + 7) / 8 = m) := by
  obtain ⟨τ1, υ, h1, h2, h3⟩ := hy
  refine ⟨fun l τ' υ' op rest he => h _ τ' υ' op rest (.cons h1 h2 h3 he), fun ho => ?_⟩
  obtain ⟨rest, hc⟩ := emit_code h3
  rw [emit_mask h3 ho]
  exact h [] τ1 υ o.1 rest (.nil h1) h2 ho hc

/-- Masks are as long on the other side. -/
theorem masks_paired {c : Bool} (hcon : Consistent G L m) {σ σ' : State} (h : Paired G L m σ σ') (hm : Masks c σ m) :
    Masks c σ' m := by
  have key : ∀ {σ' l τ'}, Executes c σ' l τ' → ∀ {σ}, Paired G L m σ σ' → Masks c σ m →
      ∃ τ, Executes c σ l τ ∧ Paired G L m τ τ' := by
    intro σ' l τ' he
    induction he with
    | nil ht =>
      intro σ h _
      obtain ⟨τ, h1, h2⟩ := paired_turns (consistent_undo hcon) (paired_undo h) ht
      exact ⟨τ, .nil h1, paired_undo h2⟩
    | @cons σ' τ' υ' σ1 σ2 o l ht hp hem _ ih =>
      intro σ h hm
      obtain ⟨τ, h1, h2⟩ := paired_turns (consistent_undo hcon) (paired_undo h) ht
      obtain ⟨υ, τ1, h3, h4, h5⟩ := paired_emit h2 hp hem fun ho => by
        rw [emit_mask hem ho]
        obtain ⟨rest, hc⟩ := emit_code hem
        obtain ⟨υ, rest, k1, k2, k3, k4⟩ := paired_at_mask (paired_undo h2) hp ho hc
        rw [← k3, ← k4]
        exact hm [] τ υ _ rest (.nil h1) k1 ho k2
      obtain ⟨τ2, h6, h7⟩ := ih (paired_undo h5) (masks_yields hm ⟨τ, υ, h1, h3, h4⟩).1
      refine ⟨τ2, ?_, h7⟩
      have := Executes.cons h1 h3 h4 h6
      rwa [show τ1.width = σ1.width from h5.width, show τ1.stems = σ1.stems from h5.stems] at this
  intro l τ' υ' op rest he hp ho hc
  obtain ⟨τ, h1, h2⟩ := key he h hm
  obtain ⟨υ, rest, k1, k2, k3, k4⟩ := paired_at_mask h2 hp ho hc
  rw [← k3, ← k4]
  exact hm l τ υ op rest h1 k1 ho k2

theorem paired_run_any {cfg : Config} {s : Program} {x : List Observation} {out : Outcome} (hr : Run cfg s x out) :
    ∀ {G L : Renumbering} {s' : Program}, Consistent G L m → Sound s → Sound s' →
      Paired G L m (view s) (view s') → Masks cfg.checks (view s) m → Run cfg s' x out := by
  induction hr with
  | @ended s t hn =>
    intro G L s' hcon hs hs' h hm
    exact paired_run (.ended hn) rfl hcon hs hs' h (by simp)
  | @failed s r t hn hne =>
    intro G L s' hcon hs hs' h hm
    have h1 : ∃ s', (∃ e, Next cfg s (.err e) s') ∨ ∃ x, Next cfg s (.panic x) s' := by
      rcases r with o | e | x
      · exact absurd rfl (hne o)
      · exact ⟨t, .inl ⟨e, hn⟩⟩
      · exact ⟨t, .inr ⟨x, hn⟩⟩
    obtain ⟨τ, h2, h3, h4⟩ := (C54_failure_iff hs).mp h1
    obtain ⟨τ', h5, h6⟩ := paired_turns hcon h h2
    have hu := paired_undo h6
    have hm' := masks_paired hcon h6 (masks_turns hm h2)
    obtain ⟨t', ⟨e, h7⟩ | ⟨x, h7⟩⟩ := (C54_failure_iff hs').mpr ⟨τ', h5, fun e => h3 ((paired_empty h6).mpr e), by
      refine fun υ' hp => ⟨fun σ hq => ?_, fun o σ he => ?_, fun σ he => ?_⟩
      · obtain ⟨_, ⟨υ, k1, k2⟩, _⟩ := paired_turn (consistent_undo hcon) hu ⟨υ', hp, hq⟩
        exact (h4 υ k1).1 _ k2
      · obtain ⟨υ, _, k1, k2, _⟩ := paired_emit hu hp he (masks_yields hm' ⟨τ', υ', .refl, hp, he⟩).2
        exact (h4 υ k1).2.1 _ _ k2
      · obtain ⟨υ, _, k1, k2, _⟩ := paired_end hu hp he
        exact (h4 υ k1).2.2 _ k2⟩
    · exact .failed h7 (by simp)
    · exact .failed h7 (by simp)
  | @more s o t l out hn _ ih =>
    intro G L s' hcon hs hs' h hm
    obtain ⟨h1, ht⟩ := next_yields hs hn
    obtain ⟨hm1, hm2⟩ := masks_yields hm h1
    obtain ⟨τ', h2, h3⟩ := paired_yields hcon h h1 hm2
    obtain ⟨t', h4, h5, h6⟩ := yields_next hs' h2
    rw [show t.width = t'.width by rw [show t'.width = τ'.width from congrArg State.width h5, h3.width]; rfl,
      show t.stems = t'.stems by rw [show t'.stems = τ'.stems from congrArg State.stems h5, h3.stems]; rfl]
    exact .more h4 (ih hcon ht h6 (h5 ▸ h3) hm1)

/-- **C82.**  This is so for runs that fail too, if also a mask at which a program fails is
as long as it is taken to be. -/
theorem C82_failures {cfg : Config} {G L : Renumbering} {m : Nat} {code code' : List UInt8}
    (hs : Sound (Program.new code G.before L.before)) (hs' : Sound (Program.new code' G.after L.after))
    (hcon : Consistent G L m) (h : Renumbered G L m code code')
    (hm : Masks cfg.checks (view (Program.new code G.before L.before)) m) (x : List Observation) (out : Outcome) :
    Run cfg (Program.new code G.before L.before) x out ↔ Run cfg (Program.new code' G.after L.after) x out :=
  ⟨fun hr => paired_run_any hr hcon hs hs' (paired_new h) hm,
    fun hr => paired_run_any hr (consistent_undo hcon) hs' hs (paired_undo (paired_new h)) (masks_paired hcon (paired_new h) hm)⟩

/-- There are no masks where the bytes 19 and 20 do not occur. -/
def Maskless (σ : State) : Prop :=
  ∀ c ∈ σ.code :: (σ.callers ++ σ.global ++ σ.local), (19 : UInt8) ∉ c ∧ (20 : UInt8) ∉ c

theorem maskless_rest {σ : State} (h : Maskless σ) {a rest : List UInt8} (hc : σ.code = a ++ rest) :
    (19 : UInt8) ∉ rest ∧ (20 : UInt8) ∉ rest := by
  have := h σ.code (by simp)
  rw [hc] at this
  exact ⟨fun k => this.1 (List.mem_append_right _ k), fun k => this.2 (List.mem_append_right _ k)⟩

theorem maskless_pushes {σ τ : State} (h : Pushes σ τ) (hs : Maskless σ) : Maskless τ := by
  obtain ⟨xs, bs, _, hc, he⟩ := pushes_iff.mp h
  intro c hm
  rw [he] at hm
  rcases List.mem_cons.mp hm with rfl | hm
  · exact maskless_rest hs hc
  · exact hs c (List.mem_cons_of_mem _ hm)

theorem maskless_quiet {c : Bool} {σ τ : State} (h : Quiet c σ τ) (hs : Maskless σ) : Maskless τ := by
  cases h with
  | stack hc ho =>
    intro d hm
    rcases List.mem_cons.mp hm with rfl | hm
    · exact maskless_rest hs hc
    · exact hs d (List.mem_cons_of_mem _ hm)
  | callLocal hc hst _ _ hb =>
    intro d hm
    simp only [List.mem_cons, List.mem_append] at hm
    rcases hm with rfl | ((rfl | hm) | hm) | hm
    · exact hs _ (by simp [List.mem_of_getElem? hb])
    · exact maskless_rest hs hc
    all_goals exact hs _ (by simp [hm])
  | callGlobal hc hst _ _ hb =>
    intro d hm
    simp only [List.mem_cons, List.mem_append] at hm
    rcases hm with rfl | ((rfl | hm) | hm) | hm
    · exact hs _ (by simp [List.mem_of_getElem? hb])
    · exact maskless_rest hs hc
    all_goals exact hs _ (by simp [hm])
  | «return» hc hk =>
    intro d hm
    refine hs d ?_
    rw [hk]
    simp only [List.mem_cons, List.mem_append] at hm ⊢
    tauto

theorem maskless_turns {c : Bool} {σ τ : State} (h : Turns c σ τ) (hs : Maskless σ) : Maskless τ := by
  induction h with
  | refl => exact hs
  | tail _ h ih =>
    obtain ⟨υ, hp, hq⟩ := h
    exact maskless_quiet hq (maskless_pushes hp ih)

theorem maskless_emit {σ τ : State} {o : Operation} (h : Emit σ o τ) (hs : Maskless σ) : Maskless τ := by
  cases h with
  | path _ hc _ =>
    intro d hm
    rcases List.mem_cons.mp hm with rfl | hm
    · exact maskless_rest hs hc
    · exact hs d (List.mem_cons_of_mem _ hm)
  | stem _ hc _ =>
    intro d hm
    rcases List.mem_cons.mp hm with rfl | hm
    · exact maskless_rest hs hc
    · exact hs d (List.mem_cons_of_mem _ hm)
  | mask _ hc _ =>
    intro d hm
    rcases List.mem_cons.mp hm with rfl | hm
    · exact maskless_rest hs hc
    · exact hs d (List.mem_cons_of_mem _ hm)

theorem maskless_masks {c : Bool} {σ : State} (hs : Maskless σ) (m : Nat) : Masks c σ m := by
  have key : ∀ {σ l τ}, Executes c σ l τ → Maskless σ → Maskless τ := by
    intro σ l τ h
    induction h with
    | nil h => exact maskless_turns h
    | cons h1 h2 h3 _ ih => exact fun hs => ih (maskless_emit h3 (maskless_pushes h2 (maskless_turns h1 hs)))
  intro l τ υ op rest he hp ho hc
  have := maskless_pushes hp (key he hs) υ.code (by simp)
  rw [hc] at this
  simp only [Mask, List.mem_cons, List.not_mem_nil, or_false] at ho
  rcases ho with rfl | rfl <;> simp [bytes] at this

/-! ## New tables -/

/-- Each number of a table of at most 65536 subroutines can be written. -/
theorem number_exists {count j : Nat} (hc : count ≤ 65536) (hj : j < count) :
    ∃ b, CallNumber b count j ∧ b.length = 3 := by
  have hb : -32768 ≤ (j : Int) - callBias count ∧ (j : Int) - callBias count ≤ 32767 := by
    unfold callBias
    split
    · omega
    · split <;> omega
  generalize hn : (j : Int) - callBias count = n at hb
  obtain ⟨k, e, hw, hv⟩ := exists_wf false (k := n.natAbs) (j := 149) (by omega) (by omega) (by omega)
  refine ⟨_, ⟨F32.ofInt n, n, operand_iff.mpr (.inl ⟨_, .word _ hb.1 hb.2, rfl⟩),
    .inl ⟨⟨_, k, e, ofInt_exact hw hv, ?_⟩, by omega, by omega⟩, by omega⟩, by simp [beSigned_length]⟩
  simpa using signed_val (j := 0) (by omega) (i := n) hv

theorem within_renumbered {global «local» global' local' : List (List UInt8)} {m : Nat} {kg kl : List Nat} {code : List UInt8}
    (h : Within global «local» m kg kl code) (hg : kg.length ≤ 65536) (hl : kl.length ≤ 65536)
    (eg : global'.length = kg.length) (el : local'.length = kl.length) :
    ∃ code', Renumbered (keeping global global' kg) (keeping «local» local' kl) m code code' ∧ code'.length ≤ 3 * code.length := by
  have key : ∀ {a b}, Renumbered ⟨global, global, fun i j => i = j ∧ i ∈ kg⟩ ⟨«local», «local», fun i j => i = j ∧ i ∈ kl⟩ m a b →
      ∃ c, Renumbered (keeping global global' kg) (keeping «local» local' kl) m a c ∧ c.length ≤ 3 * a.length := by
    intro a b h
    induction h with
    | nil => exact ⟨_, .nil, le_refl _⟩
    | operand h1 h2 _ ih =>
      obtain ⟨c, ih, hle⟩ := ih
      exact ⟨_, .operand h1 h1 ih, by simp; omega⟩
    | operator h1 h2 h3 _ ih =>
      obtain ⟨c, ih, hle⟩ := ih
      exact ⟨_, .operator h1 h2 h3 ih, by simp; omega⟩
    | mask h1 h2 _ ih =>
      obtain ⟨c, ih, hle⟩ := ih
      exact ⟨_, .mask h1 h2 ih, by simp; omega⟩
    | callLocal h1 _ h3 _ ih =>
      obtain ⟨c, ih, hle⟩ := ih
      obtain ⟨x, n, ho, hn⟩ := id h1
      have hpos := List.length_pos_iff.mpr (operand_ne_nil ho)
      obtain ⟨j, hj, h4⟩ := List.getElem_of_mem h3.2
      obtain ⟨b', hb', h3l⟩ := number_exists hl hj
      exact ⟨_, .callLocal (L := keeping «local» local' kl) h1 (by rw [← el] at hb'; exact hb') (List.getElem?_eq_some_iff.mpr ⟨hj, h4⟩) ih, by simp [bytes]; omega⟩
    | callGlobal h1 _ h3 _ ih =>
      obtain ⟨c, ih, hle⟩ := ih
      obtain ⟨x, n, ho, hn⟩ := id h1
      have hpos := List.length_pos_iff.mpr (operand_ne_nil ho)
      obtain ⟨j, hj, h4⟩ := List.getElem_of_mem h3.2
      obtain ⟨b', hb', h3l⟩ := number_exists hg hj
      exact ⟨_, .callGlobal (G := keeping global global' kg) h1 (by rw [← eg] at hb'; exact hb') (List.getElem?_eq_some_iff.mpr ⟨hj, h4⟩) ih, by simp [bytes]; omega⟩
  exact key h

/-- **C82.**  Whatever subroutines are kept, and in whatever order, the code can be
renumbered, provided that the code and the subroutines kept call no others and do so by
numbers.  There are tables of exactly the subroutines kept, and these are read as
before.  The code becomes at most three times as long. -/
theorem C82_possible {m : Nat} {global «local» : List (List UInt8)} {kg kl : List Nat} {code : List UInt8}
    (hg : kg.length ≤ 65536) (hl : kl.length ≤ 65536) (hcode : Within global «local» m kg kl code)
    (hglobal : ∀ i ∈ kg, ∃ b, global[i]? = some b ∧ Within global «local» m kg kl b)
    (hlocal : ∀ i ∈ kl, ∃ b, «local»[i]? = some b ∧ Within global «local» m kg kl b) :
    ∃ code' global' local', global'.length = kg.length ∧ local'.length = kl.length ∧
      Consistent (keeping global global' kg) (keeping «local» local' kl) m ∧
      Renumbered (keeping global global' kg) (keeping «local» local' kl) m code code' ∧
      code'.length ≤ 3 * code.length ∧
      (∀ b' ∈ global', ∃ b ∈ global, b'.length ≤ 3 * b.length) ∧ ∀ b' ∈ local', ∃ b ∈ «local», b'.length ≤ 3 * b.length := by
  have key : ∀ {a c : List UInt8} {g g' l l' : List (List UInt8)}, g.length = g'.length → l.length = l'.length →
      Renumbered (keeping global g kg) (keeping «local» l kl) m a c →
      Renumbered (keeping global g' kg) (keeping «local» l' kl) m a c := by
    intro a c g g' l l' e1 e2 h
    induction h with
    | nil => exact .nil
    | operand h1 h2 _ ih => exact .operand h1 h2 ih
    | operator h1 h2 h3 _ ih => exact .operator h1 h2 h3 ih
    | mask h1 h2 _ ih => exact .mask h1 h2 ih
    | callLocal h1 h2 h3 _ ih =>
      refine .callLocal (L := keeping «local» l' kl) h1 ?_ h3 ih
      simp only [keeping] at h2 ⊢
      rwa [← e2]
    | callGlobal h1 h2 h3 _ ih =>
      refine .callGlobal (G := keeping global g' kg) h1 ?_ h3 ih
      simp only [keeping] at h2 ⊢
      rwa [← e1]
  have table : ∀ (subs : List (List UInt8)) (kept : List Nat), (∀ i ∈ kept, ∃ b, subs[i]? = some b ∧ Within global «local» m kg kl b) →
      ∃ subs' : List (List UInt8), subs'.length = kept.length ∧ (∀ b' ∈ subs', ∃ b ∈ subs, b'.length ≤ 3 * b.length) ∧ ∀ i j : Nat, kept[j]? = some i → ∃ b b', subs[i]? = some b ∧ subs'[j]? = some b' ∧
        Renumbered (keeping global (kg.map fun _ => []) kg) (keeping «local» (kl.map fun _ => []) kl) m b b' := by
    intro subs kept h
    induction kept with
    | nil => exact ⟨[], rfl, by simp, by simp⟩
    | cons k kept ih =>
      obtain ⟨subs', h1, hs, h2⟩ := ih fun i hi => h i (List.mem_cons_of_mem _ hi)
      obtain ⟨b, h3, h4⟩ := h k List.mem_cons_self
      obtain ⟨b', h5, h6⟩ := within_renumbered (global' := kg.map fun _ => []) (local' := kl.map fun _ => []) h4 hg hl (by simp) (by simp)
      refine ⟨b' :: subs', by simp [h1], ?_, fun i j hij => ?_⟩
      · intro c hc
        rcases List.mem_cons.mp hc with rfl | hc
        · exact ⟨b, List.mem_of_getElem? h3, h6⟩
        · exact hs c hc
      rcases j with _ | j
      · obtain rfl : k = i := by simpa using hij
        exact ⟨b, b', h3, rfl, h5⟩
      · exact h2 i j (by simpa using hij)
  obtain ⟨global', e1, l1, h1⟩ := table global kg hglobal
  obtain ⟨local', e2, l2, h2⟩ := table «local» kl hlocal
  obtain ⟨code', h3, l3⟩ := within_renumbered (global' := global') (local' := local') hcode hg hl e1 e2
  refine ⟨code', global', local', e1, e2, ?_, h3, l3, l1, l2⟩
  intro R hR i j hij
  simp only [List.mem_cons, List.not_mem_nil, or_false] at hR
  rcases hR with rfl | rfl
  · obtain ⟨b, b', k1, k2, k3⟩ := h1 i j hij
    exact ⟨b, b', k1, k2, key (by simp [e1]) (by simp [e2]) k3⟩
  · obtain ⟨b, b', k1, k2, k3⟩ := h2 i j hij
    exact ⟨b, b', k1, k2, key (by simp [e1]) (by simp [e2]) k3⟩

/-- **C82.**  Altogether: a program can be given just the subroutines it needs, in any order,
and runs as before. -/
theorem C82_subset {cfg : Config} {m : Nat} {global «local» : List (List UInt8)} {kg kl : List Nat} {code : List UInt8}
    (hg : kg.length ≤ 65536) (hl : kl.length ≤ 65536) (hcode : Within global «local» m kg kl code)
    (hglobal : ∀ i ∈ kg, ∃ b, global[i]? = some b ∧ Within global «local» m kg kl b)
    (hlocal : ∀ i ∈ kl, ∃ b, «local»[i]? = some b ∧ Within global «local» m kg kl b)
    (hsize : ∀ b ∈ code :: global ++ «local», b.length < 2 ^ 61)
    (hcount : global.length ≤ 2 ^ 31 ∧ «local».length ≤ 2 ^ 31) :
    ∃ code' global' local', global'.length = kg.length ∧ local'.length = kl.length ∧
      Consistent (keeping global global' kg) (keeping «local» local' kl) m ∧
      Renumbered (keeping global global' kg) (keeping «local» local' kl) m code code' ∧
      ∀ (x : List Observation) (w : Option F32), (∀ o ∈ x, Mask o.1.1 → (o.2.2 + 7) / 8 = m) →
        (Run cfg (Program.new code global «local») x (.ended w) ↔ Run cfg (Program.new code' global' local') x (.ended w)) := by
  obtain ⟨code', global', local', e1, e2, h1, h2, l1, l2, l3⟩ := C82_possible hg hl hcode hglobal hlocal
  refine ⟨code', global', local', e1, e2, h1, h2, fun x w hm => ?_⟩
  have hc := hsize code (by simp)
  refine C82_renumbered (G := keeping global global' kg) (L := keeping «local» local' kl) (sound_new (by omega) ?_ hcount)
    (sound_new (by omega) ?_ ⟨by simp only [keeping]; omega, by simp only [keeping]; omega⟩) h1 h2 hm w
  · intro b hb
    have := hsize b (by simp only [keeping, List.mem_append] at hb; simp; tauto)
    omega
  · intro b hb
    rcases List.mem_append.mp hb with hb | hb
    · obtain ⟨d, hd, hle⟩ := l2 b hb
      have := hsize d (by simp [hd])
      omega
    · obtain ⟨d, hd, hle⟩ := l3 b hb
      have := hsize d (by simp [hd])
      omega

/-! ## An example -/

/-- The subroutine 0, `hintmask 10 hmoveto return`, becomes 2, and 1, `15 hlineto return`, becomes
0; there is a new one between them. -/
def swapped : Renumbering :=
  ⟨[[19, 128, 149, 22, 11], [154, 6, 11]], [[154, 6, 11], [14], [19, 128, 149, 22, 11]],
    fun i j => (i, j) ∈ [(0, 2), (1, 0)]⟩

/-- There are no global subroutines. -/
def nothing : Renumbering := ⟨[], [], fun _ _ => False⟩

theorem swapped_zero : CallNumber [32] 2 0 ∧ CallNumber [34] 3 2 ∧ CallNumber [33] 2 1 ∧ CallNumber [32] 3 0 :=
  ⟨⟨_, -107, operand_byte 32 (by decide) (by decide), (intArg_iff (by decide +kernel)).mp (by decide +kernel), rfl⟩,
    ⟨_, -105, operand_byte 34 (by decide) (by decide), (intArg_iff (by decide +kernel)).mp (by decide +kernel), rfl⟩,
    ⟨_, -106, operand_byte 33 (by decide) (by decide), (intArg_iff (by decide +kernel)).mp (by decide +kernel), rfl⟩,
    ⟨_, -107, operand_byte 32 (by decide) (by decide), (intArg_iff (by decide +kernel)).mp (by decide +kernel), rfl⟩⟩

theorem swapped_consistent : Consistent nothing swapped 1 := by
  have h10 : Operand (F32.ofInt 10) [149] := operand_byte 149 (by decide) (by decide)
  have h15 : Operand (F32.ofInt 15) [154] := operand_byte 154 (by decide) (by decide)
  intro R hR i j hij
  simp only [List.mem_cons, List.not_mem_nil, or_false] at hR
  rcases hR with rfl | rfl
  · exact absurd hij id
  · simp only [swapped, List.mem_cons, List.not_mem_nil, or_false, Prod.mk.injEq] at hij
    rcases hij with ⟨rfl, rfl⟩ | ⟨rfl, rfl⟩
    · exact ⟨_, _, rfl, rfl, .mask (op := .opHintMask) (mask := [128]) (by decide) rfl (.operand h10 h10
        (.operator (op := .opHMoveTo) (by decide) (by decide) (by decide)
          (.operator (op := .opReturn) (by decide) (by decide) (by decide) .nil)))⟩
    · exact ⟨_, _, rfl, rfl, .operand h15 h15 (.operator (op := .opHLineTo) (by decide) (by decide) (by decide)
        (.operator (op := .opReturn) (by decide) (by decide) (by decide) .nil))⟩

/-- `1 2 hstemhm 0 callsubr 1 callsubr endchar` -/
theorem swapped_code : Renumbered nothing swapped 1 [140, 141, 18, 32, 10, 33, 10, 14] [140, 141, 18, 34, 10, 32, 10, 14] := by
  have h1 : Operand (F32.ofInt 1) [140] := operand_byte 140 (by decide) (by decide)
  have h2 : Operand (F32.ofInt 2) [141] := operand_byte 141 (by decide) (by decide)
  exact .operand h1 h1 (.operand h2 h2 (.operator (op := .opHStemHM) (by decide) (by decide) (by decide)
    (.callLocal (L := swapped) (i := 0) (j := 2) swapped_zero.1 swapped_zero.2.1 (by decide : (0, 2) ∈ [(0, 2), (1, 0)])
      (.callLocal (L := swapped) (i := 1) (j := 0) swapped_zero.2.2.1 swapped_zero.2.2.2 (by decide : (1, 0) ∈ [(0, 2), (1, 0)])
        (.operator (op := .opEndChar) (by decide) (by decide) (by decide) .nil)))))

/-- The program runs to its end, with a mask of one byte. -/
example : Run release (Program.new [140, 141, 18, 32, 10, 33, 10, 14] nothing.before swapped.before)
    [((.opHStemHM, [F32.ofInt 1, F32.ofInt 2]), none, 1), ((.opHintMask, []), none, 1), ((.opHMoveTo, [F32.ofInt 10]), none, 1),
      ((.opHLineTo, [F32.ofInt 15]), none, 1)] (.ended none) :=
  let s := Program.new [140, 141, 18, 32, 10, 33, 10, 14] nothing.before swapped.before
  run_cons (t := after release s) ⟨100, by decide +kernel⟩ (by decide +kernel)
    (run_cons (t := after release (after release s)) ⟨100, by decide +kernel⟩ (by decide +kernel)
      (run_cons (t := after release (after release (after release s))) ⟨100, by decide +kernel⟩ (by decide +kernel)
        (run_cons (t := after release (after release (after release (after release s)))) ⟨100, by decide +kernel⟩ (by decide +kernel)
          (run_nil (t := after release (after release (after release (after release (after release s))))) ⟨100, by decide +kernel⟩
            (by decide +kernel)))))

/-- So does the other. -/
example (cfg : Config) (x : List Observation) (hm : ∀ o ∈ x, Mask o.1.1 → (o.2.2 + 7) / 8 = 1) (w : Option F32) :
    Run cfg (Program.new [140, 141, 18, 32, 10, 33, 10, 14] [] [[19, 128, 149, 22, 11], [154, 6, 11]]) x (.ended w) ↔
      Run cfg (Program.new [140, 141, 18, 34, 10, 32, 10, 14] [] [[154, 6, 11], [14], [19, 128, 149, 22, 11]]) x (.ended w) :=
  C82_renumbered (G := nothing) (L := swapped) (sound_new (by decide) (by decide) (by decide))
    (sound_new (by decide) (by decide) (by decide)) swapped_consistent swapped_code hm w

/-- A program without masks that fails: `10 rmoveto`. -/
example (m : Nat) : Masks release.checks (view (Program.new [149, 21] nothing.before nothing.before)) m ∧
    Renumbered nothing nothing m [149, 21] [149, 21] ∧
    Run release (Program.new [149, 21] nothing.before nothing.before) [] .failed := by
  have h10 : Operand (F32.ofInt 10) [149] := operand_byte 149 (by decide) (by decide)
  refine ⟨maskless_masks (fun c hc => ?_) m, .operand h10 h10 (.operator (op := .opRMoveTo) (by decide) (by decide) (by decide) .nil),
    .failed (r := .err (.raised .malformedOperands)) (t := after release (Program.new [149, 21] [] [])) ⟨100, by decide +kernel⟩ (by simp)⟩
  obtain rfl : c = [149, 21] := by simpa [view, left, Program.new, Routine.new, nothing] using hc
  decide

/-- Of the three subroutines the first and the last are kept, the other way round. -/
example : Within [] [[149, 22, 11], [14], [154, 6, 11]] 0 [] [2, 0] [32, 10, 34, 10, 14] ∧
    ∀ i ∈ [2, 0], ∃ b, ([[149, 22, 11], [14], [154, 6, 11]] : List (List UInt8))[i]? = some b ∧
      Within [] [[149, 22, 11], [14], [154, 6, 11]] 0 [] [2, 0] b := by
  have h10 : Operand (F32.ofInt 10) [149] := operand_byte 149 (by decide) (by decide)
  have h15 : Operand (F32.ofInt 15) [154] := operand_byte 154 (by decide) (by decide)
  constructor
  · let S : List (List UInt8) := [[149, 22, 11], [14], [154, 6, 11]]
    let R : Renumbering := ⟨S, S, fun i j => i = j ∧ i ∈ [2, 0]⟩
    exact .callLocal (L := R) (i := 0) (j := 0) swapped_zero.2.2.2 swapped_zero.2.2.2 ⟨rfl, by decide⟩
      (.callLocal (L := R) (i := 2) (j := 2) swapped_zero.2.1 swapped_zero.2.1 ⟨rfl, by decide⟩
        (.operator (op := .opEndChar) (by decide) (by decide) (by decide) .nil))
  · intro i hi
    simp only [List.mem_cons, List.not_mem_nil, or_false] at hi
    rcases hi with rfl | rfl
    · exact ⟨_, rfl, .operand h15 h15 (.operator (op := .opHLineTo) (by decide) (by decide) (by decide)
        (.operator (op := .opReturn) (by decide) (by decide) (by decide) .nil))⟩
    · exact ⟨_, rfl, .operand h10 h10 (.operator (op := .opHMoveTo) (by decide) (by decide) (by decide)
        (.operator (op := .opReturn) (by decide) (by decide) (by decide) .nil))⟩

end PS.Type2
