import Verif.Props.Agree
import Verif.Props.Defect
import Verif.Lemmas.FontSetPanic
import Verif.Spec.Seek
/-!
# Property C59: what cannot be sought
-/
namespace PS
open Spec

variable {cfg : Config} {data : List UInt8} {base : Nat}

theorem address_backwards (hp : base + 2 ^ 31 ≤ cfg.maxSeek) (hm : cfg.maxSeek < 2 ^ 64) {o : Int} (ho : o < 2 ^ 31)
    (h : AddressFault cfg base o (.error .seek)) : o < 0 := by
  cases h with
  | beyond h1 h2 => omega

theorem private_backwards (hp : base + 2 ^ 31 ≤ cfg.maxSeek) (hm : cfg.maxSeek < 2 ^ 64) {top : Operations} (ht : Small top)
    (h : PrivateFault cfg data base top (.error .seek)) : Backwards data top := by
  generalize hf : Failure.error Err.seek = f at h
  cases h with
  | missing => cases hf
  | malformed => cases hf
  | offset h1 h2 =>
    subst hf
    exact .privateOffset h1 (address_backwards hp hm (ht _ _ _ h1 (by simp)).2 h2)
  | negative => cases hf
  | endless => cases hf
  | cut => cases hf
  | dictionary _ _ _ _ h => subst hf; cases h
  | subroutines => cases hf
  | sum => cases hf
  | reach h1 h2 h3 h4 h5 h6 h7 h8 =>
    subst hf
    have h9 := address_backwards hp hm h7.2.2.1 h8
    refine .subroutines h1 h3 (infix_of_sits h4) h5 h6 ?_
    obtain ⟨⟨k, hk⟩, h10, -⟩ := h7
    omega
  | index _ _ _ _ _ _ _ _ h => subst hf; cases h

theorem record_backwards (hp : base + 2 ^ 31 ≤ cfg.maxSeek) (hm : cfg.maxSeek < 2 ^ 64) {chunk : List UInt8} {top : Operations} {glyphs : Nat}
    (hc : chunk <:+: data) (hd : DictOf chunk top) (h : RecordFault cfg data base top glyphs (.error .seek)) :
    ∃ chunk top, chunk <:+: data ∧ DictOf chunk top ∧ Backwards data top := by
  have ht := dictOf_small hd
  have small : ∀ {op o}, IntOf top op o → o < 2 ^ 31 := fun h => (intOf_int32 ht h).2
  cases h with
  | names _ h => exact ⟨chunk, top, hc, hd, private_backwards hp hm ht h⟩
  | identifiers _ h =>
    generalize hf : Failure.error Err.seek = f at h
    cases h with
    | operands => cases hf
    | select _ h => subst hf; cases h
    | reachSelect _ h1 h2 => subst hf; exact ⟨chunk, top, hc, hd, .table (by decide) h1 (address_backwards hp hm (small h1) h2)⟩
    | readSelect _ _ _ h => subst hf; cases h
    | array _ _ h => subst hf; cases h
    | reachArray _ _ h1 h2 => subst hf; exact ⟨chunk, top, hc, hd, .table (by decide) h1 (address_backwards hp hm (small h1) h2)⟩
    | readArray _ _ _ _ h => subst hf; cases h
    | dictionaries _ _ _ h => subst hf; obtain ⟨_, _, _, _, _, h⟩ := h; cases h
    | records _ _ h1 h2 _ h3 =>
      subst hf
      obtain ⟨o, p, -, -, hix⟩ := h1
      obtain ⟨x, hx, hxo⟩ := forall₂_right_mem h2 (List.mem_append_right _ List.mem_cons_self)
      exact ⟨x, _, index_infix hix hx, hxo, private_backwards hp hm (dictOf_small hxo) h3⟩
    | identifiers => cases hf

/-- **C59.**  The only font sets with offsets that cannot be sought, from a position that
can be sought with 2^31 positions after it, have an offset that leads backwards. -/
theorem C59_seek (cfg : Config) (data : List UInt8) (hdata : data.length < 2 ^ 61) (base q : Nat)
    (hp : base + 2 ^ 31 ≤ cfg.maxSeek) (hm : cfg.maxSeek < 2 ^ 64) (h : FontSet.read (tape cfg data) base = (.err .seek, q)) :
    ∃ chunk top, chunk <:+: data ∧ DictOf chunk top ∧ Backwards data top := by
  have hfault := (C76_failure_iff cfg data hdata base (.error .seek)).mp ⟨q, h⟩
  generalize hf : Failure.error Err.seek = f at hfault
  cases hfault with
  | header => cases hf
  | @reach hd _ h1 h2 =>
    subst hf
    have h3 := hd.headerSize.toNat_lt
    have := address_backwards hp hm (by omega) h2
    omega
  | names _ h => subst hf; cases h
  | dictionaries _ _ h => subst hf; cases h
  | operations _ _ _ h => subst hf; obtain ⟨_, _, _, _, _, h⟩ := h; cases h
  | strings _ _ _ _ h => subst hf; cases h
  | subroutines _ _ _ _ _ h => subst hf; cases h
  | font _ _ h1 h2 _ _ _ h3 =>
    subst hf
    obtain ⟨x, hx, hxo⟩ := forall₂_right_mem h2 (List.mem_append_right _ List.mem_cons_self)
    obtain ⟨bs, hbs, hs, -⟩ := h1
    have hin := index_infix ⟨bs, hbs, hs⟩ hx
    have small : ∀ {op o}, IntOf _ op o → o < 2 ^ 31 := fun h => (intOf_int32 (dictOf_small hxo) h).2
    generalize hf : Failure.error Err.seek = f at h3
    cases h3 with
    | strings h =>
      subst hf
      generalize hf : Failure.error Err.seek = f at h
      cases h with
      | offset h => subst hf; cases h
      | reach h1 h2 => subst hf; exact ⟨x, _, hin, hxo, .table (by decide) h1 (address_backwards hp hm (small h1) h2)⟩
      | type _ _ h => subst hf; cases h
      | unknown => cases hf
      | index _ _ _ h => subst hf; cases h
    | set _ h =>
      subst hf
      generalize hf : Failure.error Err.seek = f at h
      cases h with
      | offset h => subst hf; cases h
      | reach h1 _ h2 => subst hf; exact ⟨x, _, hin, hxo, .table (by decide) h1 (address_backwards hp hm (small h1) h2)⟩
      | custom _ _ _ h => subst hf; cases h
    | encoding _ _ h =>
      subst hf
      generalize hf : Failure.error Err.seek = f at h
      cases h with
      | offset h => subst hf; cases h
      | reach h1 _ h2 => subst hf; exact ⟨x, _, hin, hxo, .table (by decide) h1 (address_backwards hp hm (small h1) h2)⟩
      | custom _ _ _ h => subst hf; cases h
    | record _ _ _ h =>
      subst hf
      exact record_backwards hp hm hin hxo h

/-- A font set with a private dictionary at -1, where a tape of 2^63 positions has none. -/
example : (∃ q, FontSet.read (tape { releaseBuild with maxSeek := 2 ^ 63 - 1 } negativeFont) 0 = (.err .seek, q)) ∧
    0 + 2 ^ 31 ≤ { releaseBuild with maxSeek := 2 ^ 63 - 1 }.maxSeek ∧ { releaseBuild with maxSeek := 2 ^ 63 - 1 }.maxSeek < 2 ^ 64 :=
  ⟨⟨_, rfl⟩, by decide, by decide⟩

end PS
