import Verif.Lemmas.Uncalled
import Verif.Props.Type2Halt
/-!
# Property C84: subroutines that are never called
-/
namespace PS.Type2
open PS.Spec hiding Operand Operation
open PS.Type2.Spec

/-- **C84.**  Subroutines that are not called do not matter: two programs with the same
code, as many subroutines, and the same ones of the numbers that the first comes to call,
show the same and end in the same way. -/
theorem C84_program {cfg : Config} {code : List UInt8} {global «local» global' local' : List (List UInt8)}
    (hs : Sound (Program.new code global «local»)) (hs' : Sound (Program.new code global' local'))
    (h1 : global.length = global'.length) (h2 : «local».length = local'.length)
    (h3 : ∀ i, CallsGlobal cfg.checks (view (Program.new code global «local»)) i → global[i]? = global'[i]?)
    (h4 : ∀ i, CallsLocal cfg.checks (view (Program.new code global «local»)) i → «local»[i]? = local'[i]?)
    (x : List Observation) (out : Outcome) :
    Run cfg (Program.new code global «local») x out ↔ Run cfg (Program.new code global' local') x out := by
  have h : Agreeing cfg.checks (view (Program.new code global «local»)) global' local' := ⟨h1, h2, h3, h4⟩
  exact ⟨fun hr => swap_run hr hs hs' h rfl, fun hr => swap_run hr hs' hs (agreeing_symm h) rfl⟩

/-- The code is `-107 callsubr endchar`, and the first subroutine is `return`. -/
def inner : List (List UInt8) := [[11], [14]]

/-- Another second subroutine, that fails. -/
def inner' : List (List UInt8) := [[11], [255]]

theorem inner_calls (checks : Bool) :
    (∀ i, ¬ CallsGlobal checks (view (Program.new [32, 10, 14] [] inner)) i) ∧
    ∀ i, CallsLocal checks (view (Program.new [32, 10, 14] [] inner)) i → i = 0 := by
  have h32 : Operand (F32.ofInt (-107)) [32] := operand_byte 32 (by decide) (by decide)
  have first : ∀ {xs : List F32} {bs rest : List UInt8} {op : Operator}, Seq Operand xs bs → [32, 10, 14] = bs ++ (bytes op ++ rest) →
      xs = [F32.ofInt (-107)] ∧ op = .opCallSubr ∧ rest = [14] := by
    intro xs bs rest op h he
    obtain ⟨ys, cs, rfl, rfl, h1, h2⟩ := seq_operand (r := [10, 14]) h32 h he
    obtain ⟨rfl, _, rfl, rfl⟩ := seq_bytes (op' := .opCallSubr) (r := [14]) h1 h2
    exact ⟨rfl, rfl, rfl⟩
  have arg : ∀ {a}, IntArg (F32.ofInt (-107)) a → a = -107 := fun h =>
    intArg_unique (by decide +kernel) h ((intArg_iff (i := -107) (by decide +kernel)).mp (by decide +kernel))
  let I : State → Prop := fun σ => (σ.global = [] ∧ σ.local = inner) ∧ ((σ.code = [32, 10, 14] ∧ σ.stack = [] ∧ σ.callers = []) ∨
    (σ.code = [11] ∧ σ.stack = [] ∧ σ.callers = [[14]]) ∨ (σ.code = [14] ∧ σ.stack = [] ∧ σ.callers = []))
  -- what comes next in each of the three states
  have next : ∀ {σ υ : State} {op : Operator} {rest : List UInt8}, I σ → Pushes σ υ → υ.code = bytes op ++ rest →
      (op = .opCallSubr ∧ υ.stack = [F32.ofInt (-107)] ∧ rest = [14] ∧ υ.callers = []) ∨
      (op = .opReturn ∧ υ.stack = [] ∧ rest = [] ∧ υ.callers = [[14]]) ∨ (op = .opEndChar ∧ υ.stack = [] ∧ rest = [] ∧ υ.callers = []) := by
    intro σ υ op rest hi hp hc
    obtain ⟨xs, bs, code, h1, h2, rfl⟩ := pushes_apart hp
    subst hc
    obtain ⟨-, ⟨c1, c2, c3⟩ | ⟨c1, c2, c3⟩ | ⟨c1, c2, c3⟩⟩ := hi <;> rw [c1] at h2
    · obtain ⟨rfl, rfl, rfl⟩ := first h1 h2
      exact .inl ⟨rfl, by simp [c2], rfl, c3⟩
    · obtain ⟨rfl, _, rfl, rfl⟩ := seq_bytes (op' := .opReturn) (r := []) h1 h2
      exact .inr (.inl ⟨rfl, by simp [c2], rfl, c3⟩)
    · obtain ⟨rfl, _, rfl, rfl⟩ := seq_bytes (op' := .opEndChar) (r := []) h1 h2
      exact .inr (.inr ⟨rfl, by simp [c2], rfl, c3⟩)
  have tables : ∀ {σ υ : State}, I σ → Pushes σ υ → υ.global = [] ∧ υ.local = inner := by
    intro σ υ hi hp
    obtain ⟨xs, bs, code, _, _, rfl⟩ := pushes_apart hp
    exact hi.1
  have top : ∀ {st : List F32} {x y : F32}, [y] = st ++ [x] → st = [] ∧ x = y := by
    intro st x y h
    have := List.append_inj' (s₁ := []) (t₁ := [y]) h rfl
    simp at this
    exact ⟨this.1, this.2.symm⟩
  have inv : ∀ {x τ}, Executes checks (view (Program.new [32, 10, 14] [] inner)) x τ → I τ := by
    intro x τ he
    refine executes_invariant he I ⟨⟨rfl, rfl⟩, .inl ⟨rfl, rfl, rfl⟩⟩ ?_ ?_
    · intro σ υ τ hi hp hq
      have ht := tables hi hp
      cases hq with
      | stack h1 h2 =>
        rcases next hi hp h1 with ⟨rfl, _⟩ | ⟨rfl, _⟩ | ⟨rfl, _⟩ <;> cases h2
      | @callLocal _ _ _ _ j _ h1 h2 h3 h4 h5 =>
        rcases next hi hp h1 with ⟨_, k1, k2, k3⟩ | ⟨h, _⟩ | ⟨h, _⟩
        · rw [k1] at h2
          obtain ⟨rfl, rfl⟩ := top h2
          obtain rfl := arg h3
          rw [ht.2] at h4 h5
          have : callBias inner.length = 107 := rfl
          rw [this] at h4
          obtain rfl : j = 0 := by omega
          injection h5 with h5
          exact ⟨ht, .inr (.inl ⟨h5.symm, rfl, by rw [k2, k3]⟩)⟩
        · exact absurd h (by decide)
        · exact absurd h (by decide)
      | callGlobal h1 h2 h3 h4 h5 =>
        rw [ht.1] at h5
        exact absurd h5 (by simp)
      | «return» h1 h2 =>
        rcases next hi hp h1 with ⟨h, _⟩ | ⟨_, k1, k2, k3⟩ | ⟨h, _⟩
        · exact absurd h (by decide)
        · rw [k3] at h2
          injection h2 with h2 h3
          exact ⟨ht, .inr (.inr ⟨h2.symm, k1, h3.symm⟩)⟩
        · exact absurd h (by decide)
    · intro σ υ o τ hi hp he
      exfalso
      cases he with
      | path h1 h2 h3 => rcases next hi hp h2 with ⟨rfl, _⟩ | ⟨rfl, _⟩ | ⟨rfl, _⟩ <;> exact absurd h1 (by decide)
      | stem h1 h2 h3 => rcases next hi hp h2 with ⟨rfl, _⟩ | ⟨rfl, _⟩ | ⟨rfl, _⟩ <;> exact absurd h1 (by decide)
      | mask h1 h2 h3 =>
        rw [List.append_assoc] at h2
        rcases next hi hp h2 with ⟨rfl, _⟩ | ⟨rfl, _⟩ | ⟨rfl, _⟩ <;> exact absurd h1 (by decide)
  constructor
  · rintro i ⟨x, τ, υ, rest, st, y, a, h1, h2, h3, h4, h5, h6⟩
    rcases next (inv h1) h2 h3 with ⟨h, _⟩ | ⟨h, _⟩ | ⟨h, _⟩ <;> exact absurd h (by decide)
  · rintro i ⟨x, τ, υ, rest, st, y, a, h1, h2, h3, h4, h5, h6⟩
    rcases next (inv h1) h2 h3 with ⟨_, k1, _⟩ | ⟨h, _⟩ | ⟨h, _⟩
    · rw [k1] at h4
      obtain ⟨rfl, rfl⟩ := top h4
      obtain rfl := arg h5
      rw [(tables (inv h1) h2).2] at h6
      have : callBias inner.length = 107 := rfl
      rw [this] at h6
      omega
    · exact absurd h (by decide)
    · exact absurd h (by decide)

/-- The second subroutine is not called, so that its failure does not matter. -/
example (cfg : Config) (x : List Observation) (out : Outcome) :
    Run cfg (Program.new [32, 10, 14] [] inner) x out ↔ Run cfg (Program.new [32, 10, 14] [] inner') x out :=
  C84_program (global := []) (global' := []) («local» := inner) (local' := inner') (sound_new (by decide) (by decide) (by decide))
    (sound_new (by decide) (by decide) (by decide)) rfl rfl (fun _ _ => rfl)
    (fun i hi => by rw [(inner_calls cfg.checks).2 i hi]; rfl) x out

end PS.Type2
