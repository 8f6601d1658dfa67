import Verif.Lemmas.Type2Step
/-!
# Lemmas: the operands of an operation
-/
namespace PS.Type2
open PS.Type2.Spec

/-- `o` is the least element of `S`, if any. -/
def Least (S : Nat → Prop) (o : Option Nat) : Prop :=
  match o with
  | none => ∀ m, ¬ S m
  | some m => S m ∧ ∀ k, S k → m ≤ k

theorem Least.congr {S T : Nat → Prop} {o : Option Nat} (h : Least S o) (hST : ∀ m, S m ↔ T m) : Least T o := by
  have : S = T := funext fun m => propext (hST m)
  rwa [← this]

/-- The numbers of operands a sequence of predicates can leave. -/
def Leaves : List Pred → Nat → Nat → Prop
  | [], left, m => m = left
  | .equal count :: tail, left, m => ∃ l, left = l + count ∧ Leaves tail l m
  | .maybeEqual count :: tail, left, m => Leaves tail left m ∨ ∃ l, left = l + count ∧ Leaves tail l m
  | .modulo count :: tail, left, m => ∃ l i, 1 ≤ i ∧ left = l + i * count ∧ Leaves tail l m
  | .maybeModulo count :: tail, left, m => ∃ l i, left = l + i * count ∧ Leaves tail l m

/-- The counts of repeated groups are positive. -/
def Proper : List Pred → Prop
  | [] => True
  | .modulo count :: tail => 0 < count ∧ Proper tail
  | .maybeModulo count :: tail => 0 < count ∧ Proper tail
  | _ :: tail => Proper tail

theorem foldl_least {f : Nat → Option Nat → Option Nat} {T : Nat → Nat → Prop}
    (hf : ∀ i S o, Least S o → Least (fun m => S m ∨ T i m) (f i o)) (l : List Nat) :
    ∀ S o, Least S o → Least (fun m => S m ∨ ∃ i ∈ l, T i m) (l.foldl (fun o i => f i o) o) := by
  induction l with
  | nil => intro S o h; exact h.congr (by simp)
  | cons i l ih =>
    intro S o h
    refine (ih _ _ (hf i S o h)).congr ?_
    intro m
    simp [or_assoc]

theorem reduce_least (ps : List Pred) (hp : Proper ps) : ∀ (S : Nat → Prop) (o : Option Nat) (left : Nat), Least S o →
    Least (fun m => S m ∨ Leaves ps left m) (reduce ps o left) := by
  induction ps with
  | nil =>
    intro S o left h
    cases o with
    | none =>
      exact ⟨.inr rfl, by
        rintro k (hk | hk)
        · exact absurd hk (h k)
        · exact Nat.le_of_eq hk.symm⟩
    | some m =>
      simp only [reduce]
      split
      · refine ⟨.inr rfl, ?_⟩
        rintro k (hk | hk)
        · have := h.2 k hk; omega
        · exact Nat.le_of_eq hk.symm
      · refine ⟨.inl h.1, ?_⟩
        rintro k (hk | hk)
        · exact h.2 k hk
        · have : k = left := hk; omega
  | cons p ps ih =>
    intro S o left h
    cases p with
    | equal count =>
      simp only [reduce]
      split
      · refine (ih hp S o (left - count) h).congr ?_
        intro m
        refine or_congr Iff.rfl ⟨fun hm => ⟨left - count, by omega, hm⟩, ?_⟩
        rintro ⟨l, hl, hm⟩
        rwa [show left - count = l by omega]
      · refine h.congr ?_
        intro m
        refine ⟨.inl, ?_⟩
        rintro (hm | ⟨l, hl, hm⟩)
        · exact hm
        · omega
    | maybeEqual count =>
      simp only [reduce]
      have h1 := ih hp S o left h
      split
      · refine (ih hp _ _ (left - count) h1).congr ?_
        intro m
        rw [or_assoc]
        refine or_congr Iff.rfl (or_congr Iff.rfl ⟨fun hm => ⟨left - count, by omega, hm⟩, ?_⟩)
        rintro ⟨l, hl, hm⟩
        rwa [show left - count = l by omega]
      · refine h1.congr ?_
        intro m
        refine or_congr Iff.rfl ⟨.inl, ?_⟩
        rintro (hm | ⟨l, hl, hm⟩)
        · exact hm
        · omega
    | modulo count =>
      obtain ⟨hc, hp⟩ := hp
      simp only [reduce]
      refine (foldl_least (f := fun i o => reduce ps o (left - i * count)) (T := fun i m => Leaves ps (left - i * count) m)
        (fun i S o h => ih hp S o _ h) _ S o h).congr ?_
      intro m
      refine or_congr Iff.rfl ?_
      constructor
      · rintro ⟨i, hi, hm⟩
        rw [List.mem_range'_1] at hi
        have : i * count ≤ left := (Nat.le_div_iff_mul_le hc).mp (by omega)
        exact ⟨_, i, by omega, by omega, hm⟩
      · rintro ⟨l, i, hi, hl, hm⟩
        refine ⟨i, ?_, by rwa [show left - i * count = l by omega]⟩
        rw [List.mem_range'_1]
        have : i ≤ left / count := (Nat.le_div_iff_mul_le hc).mpr (by omega)
        omega
    | maybeModulo count =>
      obtain ⟨hc, hp⟩ := hp
      simp only [reduce]
      refine (foldl_least (f := fun i o => reduce ps o (left - i * count)) (T := fun i m => Leaves ps (left - i * count) m)
        (fun i S o h => ih hp S o _ h) _ S o h).congr ?_
      intro m
      refine or_congr Iff.rfl ?_
      constructor
      · rintro ⟨i, hi, hm⟩
        rw [List.mem_range'_1] at hi
        have : i * count ≤ left := (Nat.le_div_iff_mul_le hc).mp (by omega)
        exact ⟨_, i, by omega, hm⟩
      · rintro ⟨l, i, hl, hm⟩
        refine ⟨i, ?_, by rwa [show left - i * count = l by omega]⟩
        rw [List.mem_range'_1]
        have : i ≤ left / count := (Nat.le_div_iff_mul_le hc).mpr (by omega)
        omega

theorem alternatives_least (ps : List (List Pred)) (hp : ∀ p ∈ ps, Proper p) (n : Nat) :
    ∀ (S : Nat → Prop) (o : Option Nat), Least S o →
    Least (fun m => S m ∨ ∃ p ∈ ps, Leaves p n m) (ps.foldl (fun min p => reduce p min n) o) := by
  induction ps with
  | nil => intro S o h; exact h.congr (by simp)
  | cons p ps ih =>
    intro S o h
    refine (ih (fun q hq => hp q (by simp [hq])) _ _ (reduce_least p (hp p (by simp)) S o n h)).congr ?_
    intro m
    simp [or_assoc]

/-- The least number of operands left by any of the alternatives. -/
theorem min_least (ps : List (List Pred)) (hp : ∀ p ∈ ps, Proper p) (n : Nat) :
    Least (fun m => ∃ p ∈ ps, Leaves p n m) (ps.foldl (fun min p => reduce p min n) none) :=
  (alternatives_least ps hp n (fun _ => False) none (fun _ h => h)).congr (by simp)

/-- What `clear` does when the least number of operands left over is known. -/
theorem clear_some {op : Operator} {ps : List (List Pred)} {cfg : Config} {s : Program} {below args : List F32}
    (hs : s.stack = below ++ args)
    (h : ps.foldl (fun min p => reduce p min s.stack.length) none = some below.length) :
    clear op ps cfg s = (.ok (.ret (some (op, args))), { s with stack := [], width := newWidth s.width below }) := by
  unfold clear
  rw [PM.bind_of_ok (a := s) (s' := s) rfl]
  simp only [h]
  rw [PM.bind_of_ok (a := ()) (s' := { s with stack := [] }) rfl]
  have htake : s.stack.take below.length = below := by rw [hs]; simp
  have hdrop : s.stack.drop below.length = args := by rw [hs]; simp
  rw [htake, hdrop]
  rcases List.eq_nil_or_concat below with rfl | ⟨l, w, rfl⟩
  · simp [newWidth]; rfl
  · rcases hw : s.width with _ | v
    · rw [if_pos (by simp)]
      have : (l.concat w)[(l.concat w).length - 1]? = some w := by simp
      rw [this]
      simp [newWidth]; rfl
    · rw [if_neg (by simp)]
      simp [newWidth]; rw [← hw]; rfl

theorem clear_none {op : Operator} {ps : List (List Pred)} {cfg : Config} {s : Program}
    (h : ps.foldl (fun min p => reduce p min s.stack.length) none = none) :
    clear op ps cfg s = (.err (.raised .malformedOperands), s) := by
  unfold clear
  rw [PM.bind_of_ok (a := s) (s' := s) rfl]
  simp only [h]
  rfl

/-- `clear` with alternatives that accept what the operator accepts. -/
theorem clear_iff {op : Operator} {ps : List (List Pred)} (hp : ∀ p ∈ ps, Proper p)
    (ha : ∀ n m, (∃ p ∈ ps, Leaves p n m) ↔ ∃ k, n = m + k ∧ Accepts op k) (cfg : Config) (s : Program) :
    (∃ below args, Longest op s.stack below args ∧
      clear op ps cfg s = (.ok (.ret (some (op, args))), { s with stack := [], width := newWidth s.width below })) ∨
    ((∀ args, args <:+ s.stack → ¬ Accepts op args.length) ∧
      clear op ps cfg s = (.err (.raised .malformedOperands), s)) := by
  have hl := min_least ps hp s.stack.length
  rcases hm : ps.foldl (fun min p => reduce p min s.stack.length) none with _ | m
  · right
    refine ⟨?_, clear_none hm⟩
    rintro args ⟨below, hb⟩ hacc
    rw [hm] at hl
    refine hl below.length ((ha _ _).mpr ⟨args.length, ?_, hacc⟩)
    rw [← hb]; simp
  · left
    rw [hm] at hl
    obtain ⟨h1, h2⟩ := hl
    obtain ⟨k, hk, hacc⟩ := (ha _ _).mp h1
    have hd : (s.stack.drop m).length = k := by simp; omega
    refine ⟨s.stack.take m, s.stack.drop m, ⟨by simp, by rwa [hd], ?_⟩, clear_some (by simp) ?_⟩
    · rintro args ⟨below, hb⟩ hacc'
      have := h2 below.length ((ha _ _).mpr ⟨args.length, by rw [← hb]; simp, hacc'⟩)
      rw [hd]
      have hb' := congrArg List.length hb
      simp at hb'
      omega
    · rw [hm, List.length_take]
      congr 1
      omega

end PS.Type2
