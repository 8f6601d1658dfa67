import Verif.Spec.Merge
import Verif.Lemmas.Writer
/-!
# Lemmas: dictionaries with texts
-/
namespace PS.Texts
open PS.Spec

/-- Operations for texts, the strings of which are numbered from `n` on. -/
def ops : Nat → List (Operator × List UInt8) → List (Operator × List Piece)
  | _, [] => []
  | n, x :: xs => (x.1, [long n]) :: ops (n + 1) xs

/-- A dictionary with texts. -/
def add (e : Entries) (n : Nat) (ts : List (Operator × List UInt8)) : Entries := ⟨e.ops ++ opsOf (ops n ts), e.bytes ++ encodeOps (ops n ts)⟩

theorem ops_mem {n : Nat} {ts : List (Operator × List UInt8)} {x : Operator × List Piece} (h : x ∈ ops n ts) :
    x.1 ∈ ts.map Prod.fst ∧ ∃ i, i < n + ts.length ∧ x.2 = [long (i : Nat)] := by
  induction ts generalizing n with
  | nil => simp [ops] at h
  | cons t ts ih =>
    simp only [ops, List.mem_cons] at h
    rcases h with rfl | h
    · exact ⟨by simp, n, by simp, rfl⟩
    · obtain ⟨h1, i, h2, h3⟩ := ih h
      exact ⟨by simp [h1], i, by simp only [List.length_cons]; omega, h3⟩

theorem apart {op : Operator} (h : op ∈ textual) : op ∉ FontDef.reserved := by
  revert h
  cases op <;> decide

theorem valid {e : Entries} (h : e.Valid FontDef.reserved) {n : Nat} {ts : List (Operator × List UInt8)} (ht : ∀ x ∈ ts, x.1 ∈ textual)
    (hn : n + ts.length ≤ 65536) : (add e n ts).Valid FontDef.reserved := by
  refine ⟨seq_append h.1 (dict_ops ?_), ?_⟩
  · intro x hx p hp
    obtain ⟨-, i, h2, h3⟩ := ops_mem hx
    rw [h3, List.mem_singleton] at hp
    subst hp
    exact operand_long (by omega)
  · intro x hx
    rcases List.mem_append.mp hx with hx | hx
    · exact h.2 x hx
    · obtain ⟨y, hy, rfl⟩ := List.mem_map.mp hx
      obtain ⟨z, hz, e⟩ := List.mem_map.mp (ops_mem hy).1
      exact apart (e ▸ ht z hz)

theorem size (e : Entries) (n : Nat) (ts : List (Operator × List UInt8)) : (add e n ts).bytes.length ≤ e.bytes.length + 7 * ts.length := by
  have h : ∀ n, (encodeOps (ops n ts)).length ≤ 7 * ts.length := by
    induction ts with
    | nil => intro n; simp [ops, encodeOps]
    | cons t ts ih =>
      intro n
      have h1 := ih (n + 1)
      have h2 : (opCode t.1).length ≤ 2 := by cases t.1 <;> decide
      have h3 : (encodeOps (ops n (t :: ts))).length = 5 + (opCode t.1).length + (encodeOps (ops (n + 1) ts)).length := by
        simp [ops, encodeOps, long, beSigned_length]
        omega
      simp only [List.length_cons]
      omega
  simp only [add, List.length_append]
  have := h n
  omega

theorem rest {e : Entries} {n : Nat} {ts : List (Operator × List UInt8)} {o : Operations} (h : (add e n ts).In FontDef.reserved o) :
    e.In (FontDef.reserved ++ ts.map Prod.fst) o := by
  intro op hop ns
  rw [List.mem_append, not_or] at hop
  rw [h op hop.1]
  refine last_append_of_not_mem ?_ ns
  intro x hx e
  obtain ⟨y, hy, rfl⟩ := List.mem_map.mp hx
  exact hop.2 (e ▸ (ops_mem hy).1)

theorem last {ts : List (Operator × List UInt8)} (hn : (ts.map Prod.fst).Nodup) {n j : Nat} {op : Operator} {t : List UInt8}
    (h : ts[j]? = some (op, t)) (before : List (Operator × List Number)) :
    Last (before ++ opsOf (ops n ts)) op [.integer ((n + j : Nat) : Int)] := by
  induction ts generalizing n j before with
  | nil => simp at h
  | cons x ts ih =>
    rw [List.map_cons, List.nodup_cons] at hn
    cases j with
    | zero =>
      simp only [List.getElem?_cons_zero, Option.some.injEq] at h
      subst h
      refine ⟨before, opsOf (ops (n + 1) ts), rfl, ?_⟩
      intro y hy e
      obtain ⟨z, hz, rfl⟩ := List.mem_map.mp hy
      exact hn.1 (e ▸ (ops_mem hz).1)
    | succ j =>
      simp only [List.getElem?_cons_succ] at h
      have := ih hn.2 (n := n + 1) h (before ++ [(x.1, [Number.integer n])])
      rw [List.append_assoc] at this
      rw [show n + (j + 1) = n + 1 + j by omega]
      exact this

theorem found {e : Entries} {n : Nat} {ts : List (Operator × List UInt8)} {o : Operations} (h : (add e n ts).In FontDef.reserved o)
    (ht : ∀ x ∈ ts, x.1 ∈ textual) (hn : (ts.map Prod.fst).Nodup) {j : Nat} {op : Operator} {t : List UInt8} (hj : ts[j]? = some (op, t)) :
    o.map op = some [.integer ((n + j : Nat) : Int)] :=
  (h op (apart (ht _ (List.mem_of_getElem? hj))) _).mpr (last hn hj _)

end PS.Texts
