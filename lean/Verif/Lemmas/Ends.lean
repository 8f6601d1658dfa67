import Verif.Lemmas.FontSet
import Verif.Spec.Ends
/-!
# Lemmas about where reading a font set ends
-/
namespace PS.Ending
open PS PS.Spec

/-! ## The end is determined -/

theorem addr_unique {cfg : Config} {base : Nat} {o : Int} {p q : Nat} (h : (machine cfg base).addr o p)
    (h' : (machine cfg base).addr o q) : p = q := by
  have h1 := h.1
  have h2 := h'.1
  omega

theorem sum_unique {cfg : Config} {base : Nat} {a b c d : Int} (h : (machine cfg base).sum a b c)
    (h' : (machine cfg base).sum a b d) : c = d := by
  obtain ⟨h1, h2, h3, -⟩ := h
  obtain ⟨g1, g2, g3, -⟩ := h'
  omega

theorem intOf_unique {o : Operations} {op : Operator} {i j : Int} (h : IntOf o op i) (h' : IntOf o op j) : i = j := by
  obtain ⟨_, h⟩ := intOf_iff.mp h
  obtain ⟨_, h'⟩ := intOf_iff.mp h'
  rw [h] at h'
  simp only [Option.some.injEq, List.cons.injEq, Number.integer.injEq] at h'
  exact h'.1

theorem intOf_not_absent {o : Operations} {op : Operator} {i : Int} (h : IntOf o op i) (h' : Absent o op) : False := by
  obtain ⟨_, h⟩ := intOf_iff.mp h
  rcases absent_iff.mp h' with h' | h' <;> simp [h] at h'

theorem index_fromTo {env : Env} {p q : Nat} {ix : Index} : Index.read env p = (.ok ix, q) ↔ IndexFromTo env.data p ix q :=
  exact_indexBytes env p ix q

theorem fromTo_unique {data : List UInt8} {p q q' : Nat} {ix ix' : Index} (h : IndexFromTo data p ix q)
    (h' : IndexFromTo data p ix' q') : ix = ix' ∧ q = q' := by
  have h := (index_fromTo (env := tape ⟨false, false, 0, fun p _ => p⟩ data)).mpr h
  rw [(index_fromTo (env := tape ⟨false, false, 0, fun p _ => p⟩ data)).mpr h'] at h
  simp only [Prod.mk.injEq, Res.ok.injEq] at h
  exact ⟨h.1.symm, h.2.symm⟩

theorem privateEnds_unique {cfg : Config} {base : Nat} {data : List UInt8} {top : Operations} {r : PrivateRecord} {q q' : Nat}
    (h : PrivateEnds (machine cfg base) data top r q) (h' : PrivateEnds (machine cfg base) data top r q') : q = q' := by
  obtain ⟨size, offset, rest, p, h1, h2, h3⟩ := h
  obtain ⟨size', offset', rest', p', g1, g2, g3⟩ := h'
  rw [h1] at g1
  simp only [Option.some.injEq, List.cons.injEq, Number.integer.injEq] at g1
  obtain ⟨rfl, rfl, -⟩ := g1
  obtain rfl := addr_unique h2 g2
  rcases h3 with ⟨o, s, p1, a1, a2, a3, a4⟩ | ⟨a1, a2⟩ <;> rcases g3 with ⟨o', s', p1', b1, b2, b3, b4⟩ | ⟨b1, b2⟩
  · obtain rfl := intOf_unique a1 b1
    obtain rfl := sum_unique a2 b2
    obtain rfl := addr_unique a3 b3
    exact (fromTo_unique a4 b4).2
  · exact (intOf_not_absent a1 b1).elim
  · exact (intOf_not_absent b1 a1).elim
  · omega

theorem recordEnds_unique {cfg : Config} {base : Nat} {data : List UInt8} {top : Operations} {r : Record} {q q' : Nat}
    (h : RecordEnds (machine cfg base) data top r q) (h' : RecordEnds (machine cfg base) data top r q') : q = q' := by
  cases r with
  | characterNameKeyed r => exact privateEnds_unique h h'
  | characterIDKeyed c =>
    rcases h with ⟨o, r, h1, h2, h3⟩ | ⟨h1, o, p, ds, h2, h3, h4⟩ <;>
      rcases h' with ⟨o', r', g1, g2, g3⟩ | ⟨g1, o', p', ds', g2, g3, g4⟩
    · rw [h1] at g1
      rw [h2] at g2
      cases g1
      cases g2
      exact privateEnds_unique h3 g3
    · simp [g1] at h1
    · simp [h1] at g1
    · obtain rfl := intOf_unique h2 g2
      obtain rfl := addr_unique h3 g3
      exact (fromTo_unique h4 g4).2

theorem ends_unique {cfg : Config} {base : Nat} {data : List UInt8} {fs : FontSet} {q q' : Nat}
    (h : Ends (machine cfg base) data fs q) (h' : Ends (machine cfg base) data fs q') : q = q' := by
  rcases h with ⟨o, r, h1, h2, h3⟩ | ⟨h1, p1, p2, p3, p4, ds, h2, h3, h4, h5, h6⟩ <;>
    rcases h' with ⟨o', r', g1, g2, g3⟩ | ⟨g1, p1', p2', p3', p4', ds', g2, g3, g4, g5, g6⟩
  · rw [h1] at g1
    rw [h2] at g2
    cases g1
    cases g2
    exact recordEnds_unique h3 g3
  · simp [g1] at h1
  · simp [h1] at g1
  · obtain rfl := addr_unique h2 g2
    obtain rfl := (fromTo_unique h3 g3).2
    obtain rfl := (fromTo_unique h4 g4).2
    obtain rfl := (fromTo_unique h5 g5).2
    exact (fromTo_unique h6 g6).2

/-! ## Reading -/

theorem ofRes_to {env : Env} {r : Res α} {p q : Nat} {a : α} : Rd.ofRes r env p = (.ok a, q) ↔ r = .ok a ∧ p = q := by
  simp [Rd.ofRes]

theorem pure_to {env : Env} {p q : Nat} {a b : α} : (pure b : Rd α) env p = (.ok a, q) ↔ b = a ∧ p = q := by
  simp [Rd.pure_eq]

/-- The end of a byte string. -/
theorem bytes_to {env : Env} (hd : env.data.length < 2 ^ 61) {size : Int} (hs : -2 ^ 31 ≤ size ∧ size < 2 ^ 31) {p q : Nat}
    {chunk : List UInt8} (h : Rd.bytes (toU 64 size) env p = (.ok chunk, q)) : (q : Int) = p + size := by
  have h1 := ((bytes_at env hd size hs p chunk).mp ⟨q, h⟩).1
  have hn : toU 64 size ≤ 2 ^ 63 - 1 := by unfold toU; omega
  obtain ⟨bs, ⟨h2, h3⟩, h4, h5⟩ := (exact_bytes _ hn _ _ _ _).mp h
  subst h2
  omega

theorem private_to {env : Env} (hd : env.data.length < 2 ^ 61) {base : Nat} {top : Operations} (ht : Small top) {p q : Nat}
    {r : PrivateRecord} (h : PrivateRecord.read base top env p = (.ok r, q)) :
    PrivateEnds (machine env.cfg base) env.data top r q := by
  unfold PrivateRecord.read at h
  rw [cfg_bind] at h
  obtain ⟨⟨size, offset⟩, p1, h1, h⟩ := Rd.bind_ok.mp h
  replace h1 := ofRes_to.mp h1
  obtain ⟨h1, rfl⟩ := h1
  obtain ⟨rest, h1⟩ := getPrivate_ok.mp h1
  obtain ⟨_, p2, h2, h⟩ := Rd.bind_ok.mp h
  obtain ⟨chunk, p3, h3, h⟩ := Rd.bind_ok.mp h
  obtain ⟨o, p4, h4, h⟩ := Rd.bind_ok.mp h
  replace h4 := ofRes_to.mp h4
  obtain ⟨h4, rfl⟩ := h4
  obtain ⟨another, p5, h5, h⟩ := Rd.bind_ok.mp h
  replace h5 := ofRes_to.mp h5
  obtain ⟨h5, rfl⟩ := h5
  obtain ⟨ix, p6, h6, h⟩ := Rd.bind_ok.mp h
  obtain ⟨rfl, rfl⟩ := pure_to.mp h
  refine ⟨size, offset, rest, p2, h1, jumpTo_ok.mp h2, ?_⟩
  cases another with
  | none =>
    obtain ⟨rfl, rfl⟩ := pure_to.mp h6
    exact .inr ⟨tryGetI_none.mp h5, bytes_to hd (ht _ _ size h1 (by simp)) h3⟩
  | some a =>
    obtain ⟨s, p7, h7, h6⟩ := Rd.bind_ok.mp h6
    replace h7 := ofRes_to.mp h7
    obtain ⟨h7, rfl⟩ := h7
    obtain ⟨_, p8, h8, h6⟩ := Rd.bind_ok.mp h6
    exact .inl ⟨a, s, p8, tryGetI_some.mp h5, machine_sum.mpr h7, jumpTo_ok.mp h8, index_fromTo.mp h6⟩

theorem privates_to {env : Env} (hd : env.data.length < 2 ^ 61) {base : Nat} {tops : List Operations} (ht : ∀ o ∈ tops, Small o)
    {p q : Nat} {rs : List PrivateRecord} (h : readPrivateRecords base tops env p = (.ok rs, q)) :
    (∃ o r, tops.getLast? = some o ∧ rs.getLast? = some r ∧ PrivateEnds (machine env.cfg base) env.data o r q) ∨
    (tops = [] ∧ p = q) := by
  induction tops generalizing p rs with
  | nil => exact .inr ⟨rfl, (pure_to.mp h).2⟩
  | cons top tops ih =>
    unfold readPrivateRecords at h
    obtain ⟨r, p1, h1, h⟩ := Rd.bind_ok.mp h
    obtain ⟨rs', p2, h2, h⟩ := Rd.bind_ok.mp h
    obtain ⟨rfl, rfl⟩ := pure_to.mp h
    rcases ih (fun o ho => ht o (by simp [ho])) h2 with ⟨o, r', g1, g2, g3⟩ | ⟨rfl, rfl⟩
    · exact .inl ⟨o, r', by simp [List.getLast?_cons, g1], by simp [List.getLast?_cons, g2], g3⟩
    · obtain ⟨rfl, -⟩ := pure_to.mp h2
      exact .inl ⟨top, r, rfl, rfl, private_to hd (ht _ (by simp)) h1⟩

theorem record_to {env : Env} (hd : env.data.length < 2 ^ 61) {base : Nat} {top : Operations} (ht : Small top) {cs : Index}
    {p q : Nat} {r : Record} (h : Record.read base top cs env p = (.ok r, q)) :
    RecordEnds (machine env.cfg base) env.data top r q := by
  unfold Record.read at h
  split at h
  · obtain ⟨c, p1, h1, h⟩ := Rd.bind_ok.mp h
    obtain ⟨rfl, rfl⟩ := pure_to.mp h
    unfold CIDRecord.read at h1
    rcases hr : top.get .opROS with _ | _ | ⟨a, _ | ⟨b, _ | ⟨c, _ | ⟨d, l⟩⟩⟩⟩ <;> rw [hr] at h1
    case some.cons.cons.cons.nil =>
      dsimp only at h1
      rw [cfg_bind] at h1
      obtain ⟨o1, p2, h2, h1⟩ := Rd.bind_ok.mp h1
      obtain ⟨_, p3, h3, h1⟩ := Rd.bind_ok.mp h1
      obtain ⟨e, p4, h4, h1⟩ := Rd.bind_ok.mp h1
      obtain ⟨o2, p5, h5, h1⟩ := Rd.bind_ok.mp h1
      replace h5 := ofRes_to.mp h5
      obtain ⟨h5, rfl⟩ := h5
      obtain ⟨_, p6, h6, h1⟩ := Rd.bind_ok.mp h1
      obtain ⟨ix, p7, h7, h1⟩ := Rd.bind_ok.mp h1
      obtain ⟨ops, p8, h8, h1⟩ := Rd.bind_ok.mp h1
      replace h8 := ofRes_to.mp h8
      obtain ⟨h8, rfl⟩ := h8
      obtain ⟨rs, p9, h9, h1⟩ := Rd.bind_ok.mp h1
      obtain ⟨id1, p10, h10, h1⟩ := Rd.bind_ok.mp h1
      replace h10 := ofRes_to.mp h10
      obtain ⟨h10, rfl⟩ := h10
      obtain ⟨id2, p11, h11, h1⟩ := Rd.bind_ok.mp h1
      replace h11 := ofRes_to.mp h11
      obtain ⟨h11, rfl⟩ := h11
      obtain ⟨rfl, rfl⟩ := pure_to.mp h1
      rcases privates_to hd (fun o ho => by
        obtain ⟨_, _, h⟩ := forall₂_right_mem (toOperations_ok.mp h8) ho
        exact dictOf_small h) h9 with h | ⟨rfl, rfl⟩
      · exact .inl h
      · exact .inr ⟨rfl, o2, p6, ix, getI_ok.mp h5, jumpTo_ok.mp h6, index_fromTo.mp h7⟩
    all_goals simp [Rd.raise] at h1
  · obtain ⟨c, p1, h1, h⟩ := Rd.bind_ok.mp h
    obtain ⟨rfl, rfl⟩ := pure_to.mp h
    exact private_to hd ht h1

theorem entries_to {env : Env} (hd : env.data.length < 2 ^ 61) {base : Nat} {tops : List Operations} (ht : ∀ o ∈ tops, Small o)
    {p q : Nat} {es : List FontEntry} (h : readEntries base tops env p = (.ok es, q)) :
    (∃ o r, tops.getLast? = some o ∧ (es.map FontEntry.record).getLast? = some r ∧
      RecordEnds (machine env.cfg base) env.data o r q) ∨ (tops = [] ∧ p = q) := by
  induction tops generalizing p es with
  | nil => exact .inr ⟨rfl, (pure_to.mp h).2⟩
  | cons top tops ih =>
    unfold readEntries at h
    obtain ⟨e, p1, h1, h⟩ := Rd.bind_ok.mp h
    obtain ⟨es', p2, h2, h⟩ := Rd.bind_ok.mp h
    obtain ⟨rfl, rfl⟩ := pure_to.mp h
    rcases ih (fun o ho => ht o (by simp [ho])) h2 with ⟨o, r', g1, g2, g3⟩ | ⟨rfl, rfl⟩
    · exact .inl ⟨o, r', by simp [List.getLast?_cons, g1], by rw [List.map_cons, List.getLast?_cons, g2]; rfl, g3⟩
    · obtain ⟨rfl, -⟩ := pure_to.mp h2
      refine .inl ⟨top, e.record, rfl, rfl, ?_⟩
      unfold FontEntry.read at h1
      obtain ⟨_, _, -, h1⟩ := Rd.bind_ok.mp h1
      obtain ⟨_, _, -, h1⟩ := Rd.bind_ok.mp h1
      obtain ⟨_, _, -, h1⟩ := Rd.bind_ok.mp h1
      obtain ⟨_, _, -, h1⟩ := Rd.bind_ok.mp h1
      obtain ⟨_, _, -, h1⟩ := Rd.bind_ok.mp h1
      obtain ⟨_, _, -, h1⟩ := Rd.bind_ok.mp h1
      obtain ⟨_, _, -, h1⟩ := Rd.bind_ok.mp h1
      obtain ⟨_, _, -, h1⟩ := Rd.bind_ok.mp h1
      obtain ⟨r, p3, h3, h1⟩ := Rd.bind_ok.mp h1
      obtain ⟨rfl, rfl⟩ := pure_to.mp h1
      exact record_to hd (ht _ (by simp)) h3

theorem fontSet_to {env : Env} (hd : env.data.length < 2 ^ 61) {base q : Nat} {fs : FontSet}
    (h : FontSet.read env base = (.ok fs, q)) : Ends (machine env.cfg base) env.data fs q := by
  unfold FontSet.read at h
  rw [cfg_bind, show ∀ f : Nat → Rd FontSet, (Rd.position >>= f) env base = f base env base from fun _ => rfl] at h
  obtain ⟨header, p1, h1, h⟩ := Rd.bind_ok.mp h
  obtain ⟨_, p2, h2, h⟩ := Rd.bind_ok.mp h
  obtain ⟨names, p3, h3, h⟩ := Rd.bind_ok.mp h
  obtain ⟨ds, p4, h4, h⟩ := Rd.bind_ok.mp h
  obtain ⟨ops, p5, h5, h⟩ := Rd.bind_ok.mp h
  replace h5 := ofRes_to.mp h5
  obtain ⟨h5, rfl⟩ := h5
  obtain ⟨strings, p6, h6, h⟩ := Rd.bind_ok.mp h
  obtain ⟨subrs, p7, h7, h⟩ := Rd.bind_ok.mp h
  obtain ⟨es, p8, h8, h⟩ := Rd.bind_ok.mp h
  obtain ⟨rfl, rfl⟩ := pure_to.mp h
  rcases entries_to hd (fun o ho => by
    obtain ⟨_, _, h⟩ := forall₂_right_mem (toOperations_ok.mp h5) ho
    exact dictOf_small h) h8 with ⟨o, r, g1, g2, g3⟩ | ⟨rfl, rfl⟩
  · exact .inl ⟨o, r, g1, g2, g3⟩
  · exact .inr ⟨rfl, p2, p3, p4, p6, ds, jumpTo_ok.mp h2, index_fromTo.mp h3, index_fromTo.mp h4, index_fromTo.mp h6,
      index_fromTo.mp h7⟩

/-- Reading a font set, with its end. -/
theorem fontSet_ends_iff (env : Env) (hd : env.data.length < 2 ^ 61) (base q : Nat) (fs : FontSet) :
    FontSet.read env base = (.ok fs, q) ↔ LaidOut (machine env.cfg base) env.data base fs ∧
      Ends (machine env.cfg base) env.data fs q := by
  constructor
  · intro h
    exact ⟨(fontSet_iff env hd base fs).mp ⟨q, h⟩, fontSet_to hd h⟩
  · rintro ⟨h1, h2⟩
    obtain ⟨q', h⟩ := (fontSet_iff env hd base fs).mpr h1
    rwa [ends_unique h2 (fontSet_to hd h)]

/-! ## Resolving offsets in another way -/

section
variable {A A' : Addressing} {data : List UInt8} (ha : ∀ o p, A.addr o p → A'.addr o p) (hs : ∀ a b c, A.sum a b c → A'.sum a b c)
include ha hs

theorem privateEnds_mono {top : Operations} {r : PrivateRecord} {q : Nat} (h : PrivateEnds A data top r q) :
    PrivateEnds A' data top r q := by
  obtain ⟨size, offset, rest, p, h1, h2, ⟨o, s, p', a1, a2, a3, a4⟩ | h3⟩ := h
  · exact ⟨size, offset, rest, p, h1, ha _ _ h2, .inl ⟨o, s, p', a1, hs _ _ _ a2, ha _ _ a3, a4⟩⟩
  · exact ⟨size, offset, rest, p, h1, ha _ _ h2, .inr h3⟩

theorem ends_mono {fs : FontSet} {q : Nat} (h : Ends A data fs q) : Ends A' data fs q := by
  rcases h with ⟨o, r, h1, h2, h3⟩ | ⟨h1, p1, p2, p3, p4, ds, h2, h3⟩
  · refine .inl ⟨o, r, h1, h2, ?_⟩
    cases r with
    | characterNameKeyed r => exact privateEnds_mono ha hs h3
    | characterIDKeyed c =>
      rcases h3 with ⟨o, r, g1, g2, g3⟩ | ⟨g1, o, p, ds, g2, g3, g4⟩
      · exact .inl ⟨o, r, g1, g2, privateEnds_mono ha hs g3⟩
      · exact .inr ⟨g1, o, p, ds, g2, ha _ _ g3, g4⟩
  · exact .inr ⟨h1, p1, p2, p3, p4, ds, ha _ _ h2, h3⟩

end

end PS.Ending
