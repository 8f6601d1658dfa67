import Verif.Lemmas.Utf8
import Mathlib.Data.List.Nodup
/-!
# Lemmas about the standard strings
-/
namespace PS
open Spec

theorem standardStrings_eq :
    Tables.standardStrings = (List.range 391).zip standardStringList := by decide +kernel

theorem standardStringList_length : standardStringList.length = 391 := by decide +kernel

/-- A number that tells the standard strings apart. -/
def stringKey (s : String) : Nat := s.toByteArray.data.toList.foldl (fun n c => (n * 256 + c.toNat) % 40039) 0

/-- The keys of the standard strings. -/
def standardKeys : List Nat := [
  34657, 9042, 18837, 964, 19016, 4515, 7637, 17171, 33617, 7280, 30601, 32923, 38974, 15885, 17549, 36852,
  9641, 28629, 15659, 25341, 19379, 26636, 34053, 36308, 14868, 24119, 39005, 30952, 31608, 16639, 25926,
  18474, 39579, 24948, 65, 66, 67, 68, 69, 70, 71, 72, 73, 74, 75, 76, 77, 78, 79, 80, 81, 82, 83, 84, 85, 86,
  87, 88, 89, 90, 4259, 38590, 17966, 20343, 26188, 8543, 97, 98, 99, 100, 101, 102, 103, 104, 105, 106, 107,
  108, 109, 110, 111, 112, 113, 114, 115, 116, 117, 118, 119, 120, 121, 122, 3740, 1195, 5219, 35874, 3379,
  7485, 21817, 31901, 28100, 26977, 22561, 25641, 24439, 18985, 33295, 21465, 18412, 26217, 26220, 26305,
  20877, 21991, 16891, 34159, 11950, 21006, 31677, 24156, 3928, 35514, 22313, 5741, 10269, 3391, 29947, 27172,
  13417, 33271, 11626, 39206, 2468, 34307, 3105, 38461, 11528, 2500, 16709, 4473, 28608, 13025, 20293, 14555,
  24933, 10471, 9199, 33655, 28517, 18085, 22451, 6369, 28021, 22886, 27377, 28868, 2558, 25284, 11307, 34933,
  21270, 36200, 26303, 5702, 18872, 37258, 36014, 2462, 11931, 16254, 32917, 12764, 4192, 32586, 19642, 28311,
  36545, 3048, 5333, 5687, 16779, 12211, 37941, 7182, 972, 4780, 22404, 6775, 29444, 37320, 13653, 30556,
  7481, 15648, 11667, 33629, 22526, 8217, 17822, 24506, 33394, 16152, 26247, 233, 29330, 17136, 13815, 25963,
  17647, 10440, 32841, 18532, 19142, 34672, 25410, 2995, 27405, 1365, 30981, 34283, 11147, 28111, 36278,
  23627, 27290, 3117, 28847, 11483, 5097, 18387, 20301, 21338, 17853, 10376, 6435, 31921, 12908, 14911, 23494,
  1639, 25936, 22357, 19739, 19823, 28251, 35742, 38738, 26696, 38256, 30233, 23963, 4572, 22474, 39700, 5719,
  32602, 17835, 23893, 8086, 26260, 32318, 38376, 4395, 22569, 28627, 34685, 26214, 24376, 24379, 25458, 6445,
  28418, 20917, 21291, 18101, 26253, 34405, 2518, 10670, 18822, 26974, 35126, 3239, 11391, 19543, 27695,
  35847, 3960, 12112, 20264, 28416, 36568, 4681, 12833, 20985, 29137, 37289, 5402, 13554, 21706, 35882, 13963,
  28316, 309, 7504, 36087, 34008, 14443, 27069, 17646, 30958, 34675, 36785, 25643, 12757, 14454, 25470, 34625,
  28220, 3769, 12628, 30208, 212, 2599, 1264, 4216, 38193, 16338, 24766, 32257, 35253, 23211, 34771, 31730,
  15988, 12409, 9791, 9875, 18303, 25794, 28790, 16748, 28308, 26139, 11390, 38148, 23770, 14351, 39534,
  28645, 33408, 31074, 15204, 7818, 31844, 15846, 990, 3990, 17912, 17341, 2485, 19374, 4750, 8646, 28257,
  39603, 24747, 2411, 18621, 25046, 36155, 5100, 21826, 6970, 25487, 5303, 8465, 3124, 32180, 25651, 25652,
  25653, 25654, 234, 32857, 33632, 29579, 21100, 30395, 8531, 12556]

theorem standardKeys_eq : standardStringList.map stringKey = standardKeys := by decide +kernel

/-- Are the numbers distinct, and not among the bits set in `mask`? -/
def distinct (mask : Nat) : List Nat → Bool
  | [] => true
  | k :: l => !mask.testBit k && distinct (mask ||| 1 <<< k) l

theorem distinct_nodup {mask : Nat} {l : List Nat} (h : distinct mask l = true) :
    l.Nodup ∧ ∀ k ∈ l, mask.testBit k = false := by
  induction l generalizing mask with
  | nil => simp
  | cons x l ih =>
    simp only [distinct, Bool.and_eq_true, Bool.not_eq_true'] at h
    obtain ⟨h1, h2⟩ := ih h.2
    have h3 : ∀ k ∈ l, k ≠ x ∧ mask.testBit k = false := by
      intro k hk
      have := h2 k hk
      rw [Nat.testBit_or, Bool.or_eq_false_iff] at this
      refine ⟨?_, this.1⟩
      rintro rfl
      have h4 := this.2
      rw [Nat.testBit_shiftLeft] at h4
      simp at h4
    refine ⟨List.nodup_cons.mpr ⟨fun hx => (h3 x hx).1 rfl, h1⟩, ?_⟩
    intro k hk
    rcases List.mem_cons.mp hk with rfl | hk
    · exact h.1
    · exact (h3 k hk).2

theorem standardKeys_nodup : standardKeys.Nodup :=
  (distinct_nodup (mask := 0) (by decide +kernel)).1

theorem standardStringList_nodup : standardStringList.Nodup := by
  have h := standardKeys_nodup
  rw [← standardKeys_eq] at h
  exact List.Pairwise.of_map _ (fun _ _ h e => h (congrArg _ e)) h

theorem lookup_range_zip {α : Type} (l : List α) (s n k : Nat) (hn : l.length ≤ n) (hk : s ≤ k) :
    ((List.range' s n).zip l).lookup k = l[k - s]? := by
  induction l generalizing s n with
  | nil => simp
  | cons x l ih =>
    obtain ⟨n, rfl⟩ : ∃ m, n = m + 1 := ⟨n - 1, by simp at hn; omega⟩
    rw [List.range'_succ, List.zip_cons_cons, List.lookup_cons]
    by_cases h : k = s
    · subst h
      simp
    · have : (k == s) = false := by simpa using h
      rw [this, ih (s + 1) n (by simpa using hn) (by omega)]
      obtain ⟨m, rfl⟩ : ∃ m, k = s + m + 1 := ⟨k - s - 1, by omega⟩
      rw [show s + m + 1 - (s + 1) = m by omega, show s + m + 1 - s = m + 1 by omega]
      simp

theorem getStandardString_eq (id : UInt16) : getStandardString id = standardStringList[id.toNat]? := by
  unfold getStandardString
  rw [standardStrings_eq, List.range_eq_range', lookup_range_zip _ _ _ _ (by rw [standardStringList_length]) (by omega)]
  rfl

theorem lossy_decodes (bs : List UInt8) : Decodes bs (Utf8.lossy bs).toList := by
  unfold Utf8.lossy
  rw [String.toList_ofList]
  exact Utf8.chunks_decodes _ bs le_rfl

end PS
