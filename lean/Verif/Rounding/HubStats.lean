import Verif.Rounding.HubStatsModel
import Verif.HubClass.Indices

/-!
# C279: statistics of the class `Hubness` in double precision
-/

set_option autoImplicit false

namespace HubToolbox.Rounding

open HubToolbox Ieee

/-! ### Integers -/

theorem wrap64_id {z : ℤ} (h0 : 0 ≤ z) (h1 : z < 2 ^ 63) : wrap64 z = z := by
  unfold wrap64
  rw [Int.bmod_eq_iff (by norm_num)]
  refine ⟨by omega, by omega, by simp⟩

/-- Sum of all differences. -/
def diffs (Nk : List ℕ) : ℤ := (Nk.flatMap (fun (y : ℕ) => Nk.map (fun (x : ℕ) => |(x : ℤ) - (y : ℤ)|))).sum

theorem sum_abs_le (l : List ℕ) (y : ℕ) : (l.map (fun (x : ℕ) => |(x : ℤ) - (y : ℤ)|)).sum ≤ l.sum + l.length * y := by
  induction l with
  | nil => simp
  | cons a l ih =>
    have : |(a : ℤ) - y| ≤ a + y := abs_le.2 ⟨by omega, by omega⟩
    simp only [List.map_cons, List.sum_cons, List.length_cons, Nat.cast_add, Nat.cast_one]
    linarith

theorem sum_abs_nonneg (l : List ℕ) (y : ℕ) : 0 ≤ (l.map (fun (x : ℕ) => |(x : ℤ) - (y : ℤ)|)).sum :=
  List.sum_nonneg fun z hz => by
    obtain ⟨x, -, rfl⟩ := List.mem_map.1 hz
    exact abs_nonneg _

theorem partial_diffs (Nk l : List ℕ) : 0 ≤ (l.flatMap (fun (y : ℕ) => Nk.map (fun (x : ℕ) => |(x : ℤ) - (y : ℤ)|))).sum ∧
    (l.flatMap (fun (y : ℕ) => Nk.map (fun (x : ℕ) => |(x : ℤ) - (y : ℤ)|))).sum ≤ l.length * Nk.sum + Nk.length * l.sum := by
  induction l with
  | nil => simp
  | cons a l ih =>
    have h1 := sum_abs_le Nk a
    have h2 := sum_abs_nonneg Nk a
    simp only [List.flatMap_cons, List.sum_append, List.sum_cons, List.length_cons, Nat.cast_add, Nat.cast_one]
    constructor
    · linarith [ih.1]
    · linarith [ih.2]

theorem diffs_nonneg (Nk : List ℕ) : 0 ≤ diffs Nk := (partial_diffs Nk Nk).1

theorem diffs_le (Nk : List ℕ) : diffs Nk ≤ 2 * Nk.length * Nk.sum := by
  have := (partial_diffs Nk Nk).2
  unfold diffs
  linarith

theorem giniTime_eq {Nk : List ℕ} (h : 2 * Nk.length * Nk.sum < 2 ^ 63) : giniTime Nk = diffs Nk :=
  wrap64_id (diffs_nonneg Nk) (lt_of_le_of_lt (diffs_le Nk) (by exact_mod_cast h))

theorem giniSpace_eq {Nk : List ℕ} (h : 2 * Nk.length * Nk.sum < 2 ^ 63) : giniSpace Nk = diffs Nk := by
  have hb : ((2 : ℤ) * Nk.length * Nk.sum) < 2 ^ 63 := by exact_mod_cast h
  have key : ∀ (l done : List ℕ), (∃ rest, Nk = done ++ l ++ rest) →
      l.foldl (fun (acc : ℤ) (y : ℕ) => wrap64 (acc + wrap64 ((Nk.map (fun (x : ℕ) => |(x : ℤ) - (y : ℤ)|)).sum)))
        (done.flatMap (fun (y : ℕ) => Nk.map (fun (x : ℕ) => |(x : ℤ) - (y : ℤ)|))).sum
      = ((done ++ l).flatMap (fun (y : ℕ) => Nk.map (fun (x : ℕ) => |(x : ℤ) - (y : ℤ)|))).sum := by
    intro l
    induction l with
    | nil => intro done _; simp
    | cons a l ih =>
      rintro done ⟨rest, hr⟩
      have hsum : ((done ++ [a]).flatMap (fun (y : ℕ) => Nk.map (fun (x : ℕ) => |(x : ℤ) - (y : ℤ)|))).sum
          = (done.flatMap (fun (y : ℕ) => Nk.map (fun (x : ℕ) => |(x : ℤ) - (y : ℤ)|))).sum + (Nk.map (fun (x : ℕ) => |(x : ℤ) - (a : ℤ)|)).sum := by
        simp
      have hlt : ((done ++ [a]).flatMap (fun (y : ℕ) => Nk.map (fun (x : ℕ) => |(x : ℤ) - (y : ℤ)|))).sum ≤ 2 * Nk.length * Nk.sum := by
        refine ((partial_diffs Nk (done ++ [a])).2).trans ?_
        have e : Nk = (done ++ [a]) ++ (l ++ rest) := by rw [hr]; simp
        have h1 : (done ++ [a]).length ≤ Nk.length := by
          conv_rhs => rw [e, List.length_append]
          omega
        have h2 : (done ++ [a]).sum ≤ Nk.sum := by
          conv_rhs => rw [e, List.sum_append]
          omega
        have h1' : (((done ++ [a]).length : ℕ) : ℤ) ≤ Nk.length := by exact_mod_cast h1
        have h2' : (((done ++ [a]).sum : ℕ) : ℤ) ≤ Nk.sum := by exact_mod_cast h2
        have := mul_le_mul_of_nonneg_right h1' (Int.natCast_nonneg Nk.sum)
        have := mul_le_mul_of_nonneg_left h2' (Int.natCast_nonneg Nk.length)
        linarith
      have h0 := (partial_diffs Nk done).1
      have h1 := sum_abs_nonneg Nk a
      rw [List.foldl_cons, wrap64_id h1 (by linarith), wrap64_id (by linarith) (by linarith), ← hsum, ih (done ++ [a]) ⟨rest, by rw [hr]; simp⟩]
      simp
  have e : giniSpace Nk = Nk.foldl (fun (acc : ℤ) (y : ℕ) => wrap64 (acc + wrap64 ((Nk.map (fun (x : ℕ) => |(x : ℤ) - (y : ℤ)|)).sum))) 0 := by
    unfold giniSpace
    have hl : (List.range Nk.length).map (fun i => Nk.getD i 0) = Nk := by
      have := HubClass.range_map_getD Nk (fun y => y)
      simpa using this
    conv_rhs => rw [← hl]
    rw [List.foldl_map]
    rw [hl]
  rw [e]
  have := key Nk [] ⟨[], by simp⟩
  simpa [diffs] using this

theorem diffs_cast (Nk : List ℕ) : ((diffs Nk : ℤ) : ℝ) = HubClass.pairSum ℝ Nk := by
  have h := HubClass.giniTime_eq (F := ℝ) Nk
  unfold diffs HubClass.pairSum
  rw [List.flatMap_def, List.sum_flatten, List.map_map, Int.cast_list_sum, List.map_map, HubClass.sum_map_eq, Finset.sum_comm]
  refine Finset.sum_congr rfl fun i _ => ?_
  simp only [Function.comp]
  rw [Int.cast_list_sum, List.map_map, HubClass.sum_map_eq]
  refine Finset.sum_congr rfl fun j _ => ?_
  simp

/-- Quotients of integers which are floats are rounded once. -/
theorem quot_int {a b : ℤ} (ha : |a| ≤ 2 ^ 53) (hb : |b| ≤ 2 ^ 53) (h0 : b ≠ 0) :
    (double.rounding ℝ).div ((double.rounding ℝ).rnd (a : ℝ)) ((double.rounding ℝ).rnd (b : ℝ)) = double.round ((a : ℝ) / b) := by
  have e1 : (double.rounding ℝ).rnd (a : ℝ) = .fin (a : ℝ) := round_int ha
  have e2 : (double.rounding ℝ).rnd (b : ℝ) = .fin (b : ℝ) := round_int hb
  rw [e1, e2]
  unfold div
  have hne : (b : ℝ) ≠ 0 := by exact_mod_cast h0
  simp only [XR.div, hne, if_false]
  rfl

theorem quot_nat {a b : ℕ} (ha : a ≤ 2 ^ 53) (hb : b ≤ 2 ^ 53) (h0 : b ≠ 0) :
    (double.rounding ℝ).div ((double.rounding ℝ).ofNat a) ((double.rounding ℝ).ofNat b) = double.round ((a : ℝ) / b) := by
  have := quot_int (a := a) (b := b) (by rw [abs_of_nonneg (Int.natCast_nonneg a)]; exact_mod_cast ha)
    (by rw [abs_of_nonneg (Int.natCast_nonneg b)]; exact_mod_cast hb) (by exact_mod_cast h0)
  simpa [ofNat] using this

/-- The Gini index is rounded once. -/
theorem gini_round {Nk : List ℕ} (h0 : 0 < Nk.length) (hs : 0 < Nk.sum) (h : 2 * Nk.length * Nk.sum ≤ 2 ^ 53) :
    (double.rounding ℝ).gini Nk = double.round (HubClass.gini Nk : ℝ) := by
  have h63 : 2 * Nk.length * Nk.sum < 2 ^ 63 := lt_of_le_of_lt h (by norm_num)
  unfold gini
  have e1 : (if Nk.length > 10000 then giniSpace Nk else giniTime Nk) = diffs Nk := by
    split
    · exact giniSpace_eq h63
    · exact giniTime_eq h63
  have e2 : wrap64 (2 * Nk.length * Nk.sum) = 2 * Nk.length * Nk.sum := wrap64_id (by positivity) (by exact_mod_cast h63)
  have hz : ((2 : ℤ) * Nk.length * Nk.sum) ≤ 2 ^ 53 := by exact_mod_cast h
  rw [e1, e2, quot_int]
  · refine congrArg double.round ?_
    have : (HubClass.gini Nk : ℝ) = HubClass.pairSum ℝ Nk / (2 * Nk.length * ((Nk.sum : ℕ) : ℝ)) := by
      unfold HubClass.gini
      split
      · exact HubClass.giniMemory_eq Nk
      · exact HubClass.giniTime_eq Nk
    have e3 : (((2 : ℤ) * Nk.length * Nk.sum : ℤ) : ℝ) = 2 * Nk.length * ((Nk.sum : ℕ) : ℝ) := by
      simp only [Int.cast_mul, Int.cast_natCast, Int.cast_ofNat]
    simp only [this, diffs_cast, e3]
  · rw [abs_of_nonneg (diffs_nonneg Nk)]
    exact (diffs_le Nk).trans hz
  · rw [abs_of_nonneg (by positivity)]
    exact hz
  · have h0' : (0 : ℤ) < Nk.length := by exact_mod_cast h0
    have hs' : (0 : ℤ) < Nk.sum := by exact_mod_cast hs
    positivity

end HubToolbox.Rounding
