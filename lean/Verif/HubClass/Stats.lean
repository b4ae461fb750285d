import Verif.HubClass.Lemmas
import Mathlib.Analysis.MeanInequalitiesPow
import Mathlib.Analysis.Convex.SpecificFunctions.Deriv
import Mathlib.Data.List.GetD

/-! Lemmas on the inequality indices. -/

set_option autoImplicit false

namespace HubToolbox.HubClass

open Spec Hubness

section
variable {F : Type} [Field F] [LinearOrder F]

omit [LinearOrder F] in
theorem foldl_add_eq {α : Type} (g : α → F) (l : List α) (a : F) :
    l.foldl (fun (acc : F) (i : α) => acc + g i) a = a + (l.map g).sum := by
  induction l generalizing a with
  | nil => simp
  | cons b l ih => rw [List.foldl_cons, ih, List.map_cons, List.sum_cons, add_assoc]

theorem range_map_getD {β : Type} (Nk : List ℕ) (g : ℕ → β) :
    (List.range Nk.length).map (fun i => g (Nk.getD i 0)) = Nk.map g := by
  apply List.ext_getElem
  · simp
  · intro i h1 h2
    simp at h1
    simp [h1]

omit [LinearOrder F] in
theorem sum_map_eq {β : Type} (Nk : List β) (g : β → F) :
    (Nk.map g).sum = ∑ i : Fin Nk.length, g (Nk.get i) := by
  rw [← List.sum_ofFn]
  congr 1
  apply List.ext_getElem <;> simp

omit [LinearOrder F] in
theorem cast_sum_eq (Nk : List ℕ) : ((Nk.sum : ℕ) : F) = ∑ i : Fin Nk.length, (Nk.get i : F) := by
  rw [← sum_map_eq Nk (fun x => (x : F))]
  exact Nat.cast_list_sum Nk

/-- The double sum. -/
def pairSum (F : Type) [Field F] [LinearOrder F] (Nk : List ℕ) : F :=
  ∑ i : Fin Nk.length, ∑ j : Fin Nk.length, |(Nk.get i : F) - (Nk.get j : F)|

theorem pairSum_swap (Nk : List ℕ) : pairSum F Nk
    = ∑ i : Fin Nk.length, ∑ j : Fin Nk.length, |(Nk.get j : F) - (Nk.get i : F)| := by
  unfold pairSum
  rw [Finset.sum_comm]

theorem giniMemory_eq (Nk : List ℕ) :
    (giniMemory Nk : F) = pairSum F Nk / (2 * Nk.length * ((Nk.sum : ℕ) : F)) := by
  unfold giniMemory
  simp only
  congr 1
  rw [foldl_add_eq, zero_add, range_map_getD Nk (fun (y : ℕ) => (Nk.map (fun (x : ℕ) => |(x : F) - (y : F)|)).sum),
    sum_map_eq, pairSum_swap]
  simp only [sum_map_eq]

theorem giniTime_eq (Nk : List ℕ) :
    (giniTime Nk : F) = pairSum F Nk / (2 * Nk.length * ((Nk.sum : ℕ) : F)) := by
  unfold giniTime
  simp only
  congr 1
  rw [List.flatMap_def, List.sum_flatten, List.map_map, sum_map_eq, pairSum_swap]
  simp only [Function.comp, sum_map_eq]

theorem giniNaive_eq (Nk : List ℕ) :
    (giniNaive Nk : F) = pairSum F Nk / (2 * Nk.length * ((Nk.sum : ℕ) : F)) := by
  unfold giniNaive
  simp only
  congr 1
  have : ∀ (i : ℕ) (acc : F), (List.range Nk.length).foldl (fun (acc : F) (j : ℕ) =>
      acc + |(Nk.getD i 0 : F) - (Nk.getD j 0 : F)|) acc
      = acc + (Nk.map (fun (x : ℕ) => |(Nk.getD i 0 : F) - (x : F)|)).sum := by
    intro i acc
    rw [foldl_add_eq, range_map_getD Nk (fun x => |(Nk.getD i 0 : F) - (x : F)|)]
  simp only [this]
  rw [foldl_add_eq, zero_add, range_map_getD Nk (fun (y : ℕ) => (Nk.map (fun (x : ℕ) => |(y : F) - (x : F)|)).sum),
    sum_map_eq]
  simp only [sum_map_eq, pairSum]

end

section
variable {F : Type} [Field F] [LinearOrder F] [IsStrictOrderedRing F]

/-- The denominators of the code and of the textbook definition agree. -/
theorem gini_spec (Nk : List ℕ) :
    pairSum F Nk / (2 * Nk.length * ((Nk.sum : ℕ) : F))
      = giniCoefficient (fun i : Fin Nk.length => (Nk.get i : F)) := by
  unfold giniCoefficient
  rw [← cast_sum_eq]
  change _ = pairSum F Nk / _ / _
  by_cases hn : (Nk.length : F) = 0
  · simp [hn]
  by_cases hs : ((Nk.sum : ℕ) : F) = 0
  · simp [hs]
  field_simp

theorem abs_sub_le_add (a b : F) (ha : 0 ≤ a) (hb : 0 ≤ b) : |a - b| ≤ a + b := by
  rw [abs_le]; constructor <;> linarith

theorem pairSum_nonneg (Nk : List ℕ) : 0 ≤ pairSum F Nk :=
  Finset.sum_nonneg (fun _ _ => Finset.sum_nonneg (fun _ _ => abs_nonneg _))

theorem length_pos_of_sum {Nk : List ℕ} (h : 0 < Nk.sum) : 0 < Nk.length := by
  cases Nk with
  | nil => simp at h
  | cons a l => simp

theorem exists_pos_of_sum {Nk : List ℕ} (h : 0 < Nk.sum) : ∃ i : Fin Nk.length, 0 < Nk.get i := by
  by_contra hc
  push Not at hc
  have h1 : Nk.sum = 0 := by
    rw [List.sum_eq_zero_iff]
    intro x hx
    obtain ⟨i, rfl⟩ := List.get_of_mem hx
    have := hc i
    omega
  omega

theorem pairSum_lt (Nk : List ℕ) (h : 0 < Nk.sum) :
    pairSum F Nk < 2 * Nk.length * ((Nk.sum : ℕ) : F) := by
  have h2 : ∑ i : Fin Nk.length, ∑ j : Fin Nk.length, ((Nk.get i : F) + (Nk.get j : F))
      = 2 * Nk.length * ((Nk.sum : ℕ) : F) := by
    simp only [Finset.sum_add_distrib, Finset.sum_const, Finset.card_univ, Fintype.card_fin,
      nsmul_eq_mul, cast_sum_eq, ← Finset.mul_sum]
    ring
  rw [← h2]
  obtain ⟨i, hi⟩ := exists_pos_of_sum h
  have hle : ∀ a b : Fin Nk.length, |(Nk.get a : F) - (Nk.get b : F)| ≤ (Nk.get a : F) + (Nk.get b : F) :=
    fun a b => abs_sub_le_add _ _ (Nat.cast_nonneg _) (Nat.cast_nonneg _)
  refine Finset.sum_lt_sum (fun a _ => Finset.sum_le_sum (fun b _ => hle a b)) ⟨i, Finset.mem_univ _, ?_⟩
  refine Finset.sum_lt_sum (fun b _ => hle i b) ⟨i, Finset.mem_univ _, ?_⟩
  rw [sub_self, abs_zero]
  have : (0 : F) < Nk.get i := by exact_mod_cast hi
  linarith

theorem pairSum_eq_zero_iff (Nk : List ℕ) :
    pairSum F Nk = 0 ↔ ∀ i j : Fin Nk.length, Nk.get i = Nk.get j := by
  unfold pairSum
  rw [Finset.sum_eq_zero_iff_of_nonneg (fun _ _ => Finset.sum_nonneg (fun _ _ => abs_nonneg _))]
  constructor
  · intro h i j
    have := (Finset.sum_eq_zero_iff_of_nonneg (fun _ _ => abs_nonneg _)).1 (h i (Finset.mem_univ _)) j
      (Finset.mem_univ _)
    rw [abs_eq_zero, sub_eq_zero] at this
    exact_mod_cast this
  · intro h i _
    refine Finset.sum_eq_zero (fun j _ => ?_)
    rw [h i j]; simp

theorem hood_eq (Nk : List ℕ) :
    (hood Nk : F) = hooverIndex (fun i : Fin Nk.length => (Nk.get i : F)) := by
  unfold hood hooverIndex
  simp only
  rw [← cast_sum_eq, sum_map_eq]
  by_cases hs : ((Nk.sum : ℕ) : F) = 0
  · simp [hs]
  field_simp

theorem hooverIndex_range (Nk : List ℕ) (h : 0 < Nk.sum) :
    0 ≤ hooverIndex (fun i : Fin Nk.length => (Nk.get i : F)) ∧
    hooverIndex (fun i : Fin Nk.length => (Nk.get i : F)) < 1 := by
  unfold hooverIndex
  rw [← cast_sum_eq]
  have hs : (0 : F) < ((Nk.sum : ℕ) : F) := by exact_mod_cast h
  have hn : (0 : F) < (Nk.length : F) := by exact_mod_cast length_pos_of_sum h
  have hmean : 0 < ((Nk.sum : ℕ) : F) / Nk.length := div_pos hs hn
  constructor
  · exact div_nonneg (Finset.sum_nonneg (fun _ _ => abs_nonneg _)) (by linarith)
  · rw [div_lt_one (by linarith)]
    set μ : F := ((Nk.sum : ℕ) : F) / Nk.length with hμ
    have h2 : ∑ i : Fin Nk.length, ((Nk.get i : F) + μ) = 2 * ((Nk.sum : ℕ) : F) := by
      rw [Finset.sum_add_distrib, ← cast_sum_eq, Finset.sum_const, Finset.card_univ, Fintype.card_fin,
        nsmul_eq_mul, hμ]
      field_simp
      ring
    rw [← h2]
    obtain ⟨i, hi⟩ := exists_pos_of_sum h
    refine Finset.sum_lt_sum (fun a _ => abs_sub_le_add _ _ (Nat.cast_nonneg _) hmean.le)
      ⟨i, Finset.mem_univ _, ?_⟩
    have : (0 : F) < Nk.get i := by exact_mod_cast hi
    rw [abs_lt]; constructor <;> linarith

theorem gini_range (Nk : List ℕ) (h : 0 < Nk.sum) :
    0 ≤ pairSum F Nk / (2 * Nk.length * ((Nk.sum : ℕ) : F)) ∧
    pairSum F Nk / (2 * Nk.length * ((Nk.sum : ℕ) : F)) < 1 := by
  have hs : (0 : F) < ((Nk.sum : ℕ) : F) := by exact_mod_cast h
  have hn : (0 : F) < (Nk.length : F) := by exact_mod_cast length_pos_of_sum h
  have hd : 0 < 2 * (Nk.length : F) * ((Nk.sum : ℕ) : F) := by positivity
  exact ⟨div_nonneg (pairSum_nonneg Nk) hd.le, (div_lt_one hd).2 (pairSum_lt Nk h)⟩

end

/-! ## Atkinson index -/

theorem atkinson_eq (Nk : List ℕ) : atkinson Nk = 1 - 1 / (((Nk.sum : ℕ) : ℝ) / Nk.length) *
    (∑ i : Fin Nk.length, (1 / (Nk.length : ℝ)) * (Nk.get i : ℝ) ^ (1 / 4 : ℝ)) ^ 4 := by
  unfold atkinson
  simp only
  rw [sum_map_eq, ← Finset.mul_sum]
  have h1 : (1 - 0.75 : ℝ) = 1 / 4 := by norm_num
  have h2 : (1 / (1 / 4) : ℝ) = ((4 : ℕ) : ℝ) := by norm_num
  rw [h1, h2, Real.rpow_natCast]
  congr 3
  ring

theorem quarter_pow (x : ℕ) : ((x : ℝ) ^ (1 / 4 : ℝ)) ^ 4 = x := by
  rw [← Real.rpow_natCast, ← Real.rpow_mul (Nat.cast_nonneg x)]
  norm_num

theorem mean_eq (Nk : List ℕ) : ((Nk.sum : ℕ) : ℝ) / Nk.length
    = ∑ i : Fin Nk.length, (1 / (Nk.length : ℝ)) * ((Nk.get i : ℝ) ^ (1 / 4 : ℝ)) ^ 4 := by
  simp only [quarter_pow]
  rw [← Finset.mul_sum, ← cast_sum_eq]
  ring

theorem weights_sum (Nk : List ℕ) (h : 0 < Nk.length) :
    ∑ _i : Fin Nk.length, (1 / (Nk.length : ℝ)) = 1 := by
  rw [Finset.sum_const, Finset.card_univ, Fintype.card_fin, nsmul_eq_mul]
  have : (Nk.length : ℝ) ≠ 0 := by positivity
  field_simp

theorem atkinson_range (Nk : List ℕ) (h : 0 < Nk.sum) : 0 ≤ atkinson Nk ∧ atkinson Nk < 1 := by
  have hn : (0 : ℝ) < (Nk.length : ℝ) := by exact_mod_cast length_pos_of_sum h
  have hs : (0 : ℝ) < ((Nk.sum : ℕ) : ℝ) := by exact_mod_cast h
  have hm : 0 < ((Nk.sum : ℕ) : ℝ) / Nk.length := div_pos hs hn
  rw [atkinson_eq]
  constructor
  · rw [sub_nonneg, one_div, inv_mul_le_iff₀ hm, mul_one]
    rw [mean_eq Nk]
    exact Real.pow_arith_mean_le_arith_mean_pow _ _ _ (fun _ _ => by positivity)
      (weights_sum Nk (length_pos_of_sum h)) (fun _ _ => by positivity) 4
  · rw [sub_lt_self_iff]
    apply mul_pos (by positivity)
    apply pow_pos
    obtain ⟨i, hi⟩ := exists_pos_of_sum h
    refine Finset.sum_pos' (fun j _ => by positivity) ⟨i, Finset.mem_univ _, ?_⟩
    have : (0 : ℝ) < Nk.get i := by exact_mod_cast hi
    positivity
theorem atkinson_eq_zero_iff (Nk : List ℕ) (h : 0 < Nk.sum) :
    atkinson Nk = 0 ↔ ∀ i j : Fin Nk.length, Nk.get i = Nk.get j := by
  have hn : (0 : ℝ) < (Nk.length : ℝ) := by exact_mod_cast length_pos_of_sum h
  have hs : (0 : ℝ) < ((Nk.sum : ℕ) : ℝ) := by exact_mod_cast h
  have hm : 0 < ((Nk.sum : ℕ) : ℝ) / Nk.length := div_pos hs hn
  rw [atkinson_eq, sub_eq_zero, one_div (((Nk.sum : ℕ) : ℝ) / Nk.length), eq_comm,
    inv_mul_eq_one₀ hm.ne', eq_comm, mean_eq Nk]
  have key := (strictConvexOn_pow (n := 4) (by norm_num)).map_sum_eq_iff_of_pos
    (t := (Finset.univ : Finset (Fin Nk.length))) (w := fun _ => 1 / (Nk.length : ℝ))
    (p := fun i => (Nk.get i : ℝ) ^ (1 / 4 : ℝ)) (fun _ _ => by positivity)
    (weights_sum Nk (length_pos_of_sum h)) (fun i _ => by
      simp only [Set.mem_Ici]; positivity)
  simp only [smul_eq_mul] at key
  rw [key]
  constructor
  · intro hall i j
    have := hall (Finset.mem_univ i) (Finset.mem_univ j)
    have h4 := congrArg (fun x : ℝ => x ^ 4) this
    simp only [quarter_pow] at h4
    exact_mod_cast h4
  · intro hall i _ j _
    simp only [hall i j]

end HubToolbox.HubClass
