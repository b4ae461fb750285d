import Verif.LS.Props
import Verif.LS.Sample
import Verif.LS.Reject

/-!
# Instances of the theorems about Local Scaling and NICDM

Each theorem is applied to concrete arguments, so that its hypotheses are met; the conclusions are inferred. The environment
(number of CPUs, schedules, partial sorts) stays arbitrary.
-/

set_option autoImplicit false

namespace HubToolbox.LS

theorem kthSmallest_one {n : ℕ} {S : Finset (Fin n)} {x : Fin n → ℝ} (j : Fin n) {ρ : ℝ} (hj : j ∈ S) (hx : x j = ρ)
    (h : ∀ l ∈ S, ρ ≤ x l) : Spec.IsKthSmallest S x 1 ρ := by
  refine ⟨⟨j, hj, by rw [hx]⟩, ?_, ?_⟩
  · rw [Nat.lt_one_iff, Finset.card_eq_zero, Finset.filter_eq_empty_iff]
    intro l hl
    have := h l hl
    linarith
  · exact Finset.card_pos.2 ⟨j, by rw [Finset.mem_filter]; exact ⟨hj, hx.le⟩⟩

theorem nearest_one {n : ℕ} {S : Finset (Fin n)} {x : Fin n → ℝ} (j : Fin n) (hj : j ∈ S) (h : ∀ l ∈ S, x j ≤ x l) :
    Spec.IsNearest S x 1 {j} :=
  ⟨Finset.singleton_subset_iff.2 hj, Finset.card_singleton _, fun a ha b hb _ => by
    rw [Finset.mem_singleton.1 ha]; exact h b hb⟩

theorem line3_pos : ∀ i, 0 < (![1, 1, 2] : Fin 3 → ℝ) i := by intro i; fin_cases i <;> norm_num

theorem line3_nonneg : ∀ i j, 0 ≤ line3 i j := by intro i j; fin_cases i <;> fin_cases j <;> norm_num [line3]

/-- The nearest other point of each. -/
theorem line3_nearest : ∀ i, Spec.IsNearest ((Spec.training 3 none).erase i) (line3 i) 1 (![{1}, {0}, {1}] i) := by
  have ht : Spec.training 3 none = Finset.univ := by simp [Spec.training]
  rw [ht]
  intro i
  fin_cases i
  · refine nearest_one 1 (by decide) (fun l hl => ?_)
    fin_cases l <;> first | (exfalso; revert hl; decide) | norm_num [line3]
  · refine nearest_one 0 (by decide) (fun l hl => ?_)
    fin_cases l <;> first | (exfalso; revert hl; decide) | norm_num [line3]
  · refine nearest_one 1 (by decide) (fun l hl => ?_)
    fin_cases l <;> first | (exfalso; revert hl; decide) | norm_num [line3]

theorem line3_mean : ∀ i, 0 < Spec.meanOver ((![{1}, {0}, {1}] : Fin 3 → Finset (Fin 3)) i) (line3 i) := by
  intro i; fin_cases i <;> norm_num [Spec.meanOver, line3]

/-- Distances of the three points to the first two. -/
def first2 : Fin 3 → Fin 2 → ℝ := ![![0, 1], ![1, 0], ![3, 2]]

theorem first2_radii (idx : Fin 2 → Fin 3) (h : ∀ j, (idx j).val = j.val) :
    ∀ i, Spec.IsKthSmallest (Spec.otherColumns idx i) (first2 i) 1 ((![1, 1, 2] : Fin 3 → ℝ) i) := by
  obtain rfl : idx = ![0, 1] := by funext j; apply Fin.ext; rw [h]; fin_cases j <;> rfl
  intro i
  fin_cases i
  · refine kthSmallest_one 1 (by decide) (by norm_num [first2]) (fun l hl => ?_)
    fin_cases l <;> first | (exfalso; revert hl; decide) | norm_num [first2]
  · refine kthSmallest_one 0 (by decide) (by norm_num [first2]) (fun l hl => ?_)
    fin_cases l <;> first | (exfalso; revert hl; decide) | norm_num [first2]
  · refine kthSmallest_one 1 (by decide) (by norm_num [first2]) (fun l hl => ?_)
    fin_cases l <;> first | (exfalso; revert hl; decide) | norm_num [first2]

theorem first2_nearest : ∀ i, Spec.IsNearest (Spec.otherColumns (![0, 1] : Fin 2 → Fin 3) i) (first2 i) 1
    ((![{1}, {0}, {1}] : Fin 3 → Finset (Fin 2)) i) := by
  intro i
  fin_cases i
  · refine nearest_one 1 (by decide) (fun l hl => ?_)
    fin_cases l <;> first | (exfalso; revert hl; decide) | norm_num [first2]
  · refine nearest_one 0 (by decide) (fun l hl => ?_)
    fin_cases l <;> first | (exfalso; revert hl; decide) | norm_num [first2]
  · refine nearest_one 1 (by decide) (fun l hl => ?_)
    fin_cases l <;> first | (exfalso; revert hl; decide) | norm_num [first2]

variable (w w' : World)

-- C28, C68
example := C28_radii_exist_all line3 2 (by norm_num) (by norm_num)

example := C28_radii_exist line3 1 le_rfl (some [2]) (by decide)

example := C28_valid w line3 line3_symm 1 le_rfl none 4 (by norm_num) _ line3_radii line3_pos (by norm_num)

example := C68_no_nan_partial w line3 line3_symm 1 le_rfl none 4 (by norm_num) _ line3_radii line3_pos (by norm_num)

-- C29
example := C29_scale_invariant (c := 1 / 2) (by norm_num) w false 3 3 (toXR line3) 1 "distance" (some [2]) 4

-- C30, C70
example := C30_reversed_partial w sim4 sim4_symm 1 le_rfl (by norm_num) 4 (by norm_num) _ sim4_radii
  (by intro i; fin_cases i <;> norm_num) 0 1 0 2 (by decide) (by decide) rfl rfl (by norm_num [sim4]) (by change (1 : ℝ) < 2; norm_num)

example := C70_formula_partial w sim4 sim4_symm 1 le_rfl (by norm_num) 4 (by norm_num) _ sim4_radii
  (by intro i; fin_cases i <;> norm_num)

-- C31
example := C31_nicdm w w' false 3 3 (by norm_num) (toXR line3) 1 "distance" none 1 4

-- C32
example := C32_nearest_exist (line3 0) {1, 2} 1 (by decide)

example := C32_formula w line3 line3_symm 1 le_rfl none 4 _ line3_nearest line3_mean (by norm_num)

example := C32_valid w line3 line3_symm line3_nonneg 1 le_rfl none 4 _ line3_nearest line3_mean (by norm_num)

example := C32_scale (c := 1 / 2) (by norm_num) w (by norm_num) (toXR line3) 1 none 4

-- C33
example (o : ArgPart (XR ℝ)) := C33_local_scaling_test_partial o (by norm_num) first2 ![0, 1] 1 le_rfl (by norm_num)
  (![2] : Fin 1 → Fin 3) _ (first2_radii _ (by decide)) line3_pos

example (o : ArgPart (XR ℝ)) := C33_local_scaling_prefix_partial o (by norm_num) first2 1 le_rfl (by norm_num) _
  (first2_radii _ (fun _ => rfl)) line3_pos

example (o : ArgPart (XR ℝ)) := C33_nicdm_test_partial o (by norm_num) first2 ![0, 1] 1 le_rfl (by norm_num)
  (![2] : Fin 1 → Fin 3) _ first2_nearest (by intro i; fin_cases i <;> norm_num [Spec.meanOver, first2])

-- C69
example := C69_too_large_partial w (by norm_num) (toXR line3) 3 (some [2]) (by decide) 4

example (o : ArgPart (XR ℝ)) := C69_sample_too_large_partial o (by norm_num) (by norm_num) (toXR first2) ![0, 1] 3 (by norm_num)
  none

-- C71
example := C71_valid_partial w line3 2 (by norm_num) (by norm_num) 4 (by norm_num) "similarity" (Or.inr rfl)

-- C135
example := C135_square w false 3 2 (by decide) (toXR first2) 1 1 "distance" none 4

example := C135_metric w false 3 (toXR line3) 1 1 "euclidean" (by decide) (by decide) none 4

end HubToolbox.LS
