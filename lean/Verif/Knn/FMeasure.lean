import Verif.Knn.Model
import Mathlib.Algebra.Order.Field.Basic
import Mathlib.Algebra.Order.BigOperators.Group.List
import Mathlib.Tactic.FieldSimp
import Mathlib.Tactic.Positivity
import Mathlib.Tactic.Linarith
import Mathlib.Tactic.Ring
import Mathlib.Data.Rat.Cast.Order

/-!
# Properties of the F-measures
-/

set_option autoImplicit false
set_option linter.unusedSectionVars false

namespace HubToolbox.Knn

variable {K : Type} [Field K] [LinearOrder K] [IsStrictOrderedRing K]

/-- **C47.** The F-measure is `2 TP / (2 TP + FP + FN)`. -/
theorem C47_dice (cm : Fin 2 → Fin 2 → ℕ) (_h : 0 < cm 1 1 + cm 0 1 + cm 1 0) :
    (f1Score cm : K) = 2 * (cm 1 1 : K) / (2 * (cm 1 1 : K) + (cm 0 1 : K) + (cm 1 0 : K)) := by
  unfold f1Score
  by_cases h0 : cm 1 1 = 0
  · simp [h0]
  · simp only [h0, if_false]
    have h1 : (0 : K) < cm 1 1 := by exact_mod_cast Nat.pos_of_ne_zero h0
    have h2 : (0 : K) ≤ cm 0 1 := Nat.cast_nonneg _
    have h3 : (0 : K) ≤ cm 1 0 := Nat.cast_nonneg _
    have h4 : (cm 1 1 : K) + cm 0 1 ≠ 0 := by positivity
    have h5 : (cm 1 1 : K) + cm 1 0 ≠ 0 := by positivity
    have h6 : 2 * (cm 1 1 : K) + cm 0 1 + cm 1 0 ≠ 0 := by positivity
    have h7 : (cm 1 1 : K) / (cm 1 1 + cm 0 1) + cm 1 1 / (cm 1 1 + cm 1 0)
        = cm 1 1 * (2 * cm 1 1 + cm 0 1 + cm 1 0) / ((cm 1 1 + cm 0 1) * (cm 1 1 + cm 1 0)) := by
      field_simp
      ring
    rw [h7]
    field_simp

/-- **C47.** Without true positives the F-measure is zero. -/
theorem C47_no_true_positive (cm : Fin 2 → Fin 2 → ℕ) (h : cm 1 1 = 0) : (f1Score cm : K) = 0 := by
  simp [f1Score, h]

/-- **C47.** The F-measure is in [0, 1]. -/
theorem C47_range (cm : Fin 2 → Fin 2 → ℕ) : 0 ≤ (f1Score cm : K) ∧ (f1Score cm : K) ≤ 1 := by
  by_cases h0 : cm 1 1 = 0
  · rw [C47_no_true_positive cm h0]; exact ⟨le_rfl, zero_le_one⟩
  · rw [C47_dice cm (by omega)]
    have h1 : (0 : K) < cm 1 1 := by exact_mod_cast Nat.pos_of_ne_zero h0
    have h2 : (0 : K) ≤ cm 0 1 := Nat.cast_nonneg _
    have h3 : (0 : K) ≤ cm 1 0 := Nat.cast_nonneg _
    refine ⟨by positivity, ?_⟩
    rw [div_le_one (by positivity)]
    linarith

/-- **C47.** The F-measure is one exactly for a perfect classification with a positive item. -/
theorem C47_perfect (cm : Fin 2 → Fin 2 → ℕ) :
    (f1Score cm : K) = 1 ↔ 0 < cm 1 1 ∧ cm 0 1 = 0 ∧ cm 1 0 = 0 := by
  by_cases h0 : cm 1 1 = 0
  · rw [C47_no_true_positive cm h0]
    constructor
    · intro h; exact absurd h.symm one_ne_zero
    · intro h; omega
  · rw [C47_dice cm (by omega)]
    have h1 : (0 : K) < cm 1 1 := by exact_mod_cast Nat.pos_of_ne_zero h0
    have h2 : (0 : K) ≤ cm 0 1 := Nat.cast_nonneg _
    have h3 : (0 : K) ≤ cm 1 0 := Nat.cast_nonneg _
    rw [div_eq_one_iff_eq (by positivity)]
    constructor
    · intro h
      have h4 : (cm 0 1 : K) = 0 := by linarith
      have h5 : (cm 1 0 : K) = 0 := by linarith
      exact ⟨Nat.pos_of_ne_zero h0, by exact_mod_cast h4, by exact_mod_cast h5⟩
    · rintro ⟨_, h4, h5⟩
      simp [h4, h5]

theorem sum_range_aux {β : Type} (l : List β) (f w : β → K) (hw : ∀ x ∈ l, 0 ≤ w x) (hf : ∀ x, 0 ≤ f x ∧ f x ≤ 1) :
    0 ≤ (l.map (fun x => f x * w x)).sum ∧ (l.map (fun x => f x * w x)).sum ≤ (l.map w).sum := by
  induction l with
  | nil => simp
  | cons a l ih =>
    have ih' := ih (fun x hx => hw x (by simp [hx]))
    have hwa := hw a (by simp)
    have hfa := hf a
    simp only [List.map_cons, List.sum_cons]
    have h1 := mul_nonneg hfa.1 hwa
    have h2 := mul_le_of_le_one_left hwa hfa.2
    exact ⟨by linarith [ih'.1], by linarith [ih'.2]⟩

/-- **C47.** The macro average of at least one class is in [0, 1], and is the mean. -/
theorem C47_macro (cms : List (Fin 2 → Fin 2 → ℕ)) (h : cms ≠ []) :
    ∃ v : K, f1Macro cms = .fin v ∧ 0 ≤ v ∧ v ≤ 1 ∧ v * cms.length = (cms.map f1Score).sum := by
  have hl : 0 < cms.length := List.length_pos_iff.2 h
  have hl' : (0 : K) < cms.length := by exact_mod_cast hl
  refine ⟨_, by unfold f1Macro; rw [if_neg hl.ne'], ?_⟩
  have := sum_range_aux cms (f1Score (K := K)) (fun _ => 1) (fun _ _ => zero_le_one) C47_range
  simp only [mul_one] at this
  have h2 : (cms.map (fun _ => (1 : K))).sum = cms.length := by simp
  rw [h2] at this
  refine ⟨div_nonneg this.1 hl'.le, ?_, div_mul_cancel₀ _ hl'.ne'⟩
  rw [div_le_one hl']
  exact this.2

/-- **C47.** The average weighted by the number of positive items is in [0, 1]; without positive items the call
fails. -/
theorem C47_weighted (cms : List (Fin 2 → Fin 2 → ℕ)) :
    ((∀ cm ∈ cms, cm 1 0 + cm 1 1 = 0) → f1Weighted (K := K) cms = .error .zeroDivisionError) ∧
    ((∃ cm ∈ cms, cm 1 0 + cm 1 1 ≠ 0) → ∃ v : K, f1Weighted cms = .ok v ∧ 0 ≤ v ∧ v ≤ 1 ∧
      v * ((cms.map (fun cm => cm 1 0 + cm 1 1)).sum : ℕ)
        = (cms.map (fun cm => f1Score cm * ((cm 1 0 + cm 1 1 : ℕ) : K))).sum) := by
  constructor
  · intro h
    unfold f1Weighted
    simp only
    rw [if_pos]
    rw [List.sum_eq_zero_iff]
    intro x hx
    obtain ⟨cm, hcm, rfl⟩ := List.mem_map.1 hx
    exact h cm hcm
  · rintro ⟨cm, hcm, hne⟩
    have hs : (cms.map (fun cm => cm 1 0 + cm 1 1)).sum ≠ 0 := by
      intro h0
      rw [List.sum_eq_zero_iff] at h0
      exact hne (h0 _ (List.mem_map_of_mem hcm))
    have hs' : (0 : K) < ((cms.map (fun cm => cm 1 0 + cm 1 1)).sum : ℕ) := by exact_mod_cast Nat.pos_of_ne_zero hs
    refine ⟨_, by unfold f1Weighted; simp only; rw [if_neg hs], ?_⟩
    have := sum_range_aux cms (f1Score (K := K)) (fun cm => ((cm 1 0 + cm 1 1 : ℕ) : K))
      (fun _ _ => Nat.cast_nonneg _) C47_range
    have h2 : (cms.map (fun cm => ((cm 1 0 + cm 1 1 : ℕ) : K))).sum
        = ((cms.map (fun cm => cm 1 0 + cm 1 1)).sum : ℕ) := by
      rw [Nat.cast_list_sum, List.map_map]
      rfl
    rw [h2] at this
    refine ⟨div_nonneg this.1 hs'.le, ?_, div_mul_cancel₀ _ hs'.ne'⟩
    rw [div_le_one hs']
    exact this.2

/-- **C47.** The micro average is in [0, 1] and is the F-measure of the summed counts. -/
theorem C47_micro (cms : List (Fin 2 → Fin 2 → ℕ)) :
    (0 ≤ (f1Micro cms : K) ∧ (f1Micro cms : K) ≤ 1) ∧
    (0 < (cms.map (fun cm => cm 1 1 + cm 0 1 + cm 1 0)).sum →
      (f1Micro cms : K) = 2 * ((cms.map (fun cm => cm 1 1)).sum : ℕ) /
        (2 * ((cms.map (fun cm => cm 1 1)).sum : ℕ) + ((cms.map (fun cm => cm 0 1)).sum : ℕ)
          + ((cms.map (fun cm => cm 1 0)).sum : ℕ))) := by
  refine ⟨C47_range _, ?_⟩
  intro h
  apply C47_dice
  simp only [← List.sum_map_add] at *
  exact h

example : (f1Score ![![5, 1], ![2, 3]] : ℚ) = 2 / 3 ∧ (f1Score ![![5, 0], ![0, 3]] : ℚ) = 1 := by
  constructor <;> simp [f1Score] <;> norm_num

end HubToolbox.Knn
