import Verif.Cent.Props
import Verif.Cent.Weighted
import Verif.Cent.Local
import Verif.Cent.Localized

/-!
# Instances of the theorems about centering

Each theorem is applied to concrete arguments, so that its hypotheses are met; the conclusions are inferred.
-/

set_option autoImplicit false

namespace HubToolbox.Cent

open HubToolbox

/-! ### Global centering -/

-- C37: object 1 is held out
example := C37_zero_mean (by decide) (C37_formula pts (some [1]) (by decide)) 0

example := C37_idempotent (by decide) (C37_formula pts (some [1]) (by decide))

example := C37_differences (by decide) (C37_formula pts (some [1]) (by decide)) 0 1 1

example := C37_held_out (X := pts) (X' := Function.update pts 1 ![9, 9]) (mask := some [1]) (by decide)
  (by decide +kernel) (C37_formula _ _ (by decide)) (C37_formula _ _ (by decide))

example := C37_no_training (![![1, 0], ![3, 2]] : Fin 2 → Fin 2 → ℚ) (some [1, 0]) (by decide)

-- C38
example := C38_commutes "inner" (by decide) (C37_formula pts none (by decide))

example := C38_column_sums "inner" (by decide) (C38_gram pts "inner" (by decide)) 2

example := C38_row_sums "inner" (by decide) (C38_gram pts "inner" (by decide)) 2

example := C38_idempotent "inner" "inner" (by decide) (by decide) (C38_gram pts "inner" (by decide))

example := C38_finite (fun i j : Fin 4 => (i.val * j.val * j.val : ℚ)) "inner" (by decide)

-- C40, C79
example := C40_formula_test (fun i : Fin 2 => pts i.succ.succ) pts (by norm_num) (by norm_num) (by norm_num)

example := C40_symmetric pts _ (C40_formula pts (by norm_num) (by norm_num)) 0 3

example := C40_translation pts ![1, -7] (by norm_num) (by norm_num)

example := C40_features pts line (by norm_num)

example := C79_global_is_centering pts "inner" (by decide) (by norm_num) (by norm_num)

example := C79_zero_sum pts (by norm_num) (by norm_num)

/-! ### Weighted centering -/

theorem plane_ok : Spec.centroid (Spec.training 3 none) plane ≠ 0 ∧
    ∀ i, Spec.cosine (plane i) (Spec.centroid (Spec.training 3 none) plane) ≠ 1 := by
  refine ⟨?_, ?_⟩
  · rw [plane_centroid]
    intro h
    have := congrFun h 0
    norm_num at this
  · rw [plane_centroid]
    have key : ∀ (x : ℝ) (v : Fin 2 → ℝ), 0 < x → Spec.inner v ![1, 1] = x → Spec.inner v v = x ^ 2 →
        Spec.cosine v ![1, 1] ≠ 1 := by
      intro x v hx h1 h2 h
      unfold Spec.cosine Spec.norm at h
      rw [h1, h2, Real.sqrt_sq hx.le] at h
      have h3 : Spec.inner (![1, 1] : Fin 2 → ℝ) ![1, 1] = 2 := by norm_num [Spec.inner, Fin.sum_univ_two]
      rw [h3] at h
      have hs : (√2 : ℝ) = 1 := by
        have h2 : (√2 : ℝ) ≠ 0 := by positivity
        field_simp at h
        exact h.symm
      have := Real.sq_sqrt (show (0 : ℝ) ≤ 2 by norm_num)
      rw [hs] at this
      norm_num at this
    intro i
    fin_cases i
    · exact key 3 _ (by norm_num) (by norm_num [Spec.inner, plane, Fin.sum_univ_two])
        (by norm_num [Spec.inner, plane, Fin.sum_univ_two])
    · exact key 2 _ (by norm_num) (by norm_num [Spec.inner, plane, Fin.sum_univ_two])
        (by norm_num [Spec.inner, plane, Fin.sum_univ_two])
    · exact key 1 _ (by norm_num) (by norm_num [Spec.inner, plane, Fin.sum_univ_two])
        (by norm_num [Spec.inner, plane, Fin.sum_univ_two])

-- C39
example := C39_gamma_zero plane "cosine" (Or.inl rfl)

example := C39_formula plane 2 none plane_ne plane_ok.1 ⟨by norm_num, Or.inr plane_ok.2⟩

example := C39_convex_partial plane (-1) none plane_ne plane_ok.1 ⟨by norm_num, Or.inr plane_ok.2⟩

example := C39_mask_ignored plane "euclidean" (Or.inr rfl) (some [2])

example := C39_metric plane "manhattan" 1 none (by decide) (by decide)

-- C80
example := C80_negative_gamma_partial plane (-2) (by norm_num) none plane_ne plane_ok.1 plane_ok.2

/-! ### DisSim Local and localized centering -/

variable (w : SNN.World ℚ) (v : SNN.World ℝ)

-- C41
example := C41_formula w line 2 (by norm_num) (by norm_num) (by norm_num)

example := C41_formula_test w (![![2], ![7]] : Fin 2 → Fin 1 → ℚ) line 2 (by norm_num) (by norm_num) (by norm_num)
  (by norm_num)

example := C41_symmetric w line .float64 2 3 _
  ((C41_formula w line 2 (by norm_num) (by norm_num) (by norm_num)).choose_spec.2 3) 0 1

example := C41_diagonal w line .float64 2 3 _
  ((C41_formula w line 2 (by norm_num) (by norm_num) (by norm_num)).choose_spec.2 3) 1

example := C41_too_large w line .float64 4 1 (by norm_num)

example := C41_two_arguments_plain w line (by decide +kernel) (by norm_num) (by norm_num) 1

-- C82
example := C82_integer_partial w (![![0], ![1], ![3], ![4]] : Fin 4 → Fin 1 → ℤ) 1 le_rfl (by norm_num) (by norm_num)

-- C86, C87, C88
example := C86_scale v plane ![1, 2, 3] (by intro i; fin_cases i <;> norm_num) 2 1 1

example := C86_scale_test v plane plane ![1, 2, 3] (by intro i; fin_cases i <;> norm_num) (fun _ => 5)
  (fun _ => by norm_num) 2 1 1

example := C87_too_large v plane plane 4 1 1 (by norm_num) (by norm_num)

example := C88_kappa_n v plane plane (by norm_num) 1

end HubToolbox.Cent
