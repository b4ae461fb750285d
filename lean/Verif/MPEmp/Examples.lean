import Verif.MPEmp.Props

/-!
# Instances of the theorems about empirical Mutual Proximity

Each theorem is applied to concrete arguments, so that its hypotheses are met; the conclusions are inferred.
-/

set_option autoImplicit false

namespace HubToolbox.MPEmp

theorem exD_symm : Spec.Symmetric exD := by intro i j; fin_cases i <;> fin_cases j <;> rfl

theorem exS_symm : Spec.Symmetric exS := by intro i j; fin_cases i <;> fin_cases j <;> rfl

variable (order order' : Order ℚ)

-- C20, C21
example := C20_valid_secondary_distance order exD false "distance" none 0 _ rfl

example := C20_off_diagonal_bound order exD false "similarity" none 0 _ rfl 0 1 (by decide)

example := C21_computes_definition order exD false "distance" none 0 _ rfl exD_symm 0 1

-- C22
example := C22_order_only order order' exD false true "distance" none none 0 3 _ _ (fun x => x + x)
  (fun _ _ h => add_lt_add h h) rfl rfl

example := C22_relabelling order order' exD false true "similarity" none none 0 3 _ _ (Equiv.swap 0 2) exD_symm rfl rfl 0 1

-- C23
example := C23_duality order order' exD false true none none 0 3 _ _ rfl rfl exD_symm 0 1 (by decide) (by decide +kernel)

-- C24: the sample consists of objects 2 and 0
example := C24_sample_values (fun i (j : Fin 2) => exD i (![2, 0] j)) (![2, 0] : Fin 2 → Fin 3) (by decide) "distance"
  (Or.inl rfl)

example := C24_sample_range (fun i (j : Fin 2) => exD i (![2, 0] j)) (![2, 0] : Fin 2 → Fin 3) (by decide) "similarity"
  (Or.inr rfl) _ rfl 1 0

example := C24_full_sample order exD false "distance" 0 _ exD_symm rfl

example := C24_test_rows (fun i (j : Fin 2) => exD i (![2, 0] j)) (![2, 0] : Fin 2 → Fin 3) (![1] : Fin 1 → Fin 3) (by decide)
  "distance" (Or.inl rfl) _ rfl

-- C25
example := C25_sparse_values exOrder exS 2 (List.reverse_perm _) exS_symm (by decide +kernel)

example := C25_sparse_eq_dense exOrder order' exS 2 (List.reverse_perm _) exS_symm (by decide +kernel) _ _ rfl rfl 0 1
  (by decide) (by decide +kernel) (by decide +kernel) (by decide +kernel) (by decide +kernel) (by decide +kernel)

example := C25_schedule_independent exOrder (fun _ S => pairs S) exS "similarity" none 2 (List.reverse_perm _) (List.Perm.refl _)

-- C51, C52
example := C51_mask_refused_partial order exD (fun _ _ : Fin 3 => (1 : ℚ)) false "distance" (Or.inl rfl) 0 [false, true, false]
  (by decide)

example := C52_min_nnz_boundary exOrder exS 2 (List.reverse_perm _) exS_symm _ rfl 3 1 (by decide) (by decide +kernel)

end HubToolbox.MPEmp
