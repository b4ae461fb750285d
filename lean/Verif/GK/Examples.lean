import Verif.GK.Props

/-!
# Instances of the theorems about the Goodman-Kruskal index

Each theorem is applied to concrete arguments, so that its hypotheses are met; the conclusions are inferred.
-/

set_option autoImplicit false

namespace HubToolbox.GK

-- C14
example := C14_naive_is_definition false exT exC "distance" (Or.inl rfl)

example := C14_index_is_definition exT exC "distance" (Or.inl rfl) (by decide +kernel) (by decide +kernel)

example := (C14_sparse_argument exT exC "distance" (Or.inl rfl)).1 ⟨0, 1, by decide, by decide⟩

example : index (.mat true 2 2 (fun _ _ => .fin (1 : ℚ))) (.vec 2 ![3, 5]) "distance" = .ok 0 :=
  (C14_sparse_argument _ _ _ (Or.inl rfl)).2 (by decide)

-- C15
example := C15_bounded exT exC "distance" (2 / 6) (by decide +kernel)

example : index (.mat false 4 4 exD) (.vec 4 exC) "distance" = .ok 1 ∧
    index (.mat false 4 4 exD) (.vec 4 exC) "similarity" = .ok (-1) :=
  (C15_extreme exD exC (by decide +kernel)).1 (by decide +kernel)

-- C16
example := C16_metric_flip exT exC (2 / 6) (by decide +kernel)

example := C16_order_only exT exC "distance" (fun x => x + x) (fun _ _ h => add_lt_add h h)

example := C16_duality exT exC (by decide +kernel) (by decide +kernel)

-- C17: other class numbers; other numbers of the objects
example := C17_renaming exT exC (fun l => if l = 7 then (0 : ℤ) else l + 1)
  (fun a b h => by dsimp only at h; split_ifs at h <;> omega) "distance"

example := C17_relabelling exT exC "distance" (Equiv.swap 0 2) (by decide +kernel)

-- C18, C19, C54
example := C18_sparse_eq_dense (by decide) exS exC "similarity" (by decide +kernel) (by decide +kernel)

example := C19_zero_missing (by decide) exS exC "similarity" (Or.inr rfl)

example := C54_heuristic (by decide) exS exC false (by decide +kernel) (2 / 3) (1 / 4) (by decide +kernel) (by decide +kernel)

end HubToolbox.GK
