import Verif.Knn.Props
import Verif.Knn.TestSet
import Verif.Knn.RPrecisionProps
import Verif.Knn.FMeasure

/-!
# Instances of the theorems about kNN classification

Each theorem is applied to concrete arguments, so that its hypotheses are met; the conclusions are inferred.
-/

set_option autoImplicit false

namespace HubToolbox.Knn

open Spec

variable (srt : ArgSort (XR ℚ)) (o : ArgPart (XR ℚ)) (rnd : Rnd)

-- C42
example := C42_loo (n := 5) (by norm_num) srt o rnd false exLineD ![3, 3, 9, 9, 9] [1, 3] "distance" (Or.inl rfl)

example := C42_test_set (n := 5) (by norm_num) srt o rnd false exLineD ![3, 3, 9, 9, 9] [1, 3] "distance" (Or.inl rfl)
  [2, 4] (by decide)

-- C43
example := C43_dense_loo srt o rnd exLineD ![3, 3, 9, 9, 9] [1, 3] (by decide) "distance" (Or.inl rfl)

example := C43_predict srt rnd exLineD (fun i _ => (![3, 3, 9, 9, 9] : Fin 5 → ℤ) i : Fin 5 → Fin 1 → ℤ) [1, 3]
  (by decide) "distance" (Or.inl rfl)

example := C43_samples srt rnd (fun i (j : Fin 3) => exLineD i (![0, 2, 4] j)) ![3, 3, 9, 9, 9] [1, 2] (by decide)
  "distance" ![0, 2, 4]

example := C43_sparse_loo (n := 4) (by norm_num) srt o rnd exSparseD ![0, 0, 1, 1] [1, 2] (by decide)

-- C44: the label of object 2 is changed
example := C44_predict srt rnd exLineD (fun i _ => (![3, 3, 9, 9, 9] : Fin 5 → ℤ) i : Fin 5 → Fin 1 → ℤ)
  (fun i _ => (![3, 3, 3, 9, 9] : Fin 5 → ℤ) i) [1, 3] (by decide) "distance" (Or.inl rfl) 2 (by decide)
  (by
    have h1 : Set.range (allLabels (fun i _ => (![3, 3, 3, 9, 9] : Fin 5 → ℤ) i : Fin 5 → Fin 1 → ℤ)) = {3, 9} := by
      ext v
      simp only [Set.mem_range, Prod.exists, allLabels, Fin.exists_fin_succ, Set.mem_insert_iff, Set.mem_singleton_iff]
      simp [eq_comm]
    have h2 : Set.range (allLabels (fun i _ => (![3, 3, 9, 9, 9] : Fin 5 → ℤ) i : Fin 5 → Fin 1 → ℤ)) = {3, 9} := by
      ext v
      simp only [Set.mem_range, Prod.exists, allLabels, Fin.exists_fin_succ, Set.mem_insert_iff, Set.mem_singleton_iff]
      simp [eq_comm]
    rw [h1, h2])
  (by decide +kernel) (by decide +kernel)

example := C44_score srt o rnd exLineD ![3, 3, 9, 9, 9] ![3, 3, 3, 9, 9] [1, 3] (by decide) "distance" (Or.inl rfl) 2
  (by decide) (by decide) (by decide +kernel) (by decide +kernel)

-- C45: the training points come first
example := C45_partial srt o rnd exHeldD exHeldY [1, 3] (by decide) "distance" (Or.inl rfl) [2, 3] (by decide)
  (by decide)

example := C45_actual srt o rnd exHeldD exHeldY [1, 3] (by decide) "distance" (Or.inl rfl) [0, 3] (by decide)

example := C45_ignored srt o rnd exHeldD (fun _ x => if x.val < 2 then .fin 1 else .fin 5) exHeldY [1, 3] "distance"
  (Or.inl rfl) [0, 3] (by decide) (by decide +kernel)

-- C55: the labels are 0, 1, 2
example := C55_partial (C := 3) srt rnd (fun i j : Fin 3 => .fin (i.val + j.val : ℚ))
  (fun (i : Fin 3) (_ : Fin 1) => ((i.val : ℕ) : ℤ)) [1] (by decide) "distance" (Or.inl rfl) (by
    ext v
    simp only [Set.mem_range, Set.mem_ofPred_eq, allLabels, Prod.exists]
    constructor
    · rintro ⟨i, _, rfl⟩; have := i.isLt; omega
    · rintro ⟨h0, h3⟩
      exact ⟨⟨v.toNat, by omega⟩, 0, by simp [h0]⟩)

-- C56
example := C56_partial (n := 3) (by norm_num) srt o rnd
  ![![.fin 2, .fin 1, .fin 0], ![.fin 1, .fin 2, .fin 0], ![.fin 0, .fin 0, .fin 2]] ![0, 1, 0] ![1, 1, 0] [1]
  (by decide) 0 (by decide) (by decide) (by decide +kernel) (by decide +kernel) (by decide +kernel) (by decide +kernel)

-- C57
example := C57_metric_ignored (n := 4) (by norm_num) srt o rnd exSparseD ![0, 0, 1, 1] [1, 2] (some [2])

-- C59, C60
example := C59_exact o rnd exRS ![5, 6, 5] 1 ⟨0, 2, by decide, rfl⟩

example := C60_partial o rnd exRS ![5, 6, 5] 0 ⟨0, 2, by decide, rfl⟩

-- C47
example := C47_no_true_positive (K := ℚ) ![![5, 1], ![2, 0]] rfl

example := C47_macro (K := ℚ) [![![5, 1], ![2, 3]], ![![4, 0], ![1, 6]]] (by simp)

end HubToolbox.Knn
