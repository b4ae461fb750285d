import Verif.Hubness.Props

/-!
# Instances of the theorems about `hubness`

Each theorem of `Verif/Hubness/Props.lean` is applied to concrete arguments, so that its hypotheses are met; the conclusions
are inferred. The oracles (partial sorts, random numbers) stay arbitrary.
-/

set_option autoImplicit false

namespace HubToolbox.Hubness

variable (o o' : ArgPart (XR ℚ)) (rnd rnd' : Rnd)

theorem exD_serial (D : Fin 3 → Fin 3 → XR ℚ) (metric : String) (hm : metric = "distance" ∨ metric = "similarity") :
    ∃ r, hubnessMat o rnd rowMajor false D 2 metric 1 true true = .ok r :=
  (C01_hubness_succeeds_iff o rnd rowMajor false D 2 metric 1 true true (by simp [Covered])).2
    ⟨hm, by decide, by decide, by decide⟩

theorem exD_parallel (D : Fin 3 → Fin 3 → XR ℚ) (metric : String) (hm : metric = "distance" ∨ metric = "similarity") :
    ∃ r, hubnessMat o rnd reverseOrder false D 2 metric 4 false true = .ok r :=
  (C01_hubness_succeeds_iff o rnd reverseOrder false D 2 metric 4 false true (by simp [Covered])).2
    ⟨hm, by decide, by decide, by decide⟩

-- C01
example := C01_hubness_knn o rnd rowMajor false exD 2 "distance" 1 true true (by simp [Covered]) _
  (exD_serial o rnd exD "distance" (Or.inl rfl)).choose_spec 1

example := C01_hubness_argument o rnd rowMajor 2 "distance" 4 false true (by decide)

-- C02
example := C02_no_self_neighbour o rnd rowMajor false exD 2 "distance" 1 true true _
  (exD_serial o rnd exD "distance" (Or.inl rfl)).choose_spec 1 (by decide +kernel)

-- C03, C53: a rectangular matrix as well
example := C03_k_occurrence o rnd reverseOrder false exD 2 "distance" 4 false true (by simp [Covered]) _
  (exD_parallel o rnd exD "distance" (Or.inl rfl)).choose_spec

example := C03_k_occurrence o rnd reverseOrder false (fun (i : Fin 4) (j : Fin 3) => (.fin (i.val * j.val : ℚ) : XR ℚ)) 2
  "similarity" 4 false true (by simp [Covered]) _
  ((C01_hubness_succeeds_iff o rnd reverseOrder false (fun (i : Fin 4) (j : Fin 3) => (.fin (i.val * j.val : ℚ) : XR ℚ)) 2
    "similarity" 4 false true (by simp [Covered])).2 (by decide)).choose_spec

example := C53_skewness o rnd rowMajor false exD 1 "distance" 1 true true (by simp [Covered]) _
  ((C01_hubness_succeeds_iff o rnd rowMajor false exD 1 "distance" 1 true true (by simp [Covered])).2
    (by decide)).choose_spec

-- C04
example := C04_parallel_eq_serial o rnd reverseOrder false exD 2 "similarity" (-1) true (Or.inl rfl) (Or.inr rfl)

-- C05
example := C05_parallel_rectangular_similarity_partial o rnd reverseOrder false
  (fun (i : Fin 4) (j : Fin 3) => (.fin (i.val * j.val : ℚ) : XR ℚ)) 2 4 true (by decide) (by decide) (by decide)

-- C06: distances are doubled
example := C06_order_only o o' rnd rnd' rowMajor reverseOrder false false exD 2 "distance" 1 4 true false true true
  (by simp [Covered]) (by simp [Covered]) exD_tieFree (fun x => x + x) (fun _ _ h => add_lt_add h h) (Or.inl rfl) _ _
  (exD_serial o rnd exD "distance" (Or.inl rfl)).choose_spec (exD_parallel o' rnd' _ "distance" (Or.inl rfl)).choose_spec

-- C07: a cycle of the three objects
example := C07_relabelling o o' rnd rnd' rowMajor reverseOrder false false exD 2 "distance" 1 4 true false true true
  exD_tieFree (finRotate 3) _ _
  (exD_serial o rnd exD "distance" (Or.inl rfl)).choose_spec (exD_parallel o' rnd' _ "distance" (Or.inl rfl)).choose_spec

-- C08
example := C08_duality o o' rnd rnd' rowMajor reverseOrder false false exD 2 1 4 true false true true
  exD_tieFree _ _
  (exD_serial o rnd exD "distance" (Or.inl rfl)).choose_spec (exD_parallel o' rnd' _ "similarity" (Or.inr rfl)).choose_spec

end HubToolbox.Hubness
