import Verif.HubClass.Props
import Verif.HubClass.Neighbours
import Verif.Hubness.Props

/-!
# Instances of the theorems about the `Hubness` estimator

Each theorem is applied to concrete arguments, so that its hypotheses are met; the conclusions are inferred.
-/

set_option autoImplicit false

namespace HubToolbox.HubClass
open HubToolbox.Hubness (Rnd rowMajor)

/-- Distances `0, 1, 3` on a line. -/
def lineD : Fin 3 → Fin 3 → ℚ := ![![0, 1, 3], ![1, 0, 2], ![3, 2, 0]]

theorem lineD_fit (w : World ℚ) : ∃ fit : Fit ℚ,
    fitTransform w (exP 1 2 "precomputed") 64 true true (.dense 3 3 exD false) = .ok fit := by
  obtain ⟨fit, rows, h, -⟩ := C12_partial w (exP 1 2 "precomputed") 1 rfl 64 true 3 exD (by decide) (by decide +kernel)
  exact ⟨fit, h⟩

-- C09, C61, C62
example (w : World ℚ) := C09_statistics w (exP 1 2 "precomputed") 1 rfl le_rfl 64 true true (.dense 3 3 exD false)
  (by simp [Data.Canonical]) (by decide) _ (lineD_fit w).choose_spec

example (w : World ℚ) := C61_atkinson w (exP 1 2 "precomputed") 1 rfl le_rfl 64 true true (.dense 3 3 exD false)
  (by simp [Data.Canonical]) (by decide) _ (lineD_fit w).choose_spec

example (w : World ℚ) := C62_partial w (exP 1 2 "precomputed") 1 rfl le_rfl 64 true true (.dense 3 3 exD false)
  (by simp [Data.Canonical]) (by decide) _ (lineD_fit w).choose_spec

-- C10
example := C10_zero_iff (F := ℚ) [2, 0, 1] (by decide)

-- C11: another number of processes, batch size and option
example (w : World ℚ) := C11_batches w w rfl (exP 1 2 "euclidean") (⟨some 1, 2, "euclidean", 4⟩ : Params ℚ) rfl rfl rfl 64 2
  (by decide) (by decide) true false true false 3 1 lineX none

-- C12
example (w : World ℚ) := C12_partial w (exP 1 2 "precomputed") 1 rfl 64 true 3 exD (by decide) (by decide +kernel)

-- C63
example (w : World ℚ) := C63_partial w (exP 1 2 "euclidean") 1 rfl rfl 64 (by decide) true false 3 1 (by decide) lineX

-- C64
example (w : World ℚ) := C64_partial w (exP 1 2 "euclidean") 1 rfl rfl 64 (by decide) true false 3 1 lineX (by decide)
  (by decide +kernel)

example (w : World ℚ) := C64_given_Y w (exP 1 2 "euclidean") 1 rfl rfl 64 (by decide) true false 3 3 1 lineX dupX (by decide)

-- C65
example (w : World ℚ) (o : ArgPart (XR ℚ)) := C65_same_as_estimator w o (exP 1 2 "euclidean") 1 rfl rfl 64 (by decide) true
  false 3 1 lineX (by decide) (by decide +kernel) (fun x y => |x 0 - y 0|)
  (fun x y => ⟨abs_nonneg _, by simp [sq_abs]⟩) (by decide +kernel)

-- C66
example (w : World ℚ) (o : ArgPart (XR ℚ)) (rnd : Rnd) := C66_same_as_function w o rnd rowMajor (exP 1 2 "precomputed") 1 rfl
  64 true false 4 (by decide) 3 lineD (by decide) (by decide +kernel) (by decide +kernel)

-- C67
example := C67_partial (stdWorld ℚ) (exP 1 2 "precomputed") 1 rfl 64 false true 2 2 _ _
  C67_violated.choose_spec.choose_spec.2.1

end HubToolbox.HubClass
