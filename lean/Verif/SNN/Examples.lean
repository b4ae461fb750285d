import Verif.SNN.Props
import Verif.SNN.Sample
import Verif.SNN.SimhubProps
import Verif.SNN.SimhubClasses
import Verif.SNN.SimhubSample

/-!
# Instances of the theorems about shared nearest neighbours and simhub

Each theorem is applied to concrete arguments, so that its hypotheses are met; the conclusions are inferred.
-/

set_option autoImplicit false

namespace HubToolbox.SNN

variable (w w' : World ℚ)

-- C33: training points 1, 2, 3 of four points on a line
example := C33_snn_test_partial w (by norm_num) (fun i (j : Fin 3) => .fin (line4 i j.succ)) _ Fin.succ
  (Fin.succ_injective 3) (fun _ _ _ => rfl) 2 (by norm_num) (by norm_num) "distance" (Or.inl rfl) (![0] : Fin 1 → Fin 4) 4

example := C33_snn_all_partial w (by norm_num) (fun i (j : Fin 3) => .fin (line4 i j.succ)) _ Fin.succ
  (Fin.succ_injective 3) (fun _ _ _ => rfl) 2 (by norm_num) (by norm_num) "similarity" (Or.inr rfl) 4

-- C34
example := C34_formula w (fun i j => .fin (line4 i j)) _ (fun _ _ _ => rfl) 2 (by norm_num) (by norm_num) "distance"
  (Or.inl rfl) 4

example := C34_valid w (fun i j => .fin (line4 i j)) _ (fun _ _ _ => rfl) 2 (by norm_num) (by norm_num) "similarity"
  (Or.inr rfl) 4

example := C34_sum_one w w' line4 (fun i j => -line4 i j) (by decide +kernel) (by decide +kernel) 2 (by norm_num) (by norm_num)
  1 4

example := C34_parallel (revWorld ℚ) { revWorld ℚ with cpu := 7, cpu_pos := by norm_num } rfl (.mat false 4 4 (fun i j => .fin (line4 i j))) 2
  "distance" 1 (-1)

-- C72, C73
example := C72_order_invariant w w' line4 (fun i j => line4 i j * line4 i j) (by decide +kernel) (by decide +kernel) 2
  (by norm_num) (by norm_num) "distance" (Or.inl rfl) 1 4

example := C73_partial w (by norm_num) (fun i j => .fin (line4 i j)) 4 "distance" (by decide) 1

-- C35
example (w : World ℝ) := C35_valid w (fun i j => .fin (star6 i j : ℝ)) _ (fun _ _ _ => rfl) 2 (by norm_num) (by norm_num) true 4

example (w : World ℝ) := C35_same w { w with cpu := 7, cpu_pos := by norm_num } rfl (fun i j => .fin (star6 i j : ℝ)) _ (fun _ _ _ => rfl) 2
  (by norm_num) (by norm_num) true 4 0

-- C36, C77
example (w : World ℝ) := C36_upper_partial w (fun i j => .fin (star6 i j : ℝ)) _ (fun _ _ _ => rfl) ![0, 1, 2, 3, 0, 0]
  (by decide) 2 (by norm_num) (by norm_num) true 0

example (w : World ℝ) := C36_violated_classes w (show 3 ≤ 7 by norm_num) 0

example (w : World ℝ) := C77_partial w (fun i j => .fin (star6 i j : ℝ)) _ (fun _ _ _ => rfl) ![0, 1, 2, 3, 0, 0]
  (by decide) 2 (by norm_num) (by norm_num) true 0

-- C75: the last row differs, the result for object 2 does not
example (w : World ℝ) (D : Fin 4 → Fin 2 → XR ℝ) (v : Fin 2 → XR ℝ) := C75_partial w (show 2 ≤ 4 by norm_num)
  D (Function.update D 3 v) 1 le_rfl (by norm_num) (![2, 3] : Fin 2 → Fin 4) 0
  (fun j => (Function.update_of_ne (by revert j; decide) _ _).symm) (Function.update_of_ne (by decide) _ _).symm true 0

example (w : World ℝ) := C75_formula_partial w { w with cpu := 7, cpu_pos := by norm_num } rfl (show 2 ≤ 3 by norm_num)
  (fun i j => .fin ((![![0, 1], ![1, 0], ![3, 4]] : Fin 3 → Fin 2 → ℝ) i j)) _ (fun _ _ _ => rfl) 1 le_rfl (by norm_num)
  (![2] : Fin 1 → Fin 3) true 0 1

-- C76
example (w : World ℝ) := C76_simhub_partial w (fun i j => .fin (star6 i j : ℝ)) none none 6 (by decide) true 0

end HubToolbox.SNN
