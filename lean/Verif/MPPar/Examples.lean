import Verif.MPPar.Props
import Verif.MPPar.Invariance
import Verif.MPPar.Sample
import Verif.MPPar.Sparse
import Verif.MPPar.SparseMin
import Verif.Counter.Props
import Verif.IntDim.Props

/-!
# Instances of the theorems about parametric mutual proximity, the counter and the intrinsic dimension

Each theorem is applied to concrete arguments, so that its hypotheses are met; the conclusions are inferred.
-/

set_option autoImplicit false

namespace HubToolbox.MPPar

variable (F : Dists)

-- C26: three points on a line
example := C26_valid F line3 "distance" (Or.inr rfl) 30 none training3_ne

example := C26_monotone F line3 line3_symm (fun i j => line3 i j + 1) (fun i j => by rw [line3_symm]) "distance"
  (Or.inr rfl) 30 30 none none training3_ne training3_ne

-- C90
theorem symmetric_phi (x : ℝ) : symmetric.phi (-x) = 1 - symmetric.phi x := by
  show (if -x < 0 then (0 : ℝ) else if 0 < -x then 1 else 1 / 2) = 1 - (if x < 0 then 0 else if 0 < x then 1 else 1 / 2)
  rcases lt_trichotomy x 0 with h | h | h
  · simp [h, h.not_gt]
  · simp [h]; norm_num
  · simp [h, h.not_gt]

example := C90_duality symmetric symmetric_phi line3 30 none training3_ne

-- C92, C93
example := C92_held_out F line3 (Function.update line3 2 fun _ => 7) "distance" (Or.inr rfl) 30 (some [2])

example := C93_relabel F line3 line3_symm (Equiv.swap 0 2) "distance" (Or.inr rfl) 30 (some [2]) (some [0])
  (by intro i; fin_cases i <;> decide)

-- C95 - C98
example := C95_all F line3 line3_symm "distance" (Or.inr rfl) 3 30 1 (some [1])

example := C96_rows F (show 2 ≤ 3 by norm_num) (fun i (j : Fin 2) => line3 i (![0, 2] j)) ![0, 2] "distance" (Or.inr rfl)
  2 30 none (![1] : Fin 1 → Fin 3)

example := C97_formula F (show 2 ≤ 3 by norm_num) (fun i (j : Fin 2) => line3 i (![0, 2] j)) ![0, 2] "distance"
  (Or.inr rfl) 2 30 none (by decide)

example := C98_rejects F false (fun (i : Fin 3) (j : Fin 2) => line3 i (![0, 2] j)) "distance" 0 30 none (by norm_num)

example := C98_rejects_metric F false line3 "distances" (by unfold Spec.IsMetric; decide) 0 30 none

-- C99, C102: all similarities present
theorem sim3_present_std (j : Fin 3) : Spec.stdDev (Spec.present Finset.univ sim3 j) (fun c => sim3 c j) ≠ 0 := by
  rw [sim3_present]; exact sim3_std j

example := C99_valid_partial F (by norm_num) sim3 sim3_facts.1 sim3_facts.2.1 0 30 sim3_present_std

example := C102_training_partial F (by norm_num) sim3 sim3_facts.1 sim3_facts.2.1 0 30 (some [2])

-- C104
example := C104_rejects F (fun i j => 2 * sim3 i j) 0 (by rw [sim3_facts.1]; norm_num) "similarity" (Or.inl rfl) 0 30 none

-- C105 - C108
example := C105_kept_partial F (by norm_num) sim3 sim3_facts.1 2 (some [2])

example := C106_relabel_partial F (by norm_num) sim3 sim3_facts.1 (Equiv.swap 0 2) 0 2 (some [2]) (some [0])
  (by intro i; fin_cases i <;> decide)

theorem sim3_rowCount (i : Fin 3) : (2 : ℤ) < (Spec.rowCount sim3 i : ℤ) := by
  have h : Finset.univ.filter (fun c => sim3 i c ≠ 0) = Finset.univ := by
    ext c; simp [sim3_facts.2.2]
  unfold Spec.rowCount
  rw [h]
  norm_num

-- objects 0 and 1 are not similar
example := C107_missing_partial F (fun i j : Fin 2 => if i = j then (1 : ℝ) else 0) (by simp) 0 30 none 0 1 (by simp)
  (by simp)

example := C108_valid_partial F (by norm_num) sim3 sim3_facts.1 sim3_facts.2.1 2 sim3_rowCount
  (fun j => by rw [sim3_present, card3])
  (fun j => by
    rw [sim3_present]
    unfold Spec.meanOver
    refine div_pos ?_ (by rw [card3]; norm_num)
    refine Finset.sum_pos (fun c _ => ?_) (Finset.card_pos.1 (by rw [card3]; norm_num))
    fin_cases c <;> fin_cases j <;> norm_num [sim3])
  (fun j => by
    rw [sim3_present]
    unfold Spec.sampleVariance
    rw [card3]
    exact div_ne_zero (sim3_sq j) (by norm_num))

end HubToolbox.MPPar

namespace HubToolbox.Counter

/-- Two processes, one of which waits for the other. -/
def turns : List (Fin 2) :=
  [0, 0, 0, 1, 1, 1, 0, 0, 0, 1, 1, 1, 0, 0, 0, 1, 1, 1] ++ List.replicate 11 0 ++ List.replicate 11 1

example := C48_each_once 7 (fun _ : Fin 2 => [.inc 1]) (by simp) turns (by decide)

example := C48_default (fun _ : Fin 2 => [.inc 1]) (by simp) (by norm_num) turns (by decide)

example := C48_no_deadlock 7 (fun _ : Fin 2 => [.inc 1]) [0, 1, 0, 0] (by decide)

end HubToolbox.Counter

namespace HubToolbox.IntDim

variable (L : LexSort)

example := C50_scale L line4 line4_injective 3 (by norm_num) 2 3 "levina" "vector" 0

example := C109_formula_partial L line4 (by norm_num) line4_injective line4T line4_neighbours 3 3 (by norm_num) le_rfl
  (by norm_num) line4_different "levina" (Or.inl rfl) 0

-- the same points in a plane
example := C110_isometry L (m := 1) (m' := 2) (by norm_num) (by norm_num) line4 (fun i => ![0, line4 i 0]) (Equiv.refl _)
  (by intro i j; simp [Spec.dist, Fin.sum_univ_two]) 2 3 "levina" "vector" 0

example := C112_positive_partial L line4 (by norm_num) line4_injective line4T line4_neighbours 3 3 (by norm_num) le_rfl
  (by norm_num) line4_different "mackay" (Or.inr rfl) 0

end HubToolbox.IntDim
