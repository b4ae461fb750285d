import Verif.Rounding.Format
import Verif.MPPar.Model

/-!
# Sparse Mutual Proximity with results in single precision

The Gamma and Gumbel variants store their results in a matrix of type float32 (`/repo/hub_toolbox/global_scaling.py` lines 894 and 996). The values
are computed as in `Verif/MPPar/Model.lean`; `R` is the rounding to single precision.
-/

set_option autoImplicit false

namespace HubToolbox.MPPar

open HubToolbox

/-- As `sparseFill`, into a matrix of rounded values: `lil_matrix(S.shape, dtype=np.float32)`, the assignments to its rows, `S_mp += S_mp.T` and the rows
of objects with too few neighbours (`/repo/hub_toolbox/global_scaling.py` lines 894-925, 996-1029). -/
noncomputable def sparseFillSingle (R : Rounding ℝ) {n : ℕ} (minNnz : ℤ) (S : Fin n → Fin n → ℝ) (f : Fin n → Fin n → XR ℝ) :
    Fin n → Fin n → XR ℝ :=
  let M := (List.finRange n).foldl (fun (M : Fin n → Fin n → XR ℝ) (i : Fin n) =>
    if (MPEmp.nnz (S i) : ℤ) ≤ minNnz then M
    else Np.setRowFrom M i i.val (fun j => R.up (if j = i then .fin (1 / 2) else f i j))) (fun _ _ => .fin 0)
  fun i j => if (MPEmp.nnz (S i) : ℤ) ≤ minNnz then R.up (.fin (S i j)) else R.add (M i j) (M j i)

/-- `_mutual_proximity_gammai_sparse` (`/repo/hub_toolbox/global_scaling.py` lines 851-925). -/
noncomputable def gammaiSingle (R : Rounding ℝ) (F : Dists) {n : ℕ} (S : Fin n → Fin n → ℝ) (minNnz : ℤ) (train : List (Fin n)) :
    Py (Fin n → Fin n → XR ℝ) :=
  open Classical in
  if badDiag S then .error .valueError
  else
    let mu := fun j => colMoment 1 S train j
    let A := fun j => XR.div (XR.mul (mu j) (mu j)) (colVar1 S train j)
    let B := fun j => XR.div (colVar1 S train j) (mu j)
    .ok (sparseFillSingle R minNnz S (fun i j => XR.mul (gamCdf F (S i j) (A i) (B i)) (gamCdf F (S j i) (A j) (B j))))

/-- `_mutual_proximity_gumbel_sparse` (`/repo/hub_toolbox/global_scaling.py` lines 956-1029). -/
noncomputable def gumbelSingle (R : Rounding ℝ) {n : ℕ} (S : Fin n → Fin n → ℝ) (minNnz : ℤ) (train : List (Fin n)) :
    Py (Fin n → Fin n → XR ℝ) :=
  open Classical in
  if badDiag S then .error .valueError
  else
    let sd := fun j => XR.sqrt (colVar1 S train j)
    let beta := fun j => XR.div (XR.mul (sd j) (.fin √6)) (.fin Real.pi)
    let mu := fun j => XR.sub (colMoment 1 S train j) (XR.mul (.fin Real.eulerMascheroniConstant) (beta j))
    .ok (sparseFillSingle R minNnz S (fun i j => XR.mul (zeroMissing (S i j) (gumbelCdf (S i j) (mu i) (beta i)))
      (zeroMissing (S j i) (gumbelCdf (S j i) (mu j) (beta j)))))

end HubToolbox.MPPar
