import Verif.MPPar.Model

/-!
# Sparse parametric Mutual Proximity with explicitly stored zeros

`Verif/MPPar/Model.lean` describes the functions for csr matrices without explicit zeros. Here `P i j` says whether there is a stored entry at
`(i, j)`; entries which are not stored are zero. Simplification: no column is stored twice in a row.
-/

set_option autoImplicit false

namespace HubToolbox.MPPar

open HubToolbox

/-- `S_param.getnnz(0) - 1` (`/repo/hub_toolbox/global_scaling.py` lines 702, 705, 877, 881, 976, 980): the number of stored entries. -/
noncomputable def colNnzStored {n : ℕ} (P : Fin n → Fin n → Bool) (train : List (Fin n)) (j : Fin n) : ℝ :=
  ((train.filter (fun i => P i j)).length : ℝ) - 1

/-- `(S_param.sum(0) - 1.) / (S_param.getnnz(0) - 1)`, of the `p`-th powers of the stored data
(`/repo/hub_toolbox/global_scaling.py` lines 702-705, 877-882, 976-981). -/
noncomputable def colMomentStored {n : ℕ} (p : ℕ) (P : Fin n → Fin n → Bool) (S : Fin n → Fin n → ℝ) (train : List (Fin n)) (j : Fin n) : XR ℝ :=
  XR.div (.fin ((train.map (fun i => if P i j then S i j ^ p else 0)).sum - 1)) (.fin (colNnzStored P train j))

/-- `E1 - mu**2` (`/repo/hub_toolbox/global_scaling.py` lines 705-708). -/
noncomputable def colVarStored {n : ℕ} (P : Fin n → Fin n → Bool) (S : Fin n → Fin n → ℝ) (train : List (Fin n)) (j : Fin n) : XR ℝ :=
  XR.sub (colMomentStored 2 P S train j) (XR.mul (colMomentStored 1 P S train j) (colMomentStored 1 P S train j))

/-- `va` (`/repo/hub_toolbox/global_scaling.py` lines 881-885, 980-984). -/
noncomputable def colVar1Stored {n : ℕ} (P : Fin n → Fin n → Bool) (S : Fin n → Fin n → ℝ) (train : List (Fin n)) (j : Fin n) : XR ℝ :=
  XR.mul (XR.div (.fin (colNnzStored P train j)) (.fin (colNnzStored P train j - 1))) (colVarStored P S train j)

/-- As `sparseFill`; rows with at most `minNnz` stored entries are kept (`/repo/hub_toolbox/global_scaling.py` lines 894-925, 996-1029). -/
noncomputable def sparseFillStored {n : ℕ} (minNnz : ℤ) (P : Fin n → Fin n → Bool) (S : Fin n → Fin n → ℝ) (f : Fin n → Fin n → XR ℝ) :
    Fin n → Fin n → XR ℝ :=
  let M := (List.finRange n).foldl (fun (M : Fin n → Fin n → XR ℝ) (i : Fin n) =>
    if (Np.countTrue (P i) : ℤ) ≤ minNnz then M
    else Np.setRowFrom M i i.val (fun j => if j = i then .fin (1 / 2) else f i j)) (fun _ _ => .fin 0)
  fun i j => if (Np.countTrue (P i) : ℤ) ≤ minNnz then .fin (S i j) else XR.add (M i j) (M j i)

/-- `_mutual_proximity_gaussi_sparse` (`/repo/hub_toolbox/global_scaling.py` lines 675-741). -/
noncomputable def gaussiStored (F : Dists) {n : ℕ} (P : Fin n → Fin n → Bool) (S : Fin n → Fin n → ℝ) (train : List (Fin n)) :
    Py (Fin n → Fin n → XR ℝ) :=
  open Classical in
  if badDiag S then .error .valueError
  else
    let mu := fun j => colMomentStored 1 P S train j
    let sd := fun j => XR.sqrt (colVarStored P S train j)
    .ok (sparseFillStored (-1) P S (fun i j => XR.mul (zeroMissing (S i j) (normCdf F (S i j) (mu i) (sd i)))
      (zeroMissing (S j i) (normCdf F (S j i) (mu j) (sd j)))))

/-- `_mutual_proximity_gammai_sparse` (`/repo/hub_toolbox/global_scaling.py` lines 851-925). -/
noncomputable def gammaiStored (F : Dists) {n : ℕ} (P : Fin n → Fin n → Bool) (S : Fin n → Fin n → ℝ) (minNnz : ℤ) (train : List (Fin n)) :
    Py (Fin n → Fin n → XR ℝ) :=
  open Classical in
  if badDiag S then .error .valueError
  else
    let mu := fun j => colMomentStored 1 P S train j
    let A := fun j => XR.div (XR.mul (mu j) (mu j)) (colVar1Stored P S train j)
    let B := fun j => XR.div (colVar1Stored P S train j) (mu j)
    .ok (sparseFillStored minNnz P S (fun i j => XR.mul (gamCdf F (S i j) (A i) (B i)) (gamCdf F (S j i) (A j) (B j))))

/-- `_mutual_proximity_gumbel_sparse` (`/repo/hub_toolbox/global_scaling.py` lines 956-1029). -/
noncomputable def gumbelStored {n : ℕ} (P : Fin n → Fin n → Bool) (S : Fin n → Fin n → ℝ) (minNnz : ℤ) (train : List (Fin n)) :
    Py (Fin n → Fin n → XR ℝ) :=
  open Classical in
  if badDiag S then .error .valueError
  else
    let sd := fun j => XR.sqrt (colVar1Stored P S train j)
    let beta := fun j => XR.div (XR.mul (sd j) (.fin √6)) (.fin Real.pi)
    let mu := fun j => XR.sub (colMomentStored 1 P S train j) (XR.mul (.fin Real.eulerMascheroniConstant) (beta j))
    .ok (sparseFillStored minNnz P S (fun i j => XR.mul (zeroMissing (S i j) (gumbelCdf (S i j) (mu i) (beta i)))
      (zeroMissing (S j i) (gumbelCdf (S j i) (mu j) (beta j)))))

end HubToolbox.MPPar
