import Verif.Heap.Scaling
import Verif.Heap.Gammai

/-!
# Empirical and Gaussian Mutual Proximity with their in-place operations
-/

set_option autoImplicit false

namespace HubToolbox.Heap

open HubToolbox

section
variable {K : Type} [Field K] [LinearOrder K]

/-- Dense part of `_mutual_proximity_empiric_full` (`/repo/hub_toolbox/global_scaling.py` lines 271-299). -/
def empiricH (metric : String) {n : ℕ} (D : Arr n n) : M (XR K) (Arr n n) := do
  let D ← copy D
  modify D (fun V => Np.fillDiagonal V (MPEmp.excludeValue metric))
  let L ← new (fun _ _ => .fin 0)
  fillUpper ((List.finRange n).take (n - 1)) D L 1 (fun V i j => .fin (MPEmp.entry metric (V i) (V j) (V j i)))
  addTransposed L
  modify L (fun V => Np.fillDiagonal V (.fin (MPEmp.selfValue metric)))
  pure L

end

/-- `mutual_proximity_gaussi` for dense square matrices (`/repo/hub_toolbox/global_scaling.py` lines 610, 617-668): the diagonal is overwritten
by `nan`, and by the self value after the parameters have been estimated. -/
noncomputable def gaussiH (F : MPPar.Dists) (metric : String) {n : ℕ} (D : Arr n n) (train : List (Fin n)) : M (XR ℝ) (Arr n n) := do
  let D ← copy D
  modify D (fun V => Np.fillDiagonal V .nan)
  let V ← read D
  let mu := fun j => MPPar.nanmean (finVals V train j)
  let sd := fun j => MPPar.noZero (XR.sqrt (MPPar.nanvar 0 (finVals V train j)))
  modify D (fun V => Np.fillDiagonal V (MPPar.selfValue metric))
  let L ← new (fun _ _ => .fin 0)
  fillUpper (List.finRange n) D L 1 (fun V i j => MPPar.gaussEntry F metric (val (V i j)) (mu i) (sd i) (mu j) (sd j))
  addTransposed L
  modify L (fun V => Np.fillDiagonal V (MPPar.selfValue metric))
  pure L

end HubToolbox.Heap
