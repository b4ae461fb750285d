import Verif.Rounding.Format
import Verif.GK.Model

/-!
# The Goodman-Kruskal index with rounding and machine integers
-/

set_option autoImplicit false

namespace HubToolbox.Rounding

variable {K : Type} [Field K] [LinearOrder K] {L : Type} [LinearOrder L]

/-- The int64 with the same remainder. All integer operations of the code are additions, subtractions and multiplications,
so reducing the final result amounts to reducing every intermediate result. -/
def int64 (x : ℤ) : ℤ := x.bmod (2 ^ 64)

/-- Loop over the classes: `Q_c` and `Q_d` are floats, `cc` and `dc` are int64
(`/repo/hub_toolbox/goodman_kruskal.py` lines 70-126). -/
def gkCounts (R : Rounding K) {n : ℕ} (D : Fin n → Fin n → XR K) (cls : Fin n → L) : XR K × XR K :=
  let other := GK.dOther D cls
  (Np.unique (List.ofFn cls)).foldl (fun (Q : XR K × XR K) (c : L) =>
    if (List.finRange n).countP (fun i => decide (cls i = c)) > 1 then
      let self := GK.dSelf D cls c
      let neq := GK.equidistant self other
      let cc := GK.concordant self other other.length
      let dc := (self.length : ℤ) * other.length - cc - neq
      (R.add Q.1 (R.rnd (int64 cc : K)), R.add Q.2 (R.rnd (int64 dc : K)))
    else Q) (.fin 0, .fin 0)

/-- Final value (`/repo/hub_toolbox/goodman_kruskal.py` lines 128-137). -/
def gkGamma (R : Rounding K) (metric : String) (Qc Qd : XR K) : XR K :=
  if R.add Qc Qd = .fin 0 then .fin 0
  else if metric = "similarity" then R.div (R.sub Qc Qd) (R.add Qc Qd)
  else R.div (R.sub Qd Qc) (R.add Qc Qd)

/-- `goodman_kruskal_index` (`/repo/hub_toolbox/goodman_kruskal.py` lines 19-137); sparse matrices as in `GK.index`. -/
def gkIndex (R : Rounding K) (D : PyMat (XR K)) (classes : PyVec L) (metric : String) : Py (XR K) := do
  let (sp, ⟨_, a, cls⟩) ← checkMatrixLabels D classes
  checkValidMetric metric
  if sp then
    if GK.hasPair cls then throw .valueError else pure (.fin 0)
  else
    let Q := R.gkCounts a cls
    pure (R.gkGamma metric Q.1 Q.2)

end HubToolbox.Rounding
