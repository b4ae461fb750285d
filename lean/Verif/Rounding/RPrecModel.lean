import Verif.Rounding.Format
import Verif.Knn.RPrecision

/-!
# R-precision with rounding

Similarities are only compared, so that the neighbours are those of `Verif/Knn/RPrecision.lean`; precisions and their averages are floats. The returned
labels are left out.
-/

set_option autoImplicit false

namespace HubToolbox.Rounding

variable {K : Type} [Field K] [LinearOrder K]

/-- `_r_prec_worker` (`/repo/hub_toolbox/knn_classification.py` lines 468-525), first return value: the quotient of two integers. -/
def rItem (R : Rounding K) (o : ArgPart (XR K)) (rnd : Knn.Rnd) {n : ℕ} (S : Fin n → Fin n → XR K) (y : Fin n → ℤ) (i : Fin n) : XR K :=
  let rel := Knn.relevant y i
  if rel = 0 then .fin 0
  else
    let correct := ((Knn.rNeighbours o rnd S rel i).map y).countP (fun v => decide (v = y i))
    if correct = 0 then .fin 0 else R.div (R.ofNat correct) (R.ofNat rel)

/-- Return value of `r_precision`. -/
structure RFloat (K : Type) (n : ℕ) where
  macroAvg : XR K
  weighted : XR K
  perItem : Fin n → XR K
  relevantItems : Fin n → ℕ

/-- `r_precision` (`/repo/hub_toolbox/knn_classification.py` lines 528-644). `np.average` multiplies values and weights, and divides the sum of the products by
the sum of the weights; it raises if this is zero (line 639). -/
def rPrecision (R : Rounding K) (sum : List (XR K) → XR K) (o : ArgPart (XR K)) (rnd : Knn.Rnd) (S : PyMat (XR K)) (target : PyVec ℤ)
    (metric : String) : Py (Σ n, RFloat K n) := do
  let (sp, ⟨n, a, y⟩) ← checkMatrixLabels S target
  checkValidMetric metric
  if metric ≠ "similarity" ∨ sp = false then throw .notImplementedError
  let r := R.rItem o rnd a y
  let wsum := sum ((List.finRange n).map (fun i => R.ofNat (Knn.relevant y i)))
  if wsum = .fin 0 then throw .zeroDivisionError
  pure ⟨n,
    { macroAvg := R.div (sum ((List.finRange n).map r)) (R.ofNat n)
      weighted := R.div (sum ((List.finRange n).map (fun i => R.mul (r i) (R.ofNat (Knn.relevant y i))))) wsum
      perItem := r
      relevantItems := Knn.relevant y }⟩

end HubToolbox.Rounding
