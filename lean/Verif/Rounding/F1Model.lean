import Verif.Rounding.Format
import Verif.Knn.Model

/-!
# F-measures with rounding
-/

set_option autoImplicit false

namespace HubToolbox.Rounding

variable {K : Type} [Field K] [LinearOrder K]

/-- `f1_score` (`/repo/hub_toolbox/knn_classification.py` lines 646-673); the counts are integers, whose sums are exact. -/
def f1Score (R : Rounding K) (cm : Fin 2 → Fin 2 → ℕ) : XR K :=
  if cm 1 1 = 0 then .fin 0
  else
    let precision := R.div (R.ofNat (cm 1 1)) (R.ofNat (cm 1 1 + cm 0 1))
    let recall := R.div (R.ofNat (cm 1 1)) (R.ofNat (cm 1 1 + cm 1 0))
    R.div (R.mul (R.mul (.fin 2) precision) recall) (R.add precision recall)

/-- `f1_macro` (`/repo/hub_toolbox/knn_classification.py` lines 675-690). -/
def f1Macro (R : Rounding K) (sum : List (XR K) → XR K) (cms : List (Fin 2 → Fin 2 → ℕ)) : XR K :=
  R.div (sum (cms.map R.f1Score)) (R.ofNat cms.length)

/-- `f1_weighted` (`/repo/hub_toolbox/knn_classification.py` lines 692-707); `np.average` raises if the weights sum to zero. -/
def f1Weighted (R : Rounding K) (sum : List (XR K) → XR K) (cms : List (Fin 2 → Fin 2 → ℕ)) : Py (XR K) :=
  let w := cms.map (fun cm => R.ofNat (cm 1 0 + cm 1 1))
  if sum w = .fin 0 then .error .zeroDivisionError
  else .ok (R.div (sum (cms.map (fun cm => R.mul (R.f1Score cm) (R.ofNat (cm 1 0 + cm 1 1))))) (sum w))

/-- `f1_micro` (`/repo/hub_toolbox/knn_classification.py` lines 709-724). -/
def f1Micro (R : Rounding K) (cms : List (Fin 2 → Fin 2 → ℕ)) : XR K :=
  R.f1Score (fun a b => (cms.map (fun cm => cm a b)).sum)

end HubToolbox.Rounding
