import Verif.Rounding.SumError
import Verif.Knn.Props

/-!
# Accuracies of k-nearest-neighbour classification with rounding

`score` as in `Verif/Knn/Model.lean`; accuracies are sums of rounded quotients. Nothing else in `score` is computed with floats
(distances are only compared), so all other results are taken from there.
-/

set_option autoImplicit false

namespace HubToolbox.Rounding

variable {K : Type} [Field K] [LinearOrder K]

/-- `acc[j] += 1/n` for each query classified correctly (`/repo/hub_toolbox/knn_classification.py` lines 140, 235-246), where
`corr[j, i]` becomes one in the same branches. Python rounds the quotient of two integers correctly. -/
def accuracy (R : Rounding K) {n : ℕ} (queries : List (Fin n)) (corr : Fin n → ℕ) : XR K :=
  queries.foldl (fun acc i => if corr i = 1 then R.add acc (R.rnd (1 / (queries.length : K))) else acc) (.fin 0)

/-- `score` (`/repo/hub_toolbox/knn_classification.py` lines 25-255). -/
def score (R : Rounding K) (srt : Knn.ArgSort (XR K)) (o : ArgPart (XR K)) (rnd : Knn.Rnd) (D : PyMat (XR K))
    (target : PyVec ℤ) (k : Knn.KArg) (metric : String) (test : Option (List ℕ)) : Py (Σ n, Knn.Res (XR K) n) := do
  let ⟨n, r⟩ ← Knn.score srt o rnd D target k metric test
  let queries ← match test with
    | none => pure (List.finRange n)
    | some T => Knn.toFins n T
  pure ⟨n, ⟨r.nClasses, r.perK.map (fun q => ⟨R.accuracy queries q.corr, q.corr, q.cmat⟩)⟩⟩

end HubToolbox.Rounding
