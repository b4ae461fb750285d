import Verif.Knn.Model

/-!
# Model of R-precision (`hub_toolbox/knn_classification.py`, lines 451-644)

Processes, progress messages, and the counter of random predictions are not modelled: `pool.imap` returns the results
in order, whatever `n_jobs` is. Labels are encoded and decoded by a bijection in the code, and kept here; the label
`int(nan)` used for misclassifications is `none` and is assumed not to be a label.
-/

set_option autoImplicit false

namespace HubToolbox.Knn

variable {K : Type}

/-- `relevant_items[y[i]]` (`/repo/hub_toolbox/knn_classification.py` line 594): other points with the label of `i`. -/
def relevant {n : ℕ} (y : Fin n → ℤ) (i : Fin n) : ℕ := (List.finRange n).countP (fun j => decide (y j = y i)) - 1

/-- Return value of `_r_prec_worker`; `nn` only if labels were asked for. -/
structure RItem (K : Type) (w : ℕ) where
  prec : K
  nn : Fin w → Option ℤ

/-- The neighbours used for point `i` (`/repo/hub_toolbox/knn_classification.py` lines 477-509). Dropping the first
one and the cut after `R` (line 499) is `tail` (in `sparseOrder`) and `take`. -/
def rNeighbours [LinearOrder K] [Zero K] (o : ArgPart (XR K)) (rnd : Rnd) {n : ℕ} (S : Fin n → Fin n → XR K)
    (R : ℕ) (i : Fin n) : List (Fin n) :=
  let idx := (sparseOrder o (S i) [(R : ℤ)] (rnd.first i.val (storedCols (S i)))).take R
  if idx.countP (fun x => (S i x).isFinite) = 0 then rnd.again i.val 0 idx else idx

/-- `_r_prec_worker` (`/repo/hub_toolbox/knn_classification.py` lines 468-525) with `y_pred = w`. -/
def rWorker [Field K] [LinearOrder K] (o : ArgPart (XR K)) (rnd : Rnd) {n : ℕ} (S : Fin n → Fin n → XR K)
    (y : Fin n → ℤ) (w : ℕ) (i : Fin n) : RItem K w :=
  let R := relevant y i
  if R = 0 then { prec := 0, nn := fun _ => none }
  else
    let yPredicted := (rNeighbours o rnd S R i).map y
    let correct := yPredicted.countP (fun v => decide (v = y i))
    if correct = 0 then { prec := 0, nn := fun _ => none }
    else { prec := (correct : K) / (R : K), nn := fun a => (yPredicted.take w)[a.val]? }

/-- Return value of `r_precision`. -/
structure RRes (K : Type) (n w : ℕ) where
  macroAvg : XR K
  weighted : K
  perItem : Fin n → K
  relevantItems : Fin n → ℕ
  yPred : Fin n → Fin w → Option ℤ

/-- `r_precision` (`/repo/hub_toolbox/knn_classification.py` lines 528-644), with `return_y_pred = w`. `np.average`
raises if the weights sum to zero (line 639). -/
def rPrecision [Field K] [LinearOrder K] (o : ArgPart (XR K)) (rnd : Rnd) (S : PyMat (XR K)) (target : PyVec ℤ)
    (metric : String) (w : ℕ) : Py (Σ n, RRes K n w) := do
  let (sp, ⟨n, a, y⟩) ← checkMatrixLabels S target
  checkValidMetric metric
  if metric ≠ "similarity" ∨ sp = false then throw .notImplementedError
  let r := rWorker o rnd a y w
  let wsum := ((List.finRange n).map (relevant y)).sum
  if wsum = 0 then throw .zeroDivisionError
  pure ⟨n,
    { macroAvg := if n = 0 then .nan else .fin (((List.finRange n).map (fun i => (r i).prec)).sum / (n : K))
      weighted := ((List.finRange n).map (fun i => (r i).prec * (relevant y i : K))).sum / (wsum : K)
      perItem := fun i => (r i).prec
      relevantItems := relevant y
      yPred := fun i => (r i).nn }⟩

end HubToolbox.Knn
