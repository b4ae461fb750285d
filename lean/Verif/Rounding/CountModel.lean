import Verif.Rounding.Format
import Verif.SNN.Model

/-!
# Secondary distances from counts, with rounding

Empirical Mutual Proximity and shared nearest neighbours as in `Verif/MPEmp/Model.lean` and `Verif/SNN/Model.lean`, with
all results of arithmetic operations rounded. `R` is the arithmetic of the operations (float64), `S` that of the array
which receives the results (`np.zeros_like(D)`, so float32 for a float32 matrix `D`).
-/

set_option autoImplicit false

namespace HubToolbox.Rounding

variable {K : Type} [Field K] [LinearOrder K]

/-- `np.sum(mask) / n` (`/repo/hub_toolbox/global_scaling.py` lines 180-183, 290-293). -/
def ratio (R : Rounding K) (c n : ℕ) : XR K := R.div (R.ofNat c) (R.ofNat n)

/-- One entry (`/repo/hub_toolbox/global_scaling.py` lines 286-293, 174-183). -/
def mpEntry (R : Rounding K) {s : ℕ} (metric : String) (dI dJ : Fin s → XR K) (d : XR K) : XR K :=
  if metric = "similarity" then
    R.ratio (Np.countTrue (fun x => decide (XR.fle (dI x) d) && decide (XR.fle (dJ x) d))) s
  else
    R.sub (.fin 1) (R.ratio (Np.countTrue (fun x => decide (XR.flt d (dI x)) && decide (XR.flt d (dJ x)))) s)

/-- Dense part of `_mutual_proximity_empiric_full` (`/repo/hub_toolbox/global_scaling.py` lines 271-299). -/
def mpDense (R S : Rounding K) {n : ℕ} (metric : String) (D : Fin n → Fin n → XR K) : Fin n → Fin n → XR K :=
  let D := Np.fillDiagonal D (MPEmp.excludeValue metric)
  let Dmp := ((List.finRange n).take (n - 1)).foldl (fun (M : Fin n → Fin n → XR K) (i : Fin n) =>
    Np.setRowFrom M i (i.val + 1) (fun j => S.up (R.mpEntry metric (D i) (D j) (D j i)))) (fun _ _ => .fin 0)
  Np.fillDiagonal (fun i j => S.add (Dmp i j) (Dmp j i)) (.fin (MPEmp.selfValue metric))

/-- `mutual_proximity_empiric` of a dense matrix without `sample_ind` (`/repo/hub_toolbox/global_scaling.py` lines 28-87,
245-299). -/
def mpEmpiric (R S : Rounding K) (D : PyMat (XR K)) (metric : String) (test : Option MPEmp.TestArg) :
    Py (Σ n : ℕ, Fin n → Fin n → XR K) :=
  match D with
  | .noArray => .error .attributeError
  | .otherDim d _ => .error (if d = 0 then .indexError else .typeError)
  | .mat _ n m a =>
    if h : n = m then do
      MPEmp.fullChecks false metric test
      pure ⟨n, R.mpDense S metric (fun i j => a i (j.cast h))⟩
    else .error .typeError

/-- `1. - Dij / k` or `Dij / k` (`/repo/hub_toolbox/shared_neighbors.py` lines 193-196, 288-291). -/
def snnEntry (R : Rounding K) (metric : String) (k : ℤ) (c : ℕ) : XR K :=
  let q : XR K := R.div (R.ofNat c) (R.rnd (k : K))
  if metric = "distance" then R.sub (.fin 1) q else q

/-- Second phase in one process (`/repo/hub_toolbox/shared_neighbors.py` lines 281-291). -/
def snnSerial (R S : Rounding K) (metric : String) (k : ℤ) {n : ℕ} (knn : Fin n → Fin n → Bool) : Fin n → Fin n → XR K :=
  (List.finRange n).foldl (fun (M : Fin n → Fin n → XR K) (i : Fin n) =>
    Np.setRowFrom M i (i.val + 1) (fun j => S.up (R.snnEntry metric k (SNN.overlap (knn i) (knn j))))) (fun _ _ => .fin 0)

/-- Second phase by worker processes, which share an array of doubles (`/repo/hub_toolbox/shared_neighbors.py`
lines 189-197, 260-273). -/
def snnParallel (R : Rounding K) (w : SNN.World K) (metric : String) (k : ℤ) {n : ℕ} (knn : Fin n → Fin n → Bool) :
    Fin n → Fin n → XR K :=
  let mem := Sched.exec (fun _ : Fin n × Fin n => (.fin 0 : XR K))
    (w.sched ((List.finRange n).flatMap (fun (i : Fin n) =>
      ((List.finRange n).filter (fun (j : Fin n) => decide (i < j))).map
        (fun j => ((i, j), R.snnEntry metric k (SNN.overlap (knn i) (knn j)))))))
  fun i j => mem (i, j)

/-- `shared_nearest_neighbors` on a dense square matrix (`/repo/hub_toolbox/shared_neighbors.py` lines 242-295). -/
def snnCore (R S : Rounding K) (w : SNN.World K) {n : ℕ} (D : Fin n → Fin n → XR K) (k : ℤ) (metric : String)
    (nJobs : ℤ) : Py (Fin n → Fin n → XR K) := do
  let kth := SNN.kthOf metric n k
  let D := Np.fillDiagonal D (SNN.exclude metric)
  let sel ← Np.tabulateM (fun i => SNN.hood w.part metric kth k (D i))
  let (P, M) := if SNN.jobs w nJobs > 1 then (R, R.snnParallel w metric k (SNN.markParallel w sel))
    else (S, R.snnSerial S metric k (SNN.markSerial sel))
  pure (Np.fillDiagonal (fun i j => P.add (M i j) (M j i)) (SNN.selfValue metric))

/-- `shared_nearest_neighbors` (`/repo/hub_toolbox/shared_neighbors.py` lines 199-295). -/
def sharedNearestNeighbors (R S : Rounding K) (w : SNN.World K) (D : PyMat (XR K)) (k : ℤ) (metric : String)
    (nJobs : ℤ) : Py (Σ n : ℕ, Fin n → Fin n → XR K) := do
  let (sp, ⟨n, D⟩) ← D.checkSquare
  checkValidMetric metric
  if sp then throw .attributeError
  let M ← R.snnCore S w D k metric nJobs
  pure ⟨n, M⟩

end HubToolbox.Rounding
